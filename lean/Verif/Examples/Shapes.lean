import Verif.Props.Shapes
import Verif.Examples.Effects
/-
Concrete cases that meet the hypotheses of the theorems of Props/Shapes.
-/
namespace Upon.Demo
open Spec
namespace Shapes
open Plain

/-- Integers that fit `i64`. -/
def number : Plain.Shape := fun v => ∃ i, v = .integer i ∧ Fits asciiEnv .i64 i
/-- What the default formatter shows. -/
def printable : Plain.Shape := fun v => (∀ l, v ≠ .list l) ∧ ∀ m, v ≠ .map m
/-- Data for `main`: a list `xs` of records with a number `n`, and a map `a` of printable values. -/
def dataShape : Plain.Shape := record [(['x', 's'], listOf (record [(['n'], number)])), (['a'], mapOf printable)]

theorem main_plain : ofStmts main.source main.body = [.forLoop (.item ['x']) (.base (.var ['x', 's'] ⟨.direct, .key ['x', 's']⟩ []))
    [.expr (.call "add".toList (some [.lit (.integer 1)]) (.base (.var ['x'] ⟨.direct, .key ['x']⟩ [⟨.direct, .key ['n']⟩]))), .char ','],
    .include_ ['b'] none] := by rfl
theorem b_plain : ofStmts b.source b.body =
    [.char '[', .expr (.base (.var ['a'] ⟨.direct, .key ['a']⟩ [⟨.optional, .key ['k']⟩])), .char ']'] := by rfl

/-- A field of a record. -/
theorem along_field {fs : List (Str × Plain.Shape)} {k : Str} {s : Plain.Shape} (h : (k, s) ∈ fs) {ms : List ValueMember} {u : Plain.Shape} (hu : Along s ms u) {op : AccessOp} :
    Along (record fs) (⟨op, .key k⟩ :: ms) u := by
  rintro _ ⟨m, rfl, hm⟩
  obtain ⟨x, hx, sx⟩ := hm k s h
  simp only [Plain.walk, hx]
  exact hu x sx

theorem along_nil {s : Plain.Shape} : Along s [] s := fun v h => ⟨v, rfl, h⟩

/-- A key that may be missing. -/
theorem along_maybe {k : Str} : Along (mapOf printable) [⟨.optional, .key k⟩] printable := by
  rintro _ ⟨m, rfl, hm⟩
  cases hk : BMap.get m k with
  | none => exact ⟨.none, by simp only [Plain.walk, hk]; rfl, by simp [printable]⟩
  | some x => exact ⟨x, by simp only [Plain.walk, hk], hm k x (get_some_mem hk)⟩

theorem add_total : Plain.Total asciiEnv add number [fun v => v = .integer 1] printable := by
  rintro _ vs ⟨i, rfl, hi⟩ hvs
  cases hvs with | cons h1 h2 => cases h2; subst h1; exact ⟨.int i, [.int 1], _, .int hi, .cons (.int (by simp [Fits])) .nil, rfl, by simp [printable]⟩

/-- `main`, which loops and includes `b`, checks against the shape of its data. -/
theorem main_works (a : AC.Auto) (v : Value) :
    Works (surroundings asciiEnv tree (renderer a 64 main none v)) 63 [.globals true dataShape] (ofStmts main.source main.body) := by
  rw [main_plain]
  refine .for_ (s := record [(['n'], number)]) (.var (.globals (along_field (by simp) along_nil))) ?_ ?_
  · refine .expr (l := false) (s := printable) (.call (l := true) (s := number) (ss := [fun v => v = .integer 1]) (f := add) ?_ rfl ?_ add_total) ?_ (.char .nil)
    · exact .var (.item (by decide) (by simp) (along_field (by simp) along_nil))
    · exact .lit rfl .nil
    · intro w hw; exact (C65_shows asciiEnv w).mpr hw
  · refine .include_ (body := ofStmts b.source b.body) ⟨code b, by rfl, ?_⟩ ?_ .nil
    · rw [show tree (code b) = b from by decide]
    · rw [b_plain]
      refine .char (.expr (s := printable) (.var (.globals (along_field (by simp) along_maybe))) ?_ (.char .nil))
      intro w hw; exact (C65_shows asciiEnv w).mpr hw

theorem main_steady (a : AC.Auto) (dp : Nat) (v : Value) : Steady asciiEnv tree (renderer a dp main none v) where
  parsed := tree_parsed
  tame t ht := by
    rcases includable ht with ⟨_, e⟩ | ⟨_, e⟩ | ⟨_, e⟩ | ⟨_, e⟩ <;> rw [e]
    exacts [b_tame, d_tame, f_tame, h_tame]
  steady f hf := by cases hf

/-- So `main` renders without an error for all data of that shape. -/
theorem main_fine (a : AC.Auto) (v : Value) (hv : dataShape v) {res : Res Str} (h : (renderer a 64 main none v).ToString asciiEnv res) :
    ∃ text, res = .ok text :=
  C65_to_string (main_steady a 64 v) (parsed (by simp [all])) main_tame (.data (.inl rfl) hv) (main_works a v) h

/-- The data of the other examples has that shape. -/
theorem people_shape : dataShape people := by
  refine ⟨_, rfl, ?_⟩
  intro k s hk
  simp only [List.mem_cons, List.not_mem_nil, or_false, Prod.mk.injEq] at hk
  rcases hk with ⟨rfl, rfl⟩ | ⟨rfl, rfl⟩
  · refine ⟨.list [globals [("n", .integer 1)], globals [("n", .integer 41)]], rfl, _, rfl, ?_⟩
    intro x hx
    simp only [List.mem_cons, List.not_mem_nil, or_false] at hx
    rcases hx with rfl | rfl
    all_goals
      refine ⟨_, rfl, ?_⟩
      intro k s hk
      simp only [List.mem_cons, List.not_mem_nil, or_false, Prod.mk.injEq] at hk
      obtain ⟨rfl, rfl⟩ := hk
      exact ⟨_, rfl, _, rfl, by simp [Fits]⟩
  · refine ⟨globals [("k", .bool true)], rfl, _, rfl, ?_⟩
    intro k x hk
    simp [globals] at hk
    obtain ⟨rfl, rfl⟩ := hk
    simp [printable]

example (a : AC.Auto) : ∃ text, (.ok "2,42,[true]".toList : Res Str) = .ok text := main_fine a people people_shape (main_string a)

example (a : AC.Auto) {ω : Type} {io : IoWriter ω} {log : ω → List UInt8} (ha : Accepts io log) (w₀ : ω) (v : Value) (hv : dataShape v) {res : Res Unit} {w : ω}
    (h : (renderer a 64 main none v).ToWriter asciiEnv io w₀ res w) : res = .ok () :=
  C65_to_writer (main_steady a 64 v) (parsed (by simp [all])) main_tame (.data (.inl rfl) hv) (main_works a v) ha w₀ h

/-- Where a condition is known to hold: `{% if u?.n %}{{ u.n }}{% endif %}` for a `u` that may lack `n`. -/
example (a : AC.Auto) (v : Value) : Works (surroundings asciiEnv tree (renderer a 64 main none v)) 0 [.globals true (record [(['u'], mapOf printable)])]
    [.ifElse false (.base (.var ['u'] ⟨.direct, .key ['u']⟩ [⟨.optional, .key ['n']⟩]))
      [.expr (.base (.var ['u'] ⟨.direct, .key ['u']⟩ [⟨.direct, .key ['n']⟩]))] none] := by
  refine .if_ (s := printable) (.var (.globals (along_field (by simp) along_maybe))) (.var .globals) (.expr (s := printable) (.var (.globals ?_)) ?_ .nil) .nil
  · rintro _ ⟨⟨m, rfl, hm⟩, hw⟩
    obtain ⟨u, hu, x, rfl, hx⟩ := hm ['u'] (mapOf printable) (by simp)
    cases hk : BMap.get x ['n'] with
    | none =>
      have := hw .none (by simp only [Plain.walk, hu, hk]; rfl)
      simp [truthy] at this
    | some y => exact ⟨y, by simp only [Plain.walk, hu, hk], hx _ y (get_some_mem hk)⟩
  · intro w hw; exact (C65_shows asciiEnv w).mpr hw

end Shapes
end Upon.Demo
