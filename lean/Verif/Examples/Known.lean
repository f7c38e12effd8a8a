import Verif.Props.Known
import Verif.Props.Related
import Verif.Examples.Fill
/-
Concrete cases that meet the hypotheses of the theorems of Props/Known.
-/
namespace Upon.Demo.Known
open Spec

/-- `n.m` -/
def path (op : AccessOp) (a b s c d : Nat) : Var := ⟨⟨.direct, .key ⟨⟨a, b⟩⟩, ⟨a, b⟩⟩, [⟨op, .key ⟨⟨c, d⟩⟩, ⟨s, d⟩⟩]⟩

/-- A template with a tag with a filter, a condition, a loop and a question. -/
def general : Tree := ⟨"{{ k | add: u.n }}{% if l %}a{{ u.n }}{% else %}{{ z }}{% endif %}{% for x in e %}{{ x.y }}{% endfor %}{% if u?.z %}!{% endif %}".toList,
  [.inlineExpr (.call ⟨⟨7, 10⟩⟩ (some ⟨[.var (path .direct 12 13 13 14 15)], ⟨10, 15⟩⟩) (.base (.var (name 3 4))) ⟨3, 15⟩) ⟨0, 18⟩,
    .ifElse false (.base (.var (name 24 25))) [.raw ⟨28, 29⟩, .inlineExpr (.base (.var (path .direct 32 33 33 34 35))) ⟨29, 38⟩]
      (some [.inlineExpr (.base (.var (name 51 52))) ⟨48, 55⟩]),
    .forLoop (.item ⟨⟨73, 74⟩⟩) (.base (.var (name 78 79))) [.inlineExpr (.base (.var (path .direct 85 86 86 87 88))) ⟨82, 91⟩],
    .ifElse false (.base (.var (path .optional 109 110 110 112 113))) [.raw ⟨116, 117⟩] none]⟩
/-- Specialised, except for the loop. -/
def special : Tree := ⟨"8a3{% for x in e %}{{ x.y }}{% endfor %}".toList,
  [.raw ⟨0, 3⟩, .forLoop (.item ⟨⟨10, 11⟩⟩) (.base (.var (name 15 16))) [.inlineExpr (.base (.var (path .direct 22 23 23 24 25))) ⟨19, 28⟩]]⟩

set_option maxRecDepth 100000 in
theorem checked : (AC.new Syn.default).map (fun a => [general, special, Demo.Fill.inner].all fun T =>
    decide (Parser.parseTemplate ⟨asciiEnv, a, T.source⟩ = .ok T.body)) = some true := by decide +kernel

theorem parsed {T : Tree} (hT : T ∈ [general, special, Demo.Fill.inner]) : Parsed asciiEnv (code T) T := by
  obtain ⟨a, ha⟩ := default_setup asciiEnv T.source
  have hk := checked
  rw [show AC.new Syn.default = some a from ha.searcher] at hk
  have hk := List.all_eq_true.mp (Option.some.inj hk) T hT
  have hp := of_decide_eq_true hk
  have hc : compileSource ⟨asciiEnv, a, T.source⟩ = .ok (code T) := by
    rw [compileSource, hp, Res.ok_bind, Compiler.compileTemplate_eq]; rfl
  obtain ⟨ts, h1, h2⟩ := (parseTemplate_iff (good ha (default_tidy _)) T.body).mp hp
  have hcl : Closed ts := by
    simpa using gstmts_closed h2 (rest := []) (by intro xs t ys e; simp at e)
  exact ⟨defaultBuilder, a, ts, ha, default_tidy _, hc, (C06_layout ha (default_tidy _) ts).mp ⟨h1, hcl⟩, h2⟩

/-- The globals: there is no `z`. -/
def data : Value := globals [("e", .list []), ("k", .integer 5), ("l", .list [.integer 1, .integer 2]), ("u", globals [("n", .integer 3)])]

/-- `n` -/
abbrev v (n : Char) : Plain.Base := .var [n] ⟨.direct, .key [n]⟩ []
/-- `n.m` -/
abbrev vm (n : Char) (op : AccessOp) (m : Char) : Plain.Base := .var [n] ⟨.direct, .key [n]⟩ [⟨op, .key [m]⟩]

set_option maxRecDepth 100000 in
theorem general_tree : Plain.ofStmts general.source general.body = [.expr (.call "add".toList (some [vm 'u' .direct 'n']) (.base (v 'k'))),
    .ifElse false (.base (v 'l')) [.char 'a', .expr (.base (vm 'u' .direct 'n'))] (some [.expr (.base (v 'z'))]),
    .forLoop (.item ['x']) (.base (v 'e')) [.expr (.base (vm 'x' .direct 'y'))],
    .ifElse false (.base (vm 'u' .optional 'z')) [.char '!'] none] := by rfl
set_option maxRecDepth 100000 in
theorem special_tree : Plain.ofStmts special.source special.body = [.char '8', .char 'a', .char '3',
    .forLoop (.item ['x']) (.base (v 'e')) [.expr (.base (vm 'x' .direct 'y'))]] := by rfl

theorem shows {n : Int} {t : Str} (h : fmtDefault asciiEnv (.integer n) = .writeAll [t]) : Spec.Appends (fmtDefault asciiEnv) (.integer n) t := by
  simpa using Rel.appends_writeAll h

theorem shows_eight : Spec.Appends (fmtDefault asciiEnv) (.integer 8) ['8'] := shows rfl
theorem shows_three : Spec.Appends (fmtDefault asciiEnv) (.integer 3) ['3'] := shows rfl

theorem k_known : Plain.KnownBase data [] (v 'k') (.integer 5) := .var (by simp) (.key rfl .here)
theorem l_known : Plain.KnownBase data [] (v 'l') (.list [.integer 1, .integer 2]) := .var (by simp) (.key rfl .here)
theorem e_known : Plain.KnownBase data [] (v 'e') (.list []) := .var (by simp) (.key rfl .here)
theorem un_known : Plain.KnownBase data [] (vm 'u' .direct 'n') (.integer 3) := .var (by simp) (.key rfl (.key rfl .here))
theorem uz_known : Plain.KnownBase data [] (vm 'u' .optional 'z') .none := .var (by simp) (.key rfl (.noKey rfl))

/-- The filter `add`. -/
def functions : List (Str × EngFn) := [("add".toList, .filter add)]

theorem sum_known : Plain.KnownExpr asciiEnv functions data [] (.call "add".toList (some [vm 'u' .direct 'n']) (.base (v 'k'))) (.integer 8) :=
  .call (f := add) (xs := [.integer 3]) (.base k_known) rfl (.cons un_known .nil) rfl

theorem specialised : Plain.Specialised asciiEnv functions (fmtDefault asciiEnv) data [] (Plain.ofStmts general.source general.body) (Plain.ofStmts special.source special.body) := by
  rw [general_tree, special_tree]
  exact .shown (.value sum_known shows_eight) (.holds (a' := [.char 'a', .char '3']) (.base l_known) (by decide) (.char (.shown (.value (.base un_known) shows_three) .nil))
    (.for_ (.expr .nil) (.skipped (.base uz_known) (by decide) .nil)))

theorem all_known : Plain.Specialised asciiEnv functions (fmtDefault asciiEnv) data [] (Plain.ofStmts general.source general.body) (['8', 'a', '3'].map .char) := by
  rw [general_tree]
  exact .shown (.value sum_known shows_eight) (.holds (a' := [.char 'a', .char '3']) (ss' := []) (.base l_known) (by decide) (.char (.shown (.value (.base un_known) shows_three) .nil))
    (.noItems (.base e_known) (.skipped (.base uz_known) (by decide) .nil)))

theorem general_tame : Tame general.body := by unfold general; simp [Tame, TameStmt]
theorem special_tame : Tame special.body := by unfold special; simp [Tame, TameStmt]

theorem inner_parsed {a : AC.Auto} {t : Template} (ht : Includable ((pair a general Demo.Fill.inner data).cfg asciiEnv stringSink) t) : Parsed asciiEnv t Demo.Fill.inner :=
  Demo.Fill.includable ht ▸ parsed (by simp)

/-- The two render alike … -/
example (a : AC.Auto) : SpecialisedTo data asciiEnv (fun _ => Demo.Fill.inner) (code general) (code special) general special (pair a general Demo.Fill.inner data) :=
  ⟨.inl rfl, fun t ht => inner_parsed ht, fun t ht => by unfold Demo.Fill.inner; simp [Tame, TameStmt],
    ⟨parsed (by simp), parsed (by simp), general_tame, special_tame, specialised⟩⟩

/-- … namely to `8a3`. -/
example (a : AC.Auto) : (pair a general Demo.Fill.inner data).ToString asciiEnv (.ok ['8', 'a', '3']) :=
  C81_text (tree := fun _ => Demo.Fill.inner) (T := general) (g := data) (.inl rfl) (fun t ht => inner_parsed ht)
    (fun t ht => by unfold Demo.Fill.inner; simp [Tame, TameStmt]) (parsed (by simp)) general_tame all_known

end Upon.Demo.Known
