import Verif.Props.Effects
import Verif.Examples.Whole
import Verif.Examples.Escaping
/-
Concrete cases for C58.
-/
namespace Upon.Demo
open Spec

/-- A filter that adds to the sum how late it is, and a default formatter that writes a `~` first at even moments. -/
def ticking (t : Nat) : Behaviour :=
  ⟨[("add".toList, .filter ⟨.int .i64, [.int .i64], fun
      | .int a, [.int b] => .ok (.integer (a + b + t))
      | _, _ => .error "no"⟩)],
    fun v => if t % 2 = 0 then .write ['~'] fun ok => if ok then fmtDefault asciiEnv v else .done (.error none) else fmtDefault asciiEnv v,
    fun _ => .ok .none⟩

/-- Two calls of `add` with the same arguments, on values of the list. -/
def same : Value := globals [("a", globals [("k", .bool true)]), ("xs", .list [globals [("n", .integer 1)], globals [("n", .integer 1)]])]

def tickingRun (dp : Nat) (T : Tree) (v : Value) (n : Nat) : Option (RunRes Str) :=
  runActing ⟨asciiEnv, fmtDefault asciiEnv, [("add".toList, .filter add)],
    [(['b'], code b), (['d'], code d), (['f'], code f), (['h'], code h)], none, dp, stringSink⟩ ticking n 0
    (initVM (code T) none (.scope (.borrowed v)) [])

theorem main_ticking : tickingRun 64 main same 50 = some (.ok ⟨"6,12,[~true]".toList, []⟩) := by decide +kernel

/-- The two calls give different results. -/
theorem main_acting (a : AC.Auto) : (renderer a 64 main none same).ToStringActing asciiEnv ticking (.ok "6,12,[~true]".toList) :=
  .ok (.scope (.borrowed same)) ⟨"6,12,[~true]".toList, []⟩ rfl ⟨50, main_ticking⟩

/-! C58 -/

example (a : AC.Auto) (res : Res Str) (h : (renderer a 64 main none same).ToStringActing asciiEnv ticking res) : res = .ok "6,12,[~true]".toList := by
  obtain ⟨r, _, h2⟩ := C58_to_string (healthy a 64 (T := main) (by simp [all]) none same) ticking
  rw [h2 _ h, h2 _ (main_acting a)]

example (a : AC.Auto) : ∃ z, renderAt asBuilt ((renderer a 64 main none same).cfg asciiEnv stringSink) ticking tree main none
    [.globals (.borrowed same)] ⟨[], []⟩ 0 (.ok ⟨"6,12,[~true]".toList, []⟩) z := by
  obtain ⟨res, _, h2, z, hz⟩ := C58_render (b := .scope (.borrowed same)) (r := renderer a 64 main none same) (T := main) tree_parsed
    (parsed (by simp [all])) rfl ticking []
  rw [← h2 _ ⟨50, main_ticking⟩] at hz
  exact ⟨z, hz⟩

/-- A template that includes itself, whatever the functions do. -/
example (a : AC.Auto) (dp : Nat) (bs : Nat → Behaviour) : ∃ res, (renderer a dp h none people).ToStringActing asciiEnv bs res ∧
    ∀ res', (renderer a dp h none people).ToStringActing asciiEnv bs res' → res' = res :=
  C58_to_string (healthy a dp (by simp [all]) none people) bs

/-- With the functions of the engine. -/
example (a : AC.Auto) : (renderer a 64 main none people).ToStringActing asciiEnv (fun _ => (renderer a 64 main none people).own)
    (.ok "2,42,[true]".toList) :=
  (C58_pure (healthy a 64 (T := main) (by simp [all]) none people) _).mpr (main_string a)

/-- With those of moment 7, always. -/
example (a : AC.Auto) (res : Res Str) (h : ((renderer a 64 main none people).acting (ticking 7)).ToString asciiEnv res) :
    (renderer a 64 main none people).ToStringActing asciiEnv (fun _ => ticking 7) res :=
  (C58_same (healthy a 64 (T := main) (by simp [all]) none people) _ _).mpr h

theorem main_tame : Tame main.body := by unfold main; simp [Tame, TameStmt]
theorem b_tame : Tame b.body := by unfold b; simp [Tame, TameStmt]
theorem d_tame : Tame d.body := by unfold d; simp [Tame, TameStmt]
theorem f_tame : Tame f.body := by unfold f; simp [Tame, TameStmt]
theorem h_tame : Tame h.body := by unfold h; simp [Tame, TameStmt]

example (a : AC.Auto) (bs : Nat → Behaviour) : ∃ res, HaltsActing ((renderer a 64 main none same).cfg asciiEnv stringSink) bs
    (initVM (code main) none (.scope (.borrowed same)) []) res ∧ res ≠ .crash := by
  refine C58_tame (r := renderer a 64 main none same) (tree := tree) (T := main) (fun t ht => ⟨tree_parsed t ht, ?_⟩)
    (parsed (by simp [all])) main_tame rfl bs []
  rcases includable ht with ⟨_, e⟩ | ⟨_, e⟩ | ⟨_, e⟩ | ⟨_, e⟩ <;> rw [e]
  exacts [b_tame, d_tame, f_tame, h_tame]

/-- A default formatter that escapes, but shows only what it is given first; later it writes nothing. -/
def jealous (t : Nat) : Behaviour :=
  ⟨[("unescape".toList, .formatter (fmtDefault asciiEnv))], if t < 4 then escapeHtml asciiEnv else fun _ => .done (.ok ()), fun _ => .ok .none⟩

example (a : AC.Auto) (v : Value) {s : Str} (hs : (escaping a v).ToStringActing asciiEnv jealous (.ok s)) : Clean s := by
  refine C58_output (tree := fun _ => qB) (T := esc) ⟨(esc_safe a v).text, fun t v => ?_, fun _ => (esc_safe a v).named⟩
    esc_all esc_parsed (by intro c h; cases h) (fun _ _ => Clean.append) hs
  unfold jealous
  dsimp only
  split
  · exact escapeHtml_writes v
  · exact .done _

end Upon.Demo
