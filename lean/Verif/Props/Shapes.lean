import Verif.Proofs.Shapes
import Verif.Props.Compose
import Verif.Props.Format
/-
C65: a template that was checked against the shape of its data renders without an error.
-/
namespace Upon
open Spec

/-- What is known of the data at the start of a render. -/
inductive Spec.Starts (r : Renderer) : List Plain.Slot → Prop
  /-- the data is, or serializes to, a value of the shape -/
  | data {v s} : (r.globals = .borrowed v ∨ r.globals = .owned (.ok v)) → s v → Starts r [.globals true s]
  /-- a function that answers these paths with values of the shapes -/
  | function {f A} : r.globals = .fn f → (∀ p s, A p = some s → ∃ x, f p = .ok x ∧ s x) → Starts r [.answers A]

/-- The functions and templates of a render. -/
def Spec.surroundings (env : Env) (tree : Template → Tree) (r : Renderer) : Plain.Surroundings where
  env := env
  function n := BMap.get r.engine.functions n
  default := r.engine.defaultFormatter
  template n body := ∃ t, Provides r n t ∧ body = Plain.ofStmts (tree t).source (tree t).body

section
variable {env : Env} {tree : Template → Tree} {r : Renderer} {T : Tree}

theorem surroundings_around : Plain.Around (surroundings env tree r) (Plain.ofCfg (r.cfg env stringSink) tree) where
  env := rfl
  function _ := rfl
  default := rfl
  template n body := by
    rintro ⟨t, ht, rfl⟩ asked
    unfold Provides at ht
    unfold Plain.ofCfg Renderer.cfg
    dsimp only
    cases hf : r.templateFn with
    | some f => rw [hf] at ht; simp only [ht asked]
    | none => rw [hf] at ht; simp only [Engine.getTemplate] at ht; simp only [ht]

/-- **C65** A template that fits the shape of the data, with includes that nest at most as deep as the limit allows, renders for all data of that shape, and
without an error. -/
theorem C65_to_string (h : Steady env tree r) (hT : Parsed env r.template T) (ht : Tame T.body) {Γ : List Plain.Slot} (hΓ : Starts r Γ)
    (hw : Plain.Works (surroundings env tree r) ((r.maxIncludeDepth.getD r.engine.maxIncludeDepth) - 1) Γ (Plain.ofStmts T.source T.body))
    {res : Res Str} (h1 : r.ToString env res) : ∃ text, res = .ok text := by
  have hb : ∃ b, r.base = .ok b ∧ List.Forall₂ Plain.Fit [ofBase b] Γ := by
    cases hΓ with
    | @data v s hv hs =>
      have hb : r.base = .ok (.scope (.borrowed v)) := by
        rcases hv with hv | hv <;> rw [Renderer.base, hv] <;> rfl
      have hf : Plain.Fit (ofBase (.scope (.borrowed v))) (.globals true s) := ⟨hs, fun _ => ⟨_, rfl⟩⟩
      exact ⟨_, hb, .cons hf .nil⟩
    | @function f A hf hA =>
      have hA : Plain.Fit (ofBase (.valueFn f)) (.answers A) := hA
      exact ⟨_, by rw [Renderer.base, hf], .cons hA .nil⟩
  obtain ⟨b, hb, hfit⟩ := hb
  have e := to_string_plain h hT ht hb h1
  obtain ⟨w, hs⟩ := Plain.works (surroundings_around (env := env) (tree := tree) (r := r)) hw
    (left := (r.maxIncludeDepth.getD r.engine.maxIncludeDepth) - 1) r.name (Nat.le_refl _) hfit ⟨[], []⟩
  have hs : Plain.render (Plain.ofCfg (r.cfg env stringSink) tree) (Plain.ofStmts T.source T.body) r.name [ofBase b] ⟨[], []⟩ = .ok w := hs
  rw [hs] at e
  cases res with
  | ok text => exact ⟨text, rfl⟩
  | err x => cases e
  | crash => cases e

/-- **C65** So also on every writer that takes what it is given. -/
theorem C65_to_writer {ω : Type} (h : Steady env tree r) (hT : Parsed env r.template T) (ht : Tame T.body) {Γ : List Plain.Slot} (hΓ : Starts r Γ)
    (hw : Plain.Works (surroundings env tree r) ((r.maxIncludeDepth.getD r.engine.maxIncludeDepth) - 1) Γ (Plain.ofStmts T.source T.body))
    {io : IoWriter ω} {log : ω → List UInt8} (ha : Accepts io log) (w₀ : ω) {res : Res Unit} {w : ω} (h1 : r.ToWriter env io w₀ res w) : res = .ok () := by
  rcases to_string_of_writer ha w₀ h1 with ⟨_, rfl, _⟩ | ⟨_, _, h2⟩ | ⟨_, h2⟩
  · rfl
  all_goals obtain ⟨_, e⟩ := C65_to_string h hT ht hΓ hw h2; cases e

/-- **C65** The default formatter shows every value that has a printed form: all but lists and maps. -/
theorem C65_shows (env : Env) (v : Value) : Plain.Shows (fmtDefault env) v ↔ (∀ l, v ≠ .list l) ∧ ∀ m, v ≠ .map m := by
  constructor
  · intro h
    obtain ⟨o, ho⟩ := h []
    constructor <;> rintro x rfl <;> exact absurd ho (by simp [fmtDefault, FmtProg.run])
  · rintro ⟨h1, h2⟩ out
    have hp : ∃ t, Prints env v t := by
      rcases prints_or_container (env := env) v with h | h
      · exact h
      · cases v <;> first | exact h.elim | exact absurd rfl (h1 _) | exact absurd rfl (h2 _)
    obtain ⟨t, hp⟩ := hp
    obtain ⟨ps, s', ok, h3, h4, h5⟩ := C32_any_output hp stringSink out
    have : ok = true := by
      clear h5 hp h3
      induction h4 with
      | done => rfl
      | next _ _ ih => exact ih
      | fail h => simp [stringSink] at h
    rw [this] at h5
    exact ⟨s', h5⟩

end
end Upon
