import Verif.Props.Include
/-
C15, C16, C40: whole renders.
-/
namespace Upon
open Spec Compiler
variable {σ : Type}

/-- The template rendered, and every template it may include, was compiled by an engine. -/
structure Spec.Healthy (env : Env) (r : Renderer) : Prop where
  main : Compiled env r.template
  included : match r.templateFn with
    | some f => ∀ asked n t, f asked n = .ok t → Compiled env t
    | none => ∀ n t, r.engine.getTemplate n = some t → Compiled env t

theorem Spec.Healthy.all {env : Env} {r : Renderer} (h : Healthy env r) (sink : Sink σ) :
    AllCompiled (r.cfg env sink) := by
  intro t ht
  have hi := h.included
  rw [Includable] at ht
  dsimp only [Renderer.cfg] at ht ⊢
  cases hf : r.templateFn with
  | some f =>
    rw [hf] at ht hi
    obtain ⟨a, n, h⟩ := ht
    exact hi a n t h
  | none =>
    rw [hf] at ht hi
    obtain ⟨n, h⟩ := ht
    exact hi n t h

theorem base_cases {r : Renderer} {b : SState} (hb : r.base = .ok b) :
    (∃ f, b = .valueFn f ∧ ofBase b = .provider f) ∨ (∃ c, b = .scope c ∧ ofBase b = .globals c) := by
  unfold Renderer.base at hb
  split at hb
  · rename_i res _
    cases res with
    | ok v => simp at hb; subst hb; exact Or.inr ⟨_, rfl, rfl⟩
    | err => simp at hb
    | crash => simp at hb
  · simp at hb; subst hb; exact Or.inr ⟨_, rfl, rfl⟩
  · simp at hb; subst hb; exact Or.inl ⟨_, rfl, rfl⟩

/-- **C16** Rendering ends exactly as the meaning of the template's tree says, for every output sink. -/
theorem C16_render {env : Env} {r : Renderer} {sink : Sink σ} {tree : Template → Tree}
    (ht : ∀ t, Includable (r.cfg env sink) t → Parsed env t (tree t)) {T : Tree} (hT : Parsed env r.template T)
    {b : SState} (hb : r.base = .ok b) (out : σ) (res : RunRes σ) :
    Halts (r.cfg env sink) (initVM r.template r.name b out) res ↔
      res = Spec.render asBuilt (r.cfg env sink) tree T r.name [ofBase b] ⟨out, []⟩ := by
  have hc : compileTemplate r.template.source T.body = some r.template := by
    rw [← hT.source]; exact hT.code
  have hc' := base_cases hb
  have key := render_halts (cfg := r.cfg env sink) (tree := tree) (fun t h => (ht t h).code) hc (base := b)
    (b := ofBase b) (by
      rcases hc' with ⟨f, h1, h2⟩ | ⟨c, h1, h2⟩
      · exact Or.inl ⟨f, h1, h2⟩
      · exact Or.inr ⟨c, h1, h2⟩) r.name out
  rw [show (⟨r.template.source, T.body⟩ : Tree) = T by rw [← hT.source]] at key
  exact ⟨fun h => h.unique key, fun h => h ▸ key⟩

/-- What `to_string` returns, given how the render ended. -/
def Spec.stringResult : RunRes Str → Res Str
  | .ok w => .ok w.out
  | .err e _ => .err e
  | .crash => .crash

/-- **C16** `to_string` returns what the meaning of the tree says, and nothing else. -/
theorem C16_to_string {env : Env} {r : Renderer} {tree : Template → Tree}
    (ht : ∀ t, Includable (r.cfg env stringSink) t → Parsed env t (tree t)) {T : Tree} (hT : Parsed env r.template T)
    {b : SState} (hb : r.base = .ok b) (res : Res Str) :
    r.ToString env res ↔
      res = stringResult (Spec.render asBuilt (r.cfg env stringSink) tree T r.name [ofBase b] ⟨[], []⟩) := by
  have key := fun r' => C16_render ht hT hb ([] : Str) r'
  generalize Spec.render asBuilt (r.cfg env stringSink) tree T r.name [ofBase b] ⟨[], []⟩ = m at key
  constructor
  · intro h
    cases h with
    | globalsErr e h => rw [hb] at h; cases h
    | globalsCrash h => rw [hb] at h; cases h
    | ok b' w h1 h2 => rw [hb] at h1; cases h1; rw [← (key _).mp h2]; rfl
    | err b' e w h1 h2 => rw [hb] at h1; cases h1; rw [← (key _).mp h2]; rfl
    | crash b' h1 h2 => rw [hb] at h1; cases h1; rw [← (key _).mp h2]; rfl
  · rintro rfl
    cases m with
    | ok w => exact .ok b w hb ((key _).mpr rfl)
    | err e w => exact .err b e w hb ((key _).mpr rfl)
    | crash => exact .crash b hb ((key _).mpr rfl)

/-- **C15** Rendering always ends, whatever the templates include. -/
theorem C15_terminates {env : Env} {r : Renderer} (h : Healthy env r) {sink : Sink σ} {b : SState} (hb : r.base = .ok b)
    (out : σ) : ∃ res, Halts (r.cfg env sink) (initVM r.template r.name b out) res := by
  obtain ⟨tree, ht⟩ := trees_exist (h.all sink)
  obtain ⟨T, hT⟩ := compiled_parsed h.main
  exact ⟨_, (C16_render ht hT hb out _).mpr rfl⟩

/-- **C15**, **C40** `to_string` returns, and returns only one thing. -/
theorem C40_to_string {env : Env} {r : Renderer} (h : Healthy env r) :
    ∃ res, r.ToString env res ∧ ∀ res', r.ToString env res' → res' = res := by
  cases hb : r.base with
  | ok b =>
    obtain ⟨tree, ht⟩ := trees_exist (h.all stringSink)
    obtain ⟨T, hT⟩ := compiled_parsed h.main
    exact ⟨_, (C16_to_string ht hT hb _).mpr rfl, fun r' h' => (C16_to_string ht hT hb _).mp h'⟩
  | err e =>
    refine ⟨_, .globalsErr e hb, fun r' h' => ?_⟩
    cases h' with
    | globalsErr e' h => rw [hb] at h; cases h; rfl
    | globalsCrash h => rw [hb] at h; cases h
    | ok b' w h1 h2 => rw [hb] at h1; cases h1
    | err b' e w h1 h2 => rw [hb] at h1; cases h1
    | crash b' h1 h2 => rw [hb] at h1; cases h1
  | crash =>
    refine ⟨_, .globalsCrash hb, fun r' h' => ?_⟩
    cases h' with
    | globalsErr e' h => rw [hb] at h; cases h
    | globalsCrash h => rfl
    | ok b' w h1 h2 => rw [hb] at h1; cases h1
    | err b' e w h1 h2 => rw [hb] at h1; cases h1
    | crash b' h1 h2 => rfl

/-- A render starts as a piece: the whole body, on the globals, with no other template active. -/
theorem render_piece {env : Env} {r : Renderer} {sink : Sink σ} {T : Tree} (hT : Parsed env r.template T) (b : SState)
    (out : σ) (res : RunRes σ) :
    Halts (r.cfg env sink) (initVM r.template r.name b out) res ↔
      Piece (r.cfg env sink) 0 r.name T.source T.body [b] ⟨out, []⟩ res := by
  rw [Piece]
  constructor
  · intro h; exact ⟨_, hT.code, h⟩
  · rintro ⟨t, h1, h2⟩
    rw [hT.code] at h1; cases h1; exact h2

end Upon
