import Verif.Proofs.Mentions
import Verif.Props.Writers
/-
C43: a render depends only on what the templates mention.
-/
namespace Upon
open Spec
variable {σ : Type}

/-- Two renderers of the same template that differ in globals, filters, formatters and templates, but agree on those that the
template and the templates it needs mention. `T` is the tree of the template, `tree` gives those of the others. -/
structure Spec.Alike (env : Env) (tree : Template → Tree) (T : Tree) (r r' : Renderer) : Prop where
  template : r.template = r'.template
  name : r.name = r'.name
  formatter : r.engine.defaultFormatter = r'.engine.defaultFormatter
  provider : r.templateFn = r'.templateFn
  depth : r.maxIncludeDepth.getD r.engine.maxIncludeDepth = r'.maxIncludeDepth.getD r'.engine.maxIncludeDepth
  parsed : Parsed env r.template T
  trees : ∀ t, Includable (r.cfg env stringSink) t ∨ Includable (r'.cfg env stringSink) t → Parsed env t (tree t)
  mentioned : ∃ b b', r.base = .ok b ∧ r'.base = .ok b' ∧
    ∀ U, Needs (r.cfg env stringSink) tree T U → SameGlobals U b b' ∧ SameEngine U r.engine r'.engine

namespace Frame

theorem needs_sink {env : Env} {sink : Sink σ} {r : Renderer} {tree : Template → Tree} {T U : Tree}
    (h : Needs (r.cfg env sink) tree T U) : Needs (r.cfg env stringSink) tree T U := by
  induction h with
  | self => exact .self
  | registered _ hi h1 h2 ih => exact .registered ih hi h1 h2
  | provided _ hi h1 h2 ih => exact .provided ih hi h1 h2

/-- The renderers agree on everything that the templates needed mention. -/
theorem same {env : Env} {sink : Sink σ} {r r' : Renderer} {tree : Template → Tree} {T : Tree} {b b' : SState}
    (h : Alike env tree T r r')
    (hm : ∀ U, Needs (r.cfg env stringSink) tree T U → SameGlobals U b b' ∧ SameEngine U r.engine r'.engine) (w : World σ) :
    Spec.render asBuilt (r.cfg env sink) tree T r.name [ofBase b] w =
      Spec.render asBuilt (r'.cfg env sink) tree T r'.name [ofBase b'] w := by
  rw [h.name]
  exact render_same (S := Needs (r.cfg env sink) tree T) (cfg := r.cfg env sink) (cfg' := r'.cfg env sink) ⟨rfl, h.formatter, h.provider, h.depth, rfl,
    fun U hU => (hm U (needs_sink hU)).1, fun U hU => (hm U (needs_sink hU)).2.functions,
    fun U hU => (hm U (needs_sink hU)).2.templates,
    fun U hU n t hi h1 h2 => .registered hU hi h1 h2, fun U hU n t f asked hi h1 h2 => .provided hU hi h1 h2⟩ .self _ w

end Frame

/-- **C43** `to_string` returns the same, be it text, an error or a panic, whatever other globals, filters, formatters and templates
there are. -/
theorem C43_to_string {env : Env} {tree : Template → Tree} {T : Tree} {r r' : Renderer} (h : Alike env tree T r r') (res : Res Str) :
    r.ToString env res ↔ r'.ToString env res := by
  obtain ⟨b, b', hb, hb', hm⟩ := h.mentioned
  rw [C16_to_string (fun t ht => h.trees t (.inl ht)) h.parsed hb,
    C16_to_string (fun t ht => h.trees t (.inr ht)) (h.template ▸ h.parsed) hb', Frame.same h hm]

/-- **C43** So does `to_writer`, on every writer, and leaves it in the same state. -/
theorem C43_to_writer {ω : Type} {env : Env} {tree : Template → Tree} {T : Tree} {r r' : Renderer} (h : Alike env tree T r r')
    (io : IoWriter ω) (w₀ : ω) (res : Res Unit) (x : ω) : r.ToWriter env io w₀ res x ↔ r'.ToWriter env io w₀ res x := by
  obtain ⟨b, b', hb, hb', hm⟩ := h.mentioned
  rw [C16_to_writer (fun t ht => h.trees t (.inl ht)) h.parsed hb,
    C16_to_writer (fun t ht => h.trees t (.inr ht)) (h.template ▸ h.parsed) hb', Frame.same h hm]

/-- **C43** What a template mentions stands in its text. -/
theorem C43_in_text {T : Tree} {n : Str} (h : HasName T n ∨ HasCall T n) : n <:+: T.source := by
  have key : ∀ {sp : Span}, sp.of T.source = some n → n <:+: T.source := by
    intro sp h
    obtain ⟨pre, post, e, _⟩ := slice_eq_some.mp h
    exact ⟨pre, post, by rw [e]; simp⟩
  rcases h with ⟨_, _, h⟩ | ⟨_, _, _, _, h⟩ <;> exact key h

end Upon
