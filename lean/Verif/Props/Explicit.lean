import Verif.Proofs.Explicit
import Verif.Props.Refactor
import Verif.Props.Partial
/-
C77: the default formatter is the formatter of the tags that name none.
-/
namespace Upon
open Spec

/-- The default formatter of the first renderer is also registered, as `f`. The second renderer has the same functions, but maybe another default formatter; in
its templates all tags name their formatter, and that is `f` where the templates of the first renderer name none. -/
structure Spec.FormatterNamed (f : Str) (env : Env) (tree tree' : Template → Tree) (T T' : Tree) (r r' : Renderer) : Prop where
  name : r.name = r'.name
  globals : r.globals = r'.globals
  functions : r.engine.functions = r'.engine.functions
  formatter : BMap.get r.engine.functions f = some (.formatter r.engine.defaultFormatter)
  depth : r.maxIncludeDepth.getD r.engine.maxIncludeDepth = r'.maxIncludeDepth.getD r'.engine.maxIncludeDepth
  template : Related (Plain.Explicit r.engine.functions f) env r.template T r'.template T'
  templates : RelatedTemplates (Plain.Explicit r.engine.functions f) env tree tree' r r'

namespace Plain
section
variable {f : Str} {env : Env} {tree tree' : Template → Tree} {T T' : Tree} {r r' : Renderer}

theorem named_rewritten (h : FormatterNamed f env tree tree' T T' r r') : Rewritten (Explicit r.engine.functions f) env tree tree' T T' r
    { r' with engine := { r'.engine with defaultFormatter := r.engine.defaultFormatter } } :=
  ⟨h.name, h.globals, h.functions, rfl, h.depth, h.template, h.templates⟩

theorem named_all (h : FormatterNamed f env tree tree' T T' r r') (t : Template) (ht : Includable (r'.cfg env stringSink) t) :
    Parsed env t (tree' t) ∧ Fine (tree' t) := new_all (named_rewritten h) t ht

theorem named_render (h : FormatterNamed f env tree tree' T T' r r') (ρ : Scope) :
    render (ofCfg (r.cfg env stringSink) tree) (ofStmts T.source T.body) r.name ρ ⟨[], []⟩ =
      render (ofCfg (r'.cfg env stringSink) tree') (ofStmts T'.source T'.body) r'.name ρ ⟨[], []⟩ := by
  obtain ⟨_, k2, k3, k4⟩ := cfg_related (named_rewritten h)
  rw [← h.name]
  exact render_explicit (f := f) (cfg := ofCfg (r.cfg env stringSink) tree) (cfg' := ofCfg (r'.cfg env stringSink) tree') ⟨rfl, h.functions, h.formatter⟩ k2 k3 k4 h.template.related r.name ρ _

end
end Plain

section
variable {f : Str} {env : Env} {tree tree' : Template → Tree} {T T' : Tree} {r r' : Renderer}

/-- **C77** Naming the default formatter in all tags that name no formatter changes nothing but the place in an error, and makes the render independent of the
default formatter of the engine. -/
theorem C77_to_string (h : FormatterNamed f env tree tree' T T' r r') {res res' : Res Str} (h1 : r.ToString env res) (h2 : r'.ToString env res') :
    Unplaced res = Unplaced res' := by
  have eb : r.base = r'.base := by unfold Renderer.base; rw [h.globals]
  have ho := Plain.old_all (Plain.named_rewritten h)
  have hn := Plain.named_all h
  cases hb : r.base with
  | ok b =>
    have hb' := eb ▸ hb
    rw [C16_to_string (fun t ht => (ho t ht).1) h.template.old hb] at h1
    rw [C16_to_string (fun t ht => (hn t ht).1) h.template.new hb'] at h2
    subst h1 h2
    apply Plain.result_run
    rw [Plain.render_plain rfl (fun t ht => (ho t ht).2) (Plain.Related.left h.template).2 _ (Partial.globals_or hb),
      Plain.render_plain rfl (fun t ht => (hn t ht).2) (Plain.Related.right h.template).2 _ (Partial.globals_or hb'), Plain.named_render h]
  | err e =>
    have hb' := eb ▸ hb
    cases h1 <;> cases h2 <;> simp_all
  | crash =>
    have hb' := eb ▸ hb
    cases h1 <;> cases h2 <;> simp_all

/-- **C77** The same on every writer that takes what it is given, also for what a failed render leaves there. -/
theorem C77_to_writer {ω : Type} {io : IoWriter ω} {log : ω → List UInt8} (h : FormatterNamed f env tree tree' T T' r r') (ha : Accepts io log)
    {w₀ w w' : ω} {res res' : Res Unit} (h1 : r.ToWriter env io w₀ res w) (h2 : r'.ToWriter env io w₀ res' w') :
    Unplaced res = Unplaced res' ∧ (res ≠ .crash → log w = log w') := by
  have eb : r.base = r'.base := by unfold Renderer.base; rw [h.globals]
  cases hb : r.base with
  | ok b =>
    have hb' := eb ▸ hb
    have k1 := Partial.writer_plain ha (Plain.old_all (Plain.named_rewritten h)) (Plain.Related.left h.template) hb h1
    have k2 := Partial.writer_plain ha (Plain.named_all h) (Plain.Related.right h.template) hb' h2
    rw [← Plain.named_render h] at k2
    obtain ⟨e, k⟩ := k1.same k2
    refine ⟨e, fun hc => ?_⟩
    obtain ⟨s, e1, e2⟩ := k fun hx => hc (Partial.unplaced_crash hx)
    rw [e1, e2]
  | err e =>
    have hb' := eb ▸ hb
    cases h1 <;> cases h2 <;> simp_all
  | crash =>
    have hb' := eb ▸ hb
    cases h1 <;> cases h2 <;> simp_all

end
end Upon
