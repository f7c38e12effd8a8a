import Verif.Proofs.Labels
import Verif.Props.Partial
/-
C70: the names of filters, formatters, templates and variables are labels only.
-/
namespace Upon
open Spec

/-- The second tree is the first with the new names. -/
abbrev Plain.Relabels (L : Labels) (a b : List Plain.Stmt) : Prop := b = Plain.newStmts L a

/-- The sources of included templates, with the new names. -/
def Spec.RelabelledTemplates (L : Labels) (env : Env) (tree tree' : Template → Tree) (r r' : Renderer) : Prop :=
  match r.templateFn, r'.templateFn with
  | some f, some f' => ∀ asked n, RelatedAnswer (Plain.Relabels L) env tree tree' (f asked n) (f' (asked.map L.template) (L.template n))
  | none, none => ∀ n, RelatedEntry (Plain.Relabels L) env tree tree' (r.engine.getTemplate n) (r'.engine.getTemplate (L.template n))
  | _, _ => False

/-- The second renderer is the first with the new names: the filters, formatters and templates are registered under them, the globals have them, and the
templates use them. -/
structure Spec.RelabelledAll (L : Labels) (env : Env) (tree tree' : Template → Tree) (T T' : Tree) (r r' : Renderer) : Prop where
  name : r'.name = r.name.map L.template
  globals : NewGlobals L r.globals r'.globals
  functions : ∀ n, BMap.get r'.engine.functions (L.function n) = BMap.get r.engine.functions n
  formatter : r'.engine.defaultFormatter = r.engine.defaultFormatter
  depth : r'.maxIncludeDepth.getD r'.engine.maxIncludeDepth = r.maxIncludeDepth.getD r.engine.maxIncludeDepth
  template : Related (Plain.Relabels L) env r.template T r'.template T'
  templates : RelabelledTemplates L env tree tree' r r'
  others : ∀ t, Includable (r'.cfg env stringSink) t → Parsed env t (tree' t) ∧ Tame (tree' t).body

/-- … and, if variables get new names, there is no `include … with`. -/
structure Spec.Relabelled (L : Labels) (env : Env) (tree tree' : Template → Tree) (T T' : Tree) (r r' : Renderer) : Prop
    extends RelabelledAll L env tree tree' T T' r r' where
  scopes : (∀ n, L.variable_ n = n) ∨ (Plain.NoScopes (Plain.ofStmts T.source T.body) ∧
    ∀ t, Includable (r.cfg env stringSink) t → Plain.NoScopes (Plain.ofStmts (tree t).source (tree t).body))

namespace Plain
section
variable {L : Labels} {env : Env} {tree tree' : Template → Tree} {T T' : Tree} {r r' : Renderer}

theorem relabelled_all (h : Relabelled L env tree tree' T T' r r') (t : Template) (ht : Includable (r.cfg env stringSink) t) :
    Parsed env t (tree t) ∧ Fine (tree t) := by
  have hs := h.templates
  unfold RelabelledTemplates at hs
  unfold Includable Renderer.cfg at ht
  dsimp only at ht
  split at hs
  · rename_i f f' e e'
    simp only [e] at ht
    obtain ⟨asked, n, hn⟩ := ht
    have := hs asked n
    rw [hn] at this
    generalize f' (asked.map L.template) (L.template n) = q at this
    cases this with
    | found h => exact Related.left h
  · rename_i e e'
    simp only [e] at ht
    obtain ⟨n, hn⟩ := ht
    have := hs n
    unfold Engine.getTemplate at this
    rw [hn] at this
    generalize BMap.get r'.engine.templates (L.template n) = q at this
    cases this with
    | found h => exact Related.left h
  · exact hs.elim

theorem relabelled_cfg (h : Relabelled L env tree tree' T T' r r') : TwinCfg L (ofCfg (r.cfg env stringSink) tree) (ofCfg (r'.cfg env stringSink) tree') := by
  have hs := h.templates
  unfold RelabelledTemplates at hs
  refine ⟨rfl, h.formatter, h.functions, h.depth, ?_, fun a n => ?_⟩
  · unfold ofCfg Renderer.cfg
    dsimp only
    split at hs
    · rename_i e e'; rw [e, e']; rfl
    · rename_i e e'; rw [e, e']
    · exact hs.elim
  · unfold ofCfg Renderer.cfg
    dsimp only
    split at hs
    · rename_i f f' e e'
      simp only [e, e']
      have := hs a n
      generalize f a n = p, f' (a.map L.template) (L.template n) = q at this
      cases this with
      | found h => exact congrArg Except.ok h.related
      | refused => rfl
    · rename_i e e'
      simp only [e, e']
      have := hs n
      unfold Engine.getTemplate at this
      generalize BMap.get r.engine.templates n = p, BMap.get r'.engine.templates (L.template n) = q at this
      cases this with
      | found h => exact congrArg Except.ok h.related
      | missing => rfl
    · exact hs.elim

theorem relabelled_base (h : NewGlobals L r.globals r'.globals) : ∃ b b', r.base = .ok b ∧ r'.base = .ok b' ∧ Twins L [Spec.ofBase b] [Spec.ofBase b'] := by
  unfold Renderer.base
  generalize r.globals = g, r'.globals = g' at h
  cases h <;> dsimp only
  · rename_i h; exact ⟨_, _, rfl, rfl, .cons (.globals rfl rfl rfl h) .nil⟩
  · rename_i h; exact ⟨_, _, rfl, rfl, .cons (.globals rfl rfl rfl h) .nil⟩
  · rename_i h; exact ⟨_, _, rfl, rfl, .cons (.provider h) .nil⟩
  · rename_i h; exact ⟨_, _, rfl, rfl, .cons (.same h) .nil⟩
  · rename_i h; exact ⟨_, _, rfl, rfl, .cons (.same h) .nil⟩

theorem relabelled_render (h : Relabelled L env tree tree' T T' r r') : ∃ b b', r.base = .ok b ∧ r'.base = .ok b' ∧
    render (ofCfg (r'.cfg env stringSink) tree') (ofStmts T'.source T'.body) r'.name [Spec.ofBase b'] ⟨[], []⟩ =
      newRun L (render (ofCfg (r.cfg env stringSink) tree) (ofStmts T.source T.body) r.name [Spec.ofBase b] ⟨[], []⟩) := by
  obtain ⟨b, b', h1, h2, h3⟩ := relabelled_base h.globals
  refine ⟨b, b', h1, h2, ?_⟩
  rw [h.template.related, h.name]
  refine render_twin (relabelled_cfg h) (h.scopes.imp id fun hs => ⟨hs.1, fun a n ss hf => ?_⟩) r.name h3 ⟨[], []⟩
  unfold ofCfg Renderer.cfg at hf
  dsimp only at hf
  have key := hs.2
  unfold Includable Renderer.cfg at key
  dsimp only at key
  cases ht : r.templateFn with
  | none =>
    rw [ht] at hf key
    dsimp only at hf key
    split at hf
    · cases hf; exact key _ ⟨n, by assumption⟩
    · cases hf
  | some f =>
    rw [ht] at hf key
    dsimp only at hf key
    split at hf
    · cases hf; exact key _ ⟨a, n, by assumption⟩
    · cases hf

end
end Plain

section
variable {L : Labels} {env : Env} {tree tree' : Template → Tree} {T T' : Tree} {r r' : Renderer}

/-- **C70** Giving other names to filters, formatters, templates and variables, everywhere, changes nothing but the place in an error, and that it names the
template by its new name. -/
theorem C70_to_string (h : Relabelled L env tree tree' T T' r r') {res res' : Res Str} (h1 : r.ToString env res) (h2 : r'.ToString env res') :
    Unplaced res' = NewName L (Unplaced res) := by
  obtain ⟨b, b', hb, hb', e⟩ := Plain.relabelled_render h
  rw [C16_to_string (fun t ht => (Plain.relabelled_all h t ht).1) h.template.old hb] at h1
  rw [C16_to_string (fun t ht => (h.others t ht).1) h.template.new hb'] at h2
  subst h1 h2
  rw [← Plain.render_plain rfl (fun t ht => (Plain.relabelled_all h t ht).2) (Plain.Related.left h.template).2 _ (Partial.globals_or hb),
    ← Plain.render_plain rfl (fun t ht => .of (h.others t ht).1 (h.others t ht).2) (Plain.Related.right h.template).2 _ (Partial.globals_or hb')] at e
  generalize Spec.render asBuilt (r.cfg env stringSink) tree T r.name [ofBase b] ⟨[], []⟩ = p at e
  generalize Spec.render asBuilt (r'.cfg env stringSink) tree' T' r'.name [ofBase b'] ⟨[], []⟩ = q at e
  have key : ∀ x : RunRes Str, Unplaced (stringResult x) = stringResult (Plain.Run x) := fun x => by cases x <;> rfl
  rw [key, key, e]
  cases p <;> rfl

/-- **C70** The same on every writer that takes what it is given, also for what a failed render leaves there. -/
theorem C70_to_writer {ω : Type} {io : IoWriter ω} {log : ω → List UInt8} (h : Relabelled L env tree tree' T T' r r') (ha : Accepts io log)
    {w₀ w w' : ω} {res res' : Res Unit} (h1 : r.ToWriter env io w₀ res w) (h2 : r'.ToWriter env io w₀ res' w') :
    Unplaced res' = NewName L (Unplaced res) ∧ (res ≠ .crash → log w' = log w) := by
  obtain ⟨b, b', hb, hb', e⟩ := Plain.relabelled_render h
  have k1 := Partial.writer_plain ha (Plain.relabelled_all h) (Plain.Related.left h.template) hb h1
  have k2 := Partial.writer_plain ha (fun t ht => ⟨(h.others t ht).1, .of (h.others t ht).1 (h.others t ht).2⟩) (Plain.Related.right h.template) hb' h2
  rw [e] at k2
  generalize Plain.render (Plain.ofCfg (r.cfg env stringSink) tree) (Plain.ofStmts T.source T.body) r.name [ofBase b] ⟨[], []⟩ = x at k1 k2
  cases x with
  | ok o => exact ⟨by rw [k1.1, k2.1]; rfl, fun _ => by rw [k1.2, k2.2]; rfl⟩
  | err e o => exact ⟨by rw [k1.1, k2.1]; rfl, fun _ => by rw [k1.2, k2.2]; rfl⟩
  | crash => exact ⟨by rw [show Unplaced res = .crash from k1, show Unplaced res' = .crash from k2]; rfl, fun hc => absurd (Partial.unplaced_crash k1) hc⟩

end
end Upon
