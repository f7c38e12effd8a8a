import Verif.Proofs.Refactor
import Verif.Props.Words
/-
C49: templates can be rewritten by laws. C50: the variables that a template binds can be renamed.
-/
namespace Upon
open Spec

/-- Two compiled templates whose trees, without byte ranges, are related. They keep clear of the known defect with variables at
includes. -/
structure Spec.Related (E : List Plain.Stmt → List Plain.Stmt → Prop) (env : Env) (t : Template) (T : Tree) (t' : Template) (T' : Tree) : Prop where
  old : Parsed env t T
  new : Parsed env t' T'
  tame : Tame T.body
  tame' : Tame T'.body
  related : E (Plain.ofStmts T.source T.body) (Plain.ofStmts T'.source T'.body)

/-- The answers to the question for a template of some name. -/
inductive Spec.RelatedAnswer (E : List Plain.Stmt → List Plain.Stmt → Prop) (env : Env) (tree tree' : Template → Tree) :
    Except String Template → Except String Template → Prop
  | found {t t'} : Related E env t (tree t) t' (tree' t') → RelatedAnswer E env tree tree' (.ok t) (.ok t')
  | refused (e) : RelatedAnswer E env tree tree' (.error e) (.error e)

/-- The templates under a name. -/
inductive Spec.RelatedEntry (E : List Plain.Stmt → List Plain.Stmt → Prop) (env : Env) (tree tree' : Template → Tree) :
    Option Template → Option Template → Prop
  | found {t t'} : Related E env t (tree t) t' (tree' t') → RelatedEntry E env tree tree' (some t) (some t')
  | missing : RelatedEntry E env tree tree' none none

/-- The sources of included templates: two template functions, or two registries. -/
def Spec.RelatedTemplates (E : List Plain.Stmt → List Plain.Stmt → Prop) (env : Env) (tree tree' : Template → Tree) (r r' : Renderer) : Prop :=
  match r.templateFn, r'.templateFn with
  | some f, some f' => ∀ asked n, RelatedAnswer E env tree tree' (f asked n) (f' asked n)
  | none, none => ∀ n, RelatedEntry E env tree tree' (r.engine.getTemplate n) (r'.engine.getTemplate n)
  | _, _ => False

/-- Two renderers with the same globals and functions, whose templates are related one by one. -/
structure Spec.Rewritten (E : List Plain.Stmt → List Plain.Stmt → Prop) (env : Env) (tree tree' : Template → Tree) (T T' : Tree) (r r' : Renderer) : Prop where
  name : r.name = r'.name
  globals : r.globals = r'.globals
  functions : r.engine.functions = r'.engine.functions
  formatter : r.engine.defaultFormatter = r'.engine.defaultFormatter
  depth : r.maxIncludeDepth.getD r.engine.maxIncludeDepth = r'.maxIncludeDepth.getD r'.engine.maxIncludeDepth
  template : Related E env r.template T r'.template T'
  templates : RelatedTemplates E env tree tree' r r'

namespace Plain
section
variable {E : List Plain.Stmt → List Plain.Stmt → Prop} {env : Env} {tree tree' : Template → Tree} {T T' : Tree} {r r' : Renderer}

theorem Related.left {t t' : Template} {A B : Tree} (h : Related E env t A t' B) : Parsed env t A ∧ Fine A := ⟨h.old, .of h.old h.tame⟩
theorem Related.right {t t' : Template} {A B : Tree} (h : Related E env t A t' B) : Parsed env t' B ∧ Fine B := ⟨h.new, .of h.new h.tame'⟩

theorem old_all (h : Rewritten E env tree tree' T T' r r') (t : Template) (ht : Includable (r.cfg env stringSink) t) :
    Parsed env t (tree t) ∧ Fine (tree t) := by
  have hs := h.templates
  unfold RelatedTemplates at hs
  unfold Includable Renderer.cfg at ht
  dsimp only at ht
  split at hs
  · rename_i f f' e e'
    simp only [e] at ht
    obtain ⟨asked, n, hn⟩ := ht
    have := hs asked n
    rw [hn] at this
    generalize f' asked n = q at this
    cases this with
    | found h => exact Related.left h
  · rename_i e e'
    simp only [e] at ht
    obtain ⟨n, hn⟩ := ht
    have := hs n
    unfold Engine.getTemplate at this
    rw [hn] at this
    generalize BMap.get r'.engine.templates n = q at this
    cases this with
    | found h => exact Related.left h
  · exact hs.elim

theorem new_all (h : Rewritten E env tree tree' T T' r r') (t : Template) (ht : Includable (r'.cfg env stringSink) t) :
    Parsed env t (tree' t) ∧ Fine (tree' t) := by
  have hs := h.templates
  unfold RelatedTemplates at hs
  unfold Includable Renderer.cfg at ht
  dsimp only at ht
  split at hs
  · rename_i f f' e e'
    simp only [e'] at ht
    obtain ⟨asked, n, hn⟩ := ht
    have := hs asked n
    rw [hn] at this
    generalize f asked n = q at this
    cases this with
    | found h => exact Related.right h
  · rename_i e e'
    simp only [e'] at ht
    obtain ⟨n, hn⟩ := ht
    have := hs n
    unfold Engine.getTemplate at this
    rw [hn] at this
    generalize BMap.get r.engine.templates n = q at this
    cases this with
    | found h => exact Related.right h
  · exact hs.elim

theorem cfg_related (h : Rewritten E env tree tree' T T' r r') :
    let c := ofCfg (r.cfg env stringSink) tree
    let c' := ofCfg (r'.cfg env stringSink) tree'
    Kin c c' ∧ c.record = c'.record ∧ c.maxIncludeDepth = c'.maxIncludeDepth ∧ ∀ a n, Answers E (c.find a n) (c'.find a n) := by
  have hs := h.templates
  unfold RelatedTemplates at hs
  unfold ofCfg Renderer.cfg
  dsimp only
  refine ⟨⟨rfl, h.formatter, h.functions⟩, ?_, h.depth, ?_⟩
  · split at hs
    · rename_i e e'; rw [e, e']; rfl
    · rename_i e e'; rw [e, e']
    · exact hs.elim
  · intro a n
    split at hs
    · rename_i f f' e e'
      simp only [e, e']
      have := hs a n
      generalize f a n = p, f' a n = q at this
      cases this with
      | found h => exact .found h.related
      | refused => exact .refused _
    · rename_i e e'
      simp only [e, e']
      have := hs n
      unfold Engine.getTemplate at this
      generalize BMap.get r.engine.templates n = p, BMap.get r'.engine.templates n = q at this
      cases this with
      | found h => exact .found h.related
      | missing => exact .refused _
    · exact hs.elim

theorem rewritten_to_string {P : Cfg → Prop} (hE : SoundFor P E) (hP : P (ofCfg (r.cfg env stringSink) tree)) (h : Rewritten E env tree tree' T T' r r') {res res' : Res Str} (h1 : r.ToString env res)
    (h2 : r'.ToString env res') : Unplaced res = Unplaced res' := by
  have eb : r.base = r'.base := by unfold Renderer.base; rw [h.globals]
  cases hb : r.base with
  | ok b =>
    have hb' := eb ▸ hb
    rw [C16_to_string (fun t ht => (old_all h t ht).1) h.template.old hb] at h1
    rw [C16_to_string (fun t ht => (new_all h t ht).1) h.template.new hb'] at h2
    subst h1 h2
    have hg : (∃ c, Spec.ofBase b = .globals c) ∨ ∃ f, Spec.ofBase b = .provider f := by
      rcases base_cases hb with ⟨f, _, e⟩ | ⟨c, _, e⟩
      · exact .inr ⟨f, e⟩
      · exact .inl ⟨c, e⟩
    apply result_run
    obtain ⟨k1, k2, k3, k4⟩ := cfg_related h
    rw [render_plain rfl (fun t ht => (old_all h t ht).2) (Related.left h.template).2 _ hg,
      render_plain rfl (fun t ht => (new_all h t ht).2) (Related.right h.template).2 _ hg,
      render_sound hE hP k1 k2 k3 k4 h.template.related, h.name]
  | err e =>
    have hb' := eb ▸ hb
    cases h1 <;> cases h2 <;> simp_all
  | crash =>
    have hb' := eb ▸ hb
    cases h1 <;> cases h2 <;> simp_all

theorem rewritten_to_writer {P : Cfg → Prop} (hE : SoundFor P E) (hP : P (ofCfg (r.cfg env stringSink) tree)) {ω : Type} (h : Rewritten E env tree tree' T T' r r') {io : IoWriter ω} {log : ω → List UInt8}
    (ha : Accepts io log) (w₀ : ω) {res res' : Res Unit} {w w' : ω} (h1 : r.ToWriter env io w₀ res w) (h2 : r'.ToWriter env io w₀ res' w') :
    Unplaced res = Unplaced res' ∧ (res = .ok () → log w = log w') := by
  rcases to_string_of_writer ha w₀ h1 with ⟨s, rfl, k1, e1⟩ | ⟨e, rfl, k1⟩ | ⟨rfl, k1⟩ <;>
    rcases to_string_of_writer ha w₀ h2 with ⟨s', rfl, k2, e2⟩ | ⟨e', rfl, k2⟩ | ⟨rfl, k2⟩ <;>
    have k := rewritten_to_string hE hP h k1 k2 <;> simp_all [Unplaced]

end
end Plain

section
variable {env : Env} {tree tree' : Template → Tree} {T T' : Tree} {r r' : Renderer}

/-- **C49** Rewriting templates by the laws, at any places of the template and of the templates it includes, changes nothing but the
place in an error. -/
theorem C49_to_string (h : Rewritten Plain.Refactored env tree tree' T T' r r') {res res' : Res Str} (h1 : r.ToString env res)
    (h2 : r'.ToString env res') : Unplaced res = Unplaced res' := Plain.rewritten_to_string Plain.sound_refactored trivial h h1 h2

/-- **C49** So also on every writer that takes what it is given; the bytes written are the same if the render succeeds. -/
theorem C49_to_writer {ω : Type} (h : Rewritten Plain.Refactored env tree tree' T T' r r') {io : IoWriter ω} {log : ω → List UInt8}
    (ha : Accepts io log) (w₀ : ω) {res res' : Res Unit} {w w' : ω} (h1 : r.ToWriter env io w₀ res w) (h2 : r'.ToWriter env io w₀ res' w') :
    Unplaced res = Unplaced res' ∧ (res = .ok () → log w = log w') := Plain.rewritten_to_writer Plain.sound_refactored trivial h ha w₀ h1 h2

/-- **C50** Giving other names to the variables that templates bind changes nothing but the place in an error. -/
theorem C50_to_string (h : Rewritten (Plain.Renamed []) env tree tree' T T' r r') {res res' : Res Str} (h1 : r.ToString env res)
    (h2 : r'.ToString env res') : Unplaced res = Unplaced res' := Plain.rewritten_to_string Plain.sound_renamed trivial h h1 h2

/-- **C50** So also on every writer that takes what it is given. -/
theorem C50_to_writer {ω : Type} (h : Rewritten (Plain.Renamed []) env tree tree' T T' r r') {io : IoWriter ω} {log : ω → List UInt8}
    (ha : Accepts io log) (w₀ : ω) {res res' : Res Unit} {w w' : ω} (h1 : r.ToWriter env io w₀ res w) (h2 : r'.ToWriter env io w₀ res' w') :
    Unplaced res = Unplaced res' ∧ (res = .ok () → log w = log w') := Plain.rewritten_to_writer Plain.sound_renamed trivial h ha w₀ h1 h2

end
end Upon
