import Verif.Proofs.Fill
import Verif.Props.Partial
import Verif.Props.Globals
/-
C79: a variable can be replaced by a literal with its value.
-/
namespace Upon
open Spec

/-- A template `t` of a renderer's and another one, `t'`, that is like it except that some variables are replaced by literals with their values in the globals `g`.
All templates are free of the known defect with variables at includes (`Tame`). -/
structure Spec.FilledIn (g : Value) (env : Env) (tree : Template → Tree) (t t' : Template) (T T' : Tree) (r : Renderer) : Prop where
  globals : GivenAs r.globals g
  parsed : ∀ t, Includable (r.cfg env stringSink) t → Parsed env t (tree t)
  tame : ∀ t, Includable (r.cfg env stringSink) t → Tame (tree t).body
  template : Related (Plain.Filled g []) env t T t' T'

namespace Fill
variable {g : Value} {env : Env} {r r' : Renderer}

theorem base_is (h : GivenAs r.globals g) : r.base = .ok (.scope (.borrowed g)) := by
  unfold Renderer.base
  rcases h with h | h <;> simp [h]

/-- Two renders whose meanings are the same. -/
theorem same_to_string {tree tree' : Template → Tree} {T T' : Tree} (hg : GivenAs r.globals g) (hg' : GivenAs r'.globals g)
    (h : ∀ t, Includable (r.cfg env stringSink) t → Parsed env t (tree t) ∧ Plain.Fine (tree t)) (hT : Parsed env r.template T ∧ Plain.Fine T)
    (h' : ∀ t, Includable (r'.cfg env stringSink) t → Parsed env t (tree' t) ∧ Plain.Fine (tree' t)) (hT' : Parsed env r'.template T' ∧ Plain.Fine T')
    (he : Plain.render (Plain.ofCfg (r.cfg env stringSink) tree) (Plain.ofStmts T.source T.body) r.name [.globals (.borrowed g)] ⟨[], []⟩ =
      Plain.render (Plain.ofCfg (r'.cfg env stringSink) tree') (Plain.ofStmts T'.source T'.body) r'.name [.globals (.borrowed g)] ⟨[], []⟩)
    {res res' : Res Str} (h1 : r.ToString env res) (h2 : r'.ToString env res') : Unplaced res = Unplaced res' := by
  have hb := base_is hg
  have hb' := base_is hg'
  rw [C16_to_string (fun t ht => (h t ht).1) hT.1 hb] at h1
  rw [C16_to_string (fun t ht => (h' t ht).1) hT'.1 hb'] at h2
  subst h1 h2
  apply Plain.result_run
  rw [Plain.render_plain rfl (fun t ht => (h t ht).2) hT.2 _ (Partial.globals_or hb),
    Plain.render_plain rfl (fun t ht => (h' t ht).2) hT'.2 _ (Partial.globals_or hb')]
  exact he

theorem same_to_writer {ω : Type} {io : IoWriter ω} {log : ω → List UInt8} (ha : Accepts io log) {tree tree' : Template → Tree} {T T' : Tree}
    (hg : GivenAs r.globals g) (hg' : GivenAs r'.globals g)
    (h : ∀ t, Includable (r.cfg env stringSink) t → Parsed env t (tree t) ∧ Plain.Fine (tree t)) (hT : Parsed env r.template T ∧ Plain.Fine T)
    (h' : ∀ t, Includable (r'.cfg env stringSink) t → Parsed env t (tree' t) ∧ Plain.Fine (tree' t)) (hT' : Parsed env r'.template T' ∧ Plain.Fine T')
    (he : Plain.render (Plain.ofCfg (r.cfg env stringSink) tree) (Plain.ofStmts T.source T.body) r.name [.globals (.borrowed g)] ⟨[], []⟩ =
      Plain.render (Plain.ofCfg (r'.cfg env stringSink) tree') (Plain.ofStmts T'.source T'.body) r'.name [.globals (.borrowed g)] ⟨[], []⟩)
    {w₀ w w' : ω} {res res' : Res Unit} (h1 : r.ToWriter env io w₀ res w) (h2 : r'.ToWriter env io w₀ res' w') :
    Unplaced res = Unplaced res' ∧ (res ≠ .crash → log w = log w') := by
  have k1 := Partial.writer_plain ha h hT (base_is hg) h1
  have k2 := Partial.writer_plain ha h' hT' (base_is hg') h2
  have he' : Plain.render (Plain.ofCfg (r.cfg env stringSink) tree) (Plain.ofStmts T.source T.body) r.name [ofBase (.scope (.borrowed g))] ⟨[], []⟩ =
      Plain.render (Plain.ofCfg (r'.cfg env stringSink) tree') (Plain.ofStmts T'.source T'.body) r'.name [ofBase (.scope (.borrowed g))] ⟨[], []⟩ := he
  rw [← he'] at k2
  obtain ⟨e, k⟩ := k1.same k2
  refine ⟨e, fun hc => ?_⟩
  obtain ⟨s, e1, e2⟩ := k fun hx => hc (Partial.unplaced_crash hx)
  rw [e1, e2]

end Fill

section
variable {g : Value} {env : Env} {tree tree' : Template → Tree} {T T' : Tree} {r r' : Renderer}

/-- **C79** Replacing variables of a template, which it does not bind itself, by literals with the values they have in the globals changes nothing but the place in an
error, whatever the template includes. -/
theorem C79_to_string {t t' : Template} (h : FilledIn g env tree t t' T T' r) {res res' : Res Str}
    (h1 : { r with template := t }.ToString env res) (h2 : { r with template := t' }.ToString env res') : Unplaced res = Unplaced res' :=
  Fill.same_to_string (r := { r with template := t }) (r' := { r with template := t' }) h.globals h.globals
    (fun t ht => ⟨h.parsed t ht, .of (h.parsed t ht) (h.tame t ht)⟩) (Plain.Related.left h.template)
    (fun t ht => ⟨h.parsed t ht, .of (h.parsed t ht) (h.tame t ht)⟩) (Plain.Related.right h.template)
    (Plain.render_fill h.template.related r.name _) h1 h2

/-- **C79** The same on every writer that takes what it is given, also for what a failed render leaves there. -/
theorem C79_to_writer {t t' : Template} (h : FilledIn g env tree t t' T T' r) {ω : Type} {io : IoWriter ω} {log : ω → List UInt8} (ha : Accepts io log)
    {w₀ w w' : ω} {res res' : Res Unit} (h1 : { r with template := t }.ToWriter env io w₀ res w) (h2 : { r with template := t' }.ToWriter env io w₀ res' w') :
    Unplaced res = Unplaced res' ∧ (res ≠ .crash → log w = log w') :=
  Fill.same_to_writer (r := { r with template := t }) (r' := { r with template := t' }) ha h.globals h.globals
    (fun t ht => ⟨h.parsed t ht, .of (h.parsed t ht) (h.tame t ht)⟩) (Plain.Related.left h.template)
    (fun t ht => ⟨h.parsed t ht, .of (h.parsed t ht) (h.tame t ht)⟩) (Plain.Related.right h.template)
    (Plain.render_fill h.template.related r.name _) h1 h2

/-- **C79** Also in all templates at once: those names that no template binds, if no template is included with globals of its own. -/
theorem C79_everywhere {taken : List Str} (hg : GivenAs r.globals g) (h : Rewritten (Plain.FilledAlong g taken) env tree tree' T T' r r') {res res' : Res Str}
    (h1 : r.ToString env res) (h2 : r'.ToString env res') : Unplaced res = Unplaced res' := by
  obtain ⟨k1, k2, k3, k4⟩ := Plain.cfg_related h
  refine Fill.same_to_string hg (h.globals ▸ hg) (Plain.old_all h) (Plain.Related.left h.template) (Plain.new_all h) (Plain.Related.right h.template) ?_ h1 h2
  rw [Plain.render_along k1 k2 k3 k4 h.template.related, h.name]

/-- **C79** And so on writers. -/
theorem C79_everywhere_to_writer {taken : List Str} (hg : GivenAs r.globals g) (h : Rewritten (Plain.FilledAlong g taken) env tree tree' T T' r r')
    {ω : Type} {io : IoWriter ω} {log : ω → List UInt8} (ha : Accepts io log) {w₀ w w' : ω} {res res' : Res Unit}
    (h1 : r.ToWriter env io w₀ res w) (h2 : r'.ToWriter env io w₀ res' w') : Unplaced res = Unplaced res' ∧ (res ≠ .crash → log w = log w') := by
  obtain ⟨k1, k2, k3, k4⟩ := Plain.cfg_related h
  refine Fill.same_to_writer ha hg (h.globals ▸ hg) (Plain.old_all h) (Plain.Related.left h.template) (Plain.new_all h) (Plain.Related.right h.template) ?_ h1 h2
  rw [Plain.render_along k1 k2 k3 k4 h.template.related, h.name]

end
end Upon
