import Verif.Proofs.Known
import Verif.Props.Fill
/-
C81: a template can be specialised to data that are known.
-/
namespace Upon
open Spec

/-- A template `t` of a renderer's and another one, `t'`, that is it specialised to the globals `g`. All templates are free of the known defect with variables at
includes (`Tame`). -/
structure Spec.SpecialisedTo (g : Value) (env : Env) (tree : Template → Tree) (t t' : Template) (T T' : Tree) (r : Renderer) : Prop where
  globals : GivenAs r.globals g
  parsed : ∀ t, Includable (r.cfg env stringSink) t → Parsed env t (tree t)
  tame : ∀ t, Includable (r.cfg env stringSink) t → Tame (tree t).body
  template : Related (Plain.Specialised env r.engine.functions r.engine.defaultFormatter g []) env t T t' T'

section
variable {g : Value} {env : Env} {tree : Template → Tree} {T T' : Tree} {r : Renderer} {t t' : Template}

/-- **C81** A template that is specialised to the data – tags replaced by the text they write, conditions decided, loops over nothing left out, as far as variables and the answers of filters are known – renders with these
data like the one it was made from, except for the place in an error. -/
theorem C81_to_string (h : SpecialisedTo g env tree t t' T T' r) {res res' : Res Str}
    (h1 : { r with template := t }.ToString env res) (h2 : { r with template := t' }.ToString env res') : Unplaced res = Unplaced res' :=
  Fill.same_to_string (r := { r with template := t }) (r' := { r with template := t' }) h.globals h.globals
    (fun t ht => ⟨h.parsed t ht, .of (h.parsed t ht) (h.tame t ht)⟩) (Plain.Related.left h.template)
    (fun t ht => ⟨h.parsed t ht, .of (h.parsed t ht) (h.tame t ht)⟩) (Plain.Related.right h.template)
    (Plain.render_known h.template.related r.name _) h1 h2

/-- **C81** The same on every writer that takes what it is given, also for what a failed render leaves there. -/
theorem C81_to_writer (h : SpecialisedTo g env tree t t' T T' r) {ω : Type} {io : IoWriter ω} {log : ω → List UInt8} (ha : Accepts io log)
    {w₀ w w' : ω} {res res' : Res Unit} (h1 : { r with template := t }.ToWriter env io w₀ res w) (h2 : { r with template := t' }.ToWriter env io w₀ res' w') :
    Unplaced res = Unplaced res' ∧ (res ≠ .crash → log w = log w') :=
  Fill.same_to_writer (r := { r with template := t }) (r' := { r with template := t' }) ha h.globals h.globals
    (fun t ht => ⟨h.parsed t ht, .of (h.parsed t ht) (h.tame t ht)⟩) (Plain.Related.left h.template)
    (fun t ht => ⟨h.parsed t ht, .of (h.parsed t ht) (h.tame t ht)⟩) (Plain.Related.right h.template)
    (Plain.render_known h.template.related r.name _) h1 h2

/-- **C81** If all of it is known then the template renders to the text that is left. -/
theorem C81_text (hg : GivenAs r.globals g) (hp : ∀ t, Includable (r.cfg env stringSink) t → Parsed env t (tree t))
    (ht : ∀ t, Includable (r.cfg env stringSink) t → Tame (tree t).body) (hT : Parsed env r.template T) (hTt : Tame T.body) {s : Str}
    (h : Plain.Specialised env r.engine.functions r.engine.defaultFormatter g [] (Plain.ofStmts T.source T.body) (s.map .char)) : r.ToString env (.ok s) := by
  have hb := Fill.base_is hg
  rw [C16_to_string hp hT hb]
  have key := Plain.render_plain (cfg := r.cfg env stringSink) rfl (fun t k => .of (hp t k) (ht t k)) (.of hT hTt) r.name (Partial.globals_or hb) (w := ⟨[], []⟩)
  have e : Plain.render (Plain.ofCfg (r.cfg env stringSink) tree) (Plain.ofStmts T.source T.body) r.name [ofBase (.scope (.borrowed g))] ⟨[], []⟩ = .ok ⟨s, []⟩ := by
    refine (Plain.render_known (cfg := Plain.ofCfg (r.cfg env stringSink) tree) h r.name _).trans ?_
    rw [Plain.render, Plain.evalStmts_chars]
    rfl
  rw [e] at key
  revert key
  change Plain.Run (Spec.render asBuilt (r.cfg env stringSink) tree T r.name [ofBase (.scope (.borrowed g))] ⟨[], []⟩) = _ → _
  cases Spec.render asBuilt (r.cfg env stringSink) tree T r.name [ofBase (.scope (.borrowed g))] ⟨[], []⟩ with
  | ok w => intro k; cases k; rfl
  | err e w => intro k; cases k
  | crash => intro k; cases k

end
end Upon
