import Verif.Proofs.Ahead
import Verif.Props.Known
import Verif.Proofs.Alone
/-
C82: a template can be rendered ahead, as far as the data are known.
-/
namespace Upon
open Spec

/-- A template `t` of a renderer's and another one, `t'`, that is it rendered ahead with the globals `g`. All templates are free of the known defect with variables at
includes (`Tame`). -/
structure Spec.RenderedAhead (g : Value) (env : Env) (tree : Template → Tree) (t t' : Template) (T T' : Tree) (r : Renderer) : Prop where
  globals : GivenAs r.globals g
  parsed : ∀ t, Includable (r.cfg env stringSink) t → Parsed env t (tree t)
  tame : ∀ t, Includable (r.cfg env stringSink) t → Tame (tree t).body
  template : Related (Plain.Ahead env r.engine.functions r.engine.defaultFormatter g []) env t T t' T'

section
variable {g : Value} {env : Env} {tree : Template → Tree} {T T' : Tree} {r : Renderer} {t t' : Template}

/-- **C82** A template that is rendered ahead – the rounds of loops over what is known written out, names for what is known resolved, tags replaced by their text, conditions
decided – renders with these data like the one it was made from, except for the place in an error. -/
theorem C82_to_string (h : RenderedAhead g env tree t t' T T' r) {res res' : Res Str}
    (h1 : { r with template := t }.ToString env res) (h2 : { r with template := t' }.ToString env res') : Unplaced res = Unplaced res' :=
  Fill.same_to_string (r := { r with template := t }) (r' := { r with template := t' }) h.globals h.globals
    (fun t ht => ⟨h.parsed t ht, .of (h.parsed t ht) (h.tame t ht)⟩) (Plain.Related.left h.template)
    (fun t ht => ⟨h.parsed t ht, .of (h.parsed t ht) (h.tame t ht)⟩) (Plain.Related.right h.template)
    (Plain.render_ahead h.template.related r.name _) h1 h2

/-- **C82** The same on every writer that takes what it is given, also for what a failed render leaves there. -/
theorem C82_to_writer (h : RenderedAhead g env tree t t' T T' r) {ω : Type} {io : IoWriter ω} {log : ω → List UInt8} (ha : Accepts io log)
    {w₀ w w' : ω} {res res' : Res Unit} (h1 : { r with template := t }.ToWriter env io w₀ res w) (h2 : { r with template := t' }.ToWriter env io w₀ res' w') :
    Unplaced res = Unplaced res' ∧ (res ≠ .crash → log w = log w') :=
  Fill.same_to_writer (r := { r with template := t }) (r' := { r with template := t' }) ha h.globals h.globals
    (fun t ht => ⟨h.parsed t ht, .of (h.parsed t ht) (h.tame t ht)⟩) (Plain.Related.left h.template)
    (fun t ht => ⟨h.parsed t ht, .of (h.parsed t ht) (h.tame t ht)⟩) (Plain.Related.right h.template)
    (Plain.render_ahead h.template.related r.name _) h1 h2

/-- **C82** If nothing but text is left then the template renders to this text. -/
theorem C82_text (hg : GivenAs r.globals g) (hp : ∀ t, Includable (r.cfg env stringSink) t → Parsed env t (tree t))
    (ht : ∀ t, Includable (r.cfg env stringSink) t → Tame (tree t).body) (hT : Parsed env r.template T) (hTt : Tame T.body) {s : Str}
    (h : Plain.Ahead env r.engine.functions r.engine.defaultFormatter g [] (Plain.ofStmts T.source T.body) (s.map .char)) : r.ToString env (.ok s) := by
  have hb := Fill.base_is hg
  rw [C16_to_string hp hT hb]
  have key := Plain.render_plain (cfg := r.cfg env stringSink) rfl (fun t k => .of (hp t k) (ht t k)) (.of hT hTt) r.name (Partial.globals_or hb) (w := ⟨[], []⟩)
  have e : Plain.render (Plain.ofCfg (r.cfg env stringSink) tree) (Plain.ofStmts T.source T.body) r.name [ofBase (.scope (.borrowed g))] ⟨[], []⟩ = .ok ⟨s, []⟩ := by
    refine (Plain.render_ahead (cfg := Plain.ofCfg (r.cfg env stringSink) tree) h r.name _).trans ?_
    rw [Plain.render, Plain.evalStmts_chars]
    rfl
  rw [e] at key
  revert key
  change Plain.Run (Spec.render asBuilt (r.cfg env stringSink) tree T r.name [ofBase (.scope (.borrowed g))] ⟨[], []⟩) = _ → _
  cases Spec.render asBuilt (r.cfg env stringSink) tree T r.name [ofBase (.scope (.borrowed g))] ⟨[], []⟩ with
  | ok w => intro k; cases k; rfl
  | err e w => intro k; cases k
  | crash => intro k; cases k

/-- **C82** A template that includes nothing and does not use `?.` renders to a text if and only if it can be rendered ahead to it: every render that succeeds is a chain of known values. -/
theorem C82_iff (hg : GivenAs r.globals g) (hp : ∀ t, Includable (r.cfg env stringSink) t → Parsed env t (tree t))
    (ht : ∀ t, Includable (r.cfg env stringSink) t → Tame (tree t).body) (hT : Parsed env r.template T) (hTt : Tame T.body)
    (ha : Plain.Alone (Plain.ofStmts T.source T.body)) {s : Str} :
    r.ToString env (.ok s) ↔ Plain.Ahead env r.engine.functions r.engine.defaultFormatter g [] (Plain.ofStmts T.source T.body) (s.map .char) := by
  refine ⟨fun h => ?_, C82_text hg hp ht hT hTt⟩
  have hb := Fill.base_is hg
  rw [C16_to_string hp hT hb] at h
  have key := Plain.render_plain (cfg := r.cfg env stringSink) rfl (fun t k => .of (hp t k) (ht t k)) (.of hT hTt) r.name (Partial.globals_or hb) (w := ⟨[], []⟩)
  refine Plain.render_done (cfg := Plain.ofCfg (r.cfg env stringSink) tree) ha r.name ?_
  revert h key
  change _ → Plain.Run (Spec.render asBuilt (r.cfg env stringSink) tree T r.name [ofBase (.scope (.borrowed g))] ⟨[], []⟩) = _ → _
  cases Spec.render asBuilt (r.cfg env stringSink) tree T r.name [ofBase (.scope (.borrowed g))] ⟨[], []⟩ with
  | ok w => intro h k; cases h; exact ⟨w, k.symm, rfl⟩
  | err e w => intro h; cases h
  | crash => intro h; cases h

end
end Upon
