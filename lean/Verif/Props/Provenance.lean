import Verif.Proofs.SameOn
import Verif.Props.Escaping
/-
C63: the values that functions are given come from the data, the literals and the filters.
-/
namespace Upon
open Spec Vals
variable {env : Env} {tree : Template → Tree} {T : Tree} {r : Renderer} {P : Value → Prop}

namespace Vals

theorem halts_of {σ : Type} {sink : Sink σ} (hP : Hereditary P) (hv : Stocked env tree T r P)
    (ht : ∀ t, Includable (r.cfg env sink) t → Parsed env t (tree t)) (hT : Parsed env r.template T)
    (hf : FiltersKeep P r.engine.functions) {d : Formatter} {fs : BMap EngFn} (hs : AlikeOn P r.engine { r.engine with defaultFormatter := d, functions := fs })
    {b : SState} (hb : r.base = .ok b) (out : σ) (res : RunRes σ) :
    Halts (r.cfg env sink) (initVM r.template r.name b out) res ↔
      Halts (({ r with engine := { r.engine with defaultFormatter := d, functions := fs } } : Renderer).cfg env sink) (initVM r.template r.name b out) res :=
  halts_same hP ⟨hs.shown, hs.named, rfl⟩ hf (fun t h => keep_parsed (ht t h) (hv.included t h)) (init_of (keep_parsed hT hv.lits) hv.data hb out) res

end Vals

/-- **C63** Filters and formatters are only ever given values that come from the data, from literals in the templates, from `loop` and from other filters: if
all these have a property that passes to the parts of a value, then it makes no difference to a render what the functions would do with other values. -/
theorem C63_to_string (hP : Hereditary P) (hv : Stocked env tree T r P) (ht : ∀ t, Includable (r.cfg env stringSink) t → Parsed env t (tree t))
    (hT : Parsed env r.template T) (hf : FiltersKeep P r.engine.functions) {d : Formatter} {fs : BMap EngFn}
    (hs : AlikeOn P r.engine { r.engine with defaultFormatter := d, functions := fs }) (res : Res Str) :
    r.ToString env res ↔ ({ r with engine := { r.engine with defaultFormatter := d, functions := fs } } : Renderer).ToString env res := by
  constructor
  · intro h
    cases h with
    | globalsErr e hb => exact .globalsErr e hb
    | globalsCrash hb => exact .globalsCrash hb
    | ok b w hb hh => exact .ok b w hb ((halts_of hP hv ht hT hf hs hb _ _).mp hh)
    | err b e w hb hh => exact .err b e w hb ((halts_of hP hv ht hT hf hs hb _ _).mp hh)
    | crash b hb hh => exact .crash b hb ((halts_of hP hv ht hT hf hs hb _ _).mp hh)
  · intro h
    cases h with
    | globalsErr e hb => exact .globalsErr e hb
    | globalsCrash hb => exact .globalsCrash hb
    | ok b w hb hh => exact .ok b w hb ((halts_of hP hv ht hT hf hs hb _ _).mpr hh)
    | err b e w hb hh => exact .err b e w hb ((halts_of hP hv ht hT hf hs hb _ _).mpr hh)
    | crash b hb hh => exact .crash b hb ((halts_of hP hv ht hT hf hs hb _ _).mpr hh)

/-- **C63** The same for writers. -/
theorem C63_to_writer {ω : Type} (hP : Hereditary P) (hv : Stocked env tree T r P) (ht : ∀ t, Includable (r.cfg env stringSink) t → Parsed env t (tree t))
    (hT : Parsed env r.template T) (hf : FiltersKeep P r.engine.functions) {d : Formatter} {fs : BMap EngFn}
    (hs : AlikeOn P r.engine { r.engine with defaultFormatter := d, functions := fs }) (io : IoWriter ω) (w₀ : ω) (res : Res Unit) (w : ω) :
    r.ToWriter env io w₀ res w ↔ ({ r with engine := { r.engine with defaultFormatter := d, functions := fs } } : Renderer).ToWriter env io w₀ res w := by
  constructor
  · intro h
    cases h with
    | globalsErr e hb => exact .globalsErr e hb
    | globalsCrash hb => exact .globalsCrash hb
    | ok b w hb hh => exact .ok b w hb ((halts_of (sink := writerSink io) hP hv ht hT hf hs hb _ _).mp hh)
    | err b e w hb hh => exact .err b e w hb ((halts_of (sink := writerSink io) hP hv ht hT hf hs hb _ _).mp hh)
    | crash b w hb hh => exact .crash b w hb ((halts_of (sink := writerSink io) hP hv ht hT hf hs hb _ _).mp hh)
  · intro h
    cases h with
    | globalsErr e hb => exact .globalsErr e hb
    | globalsCrash hb => exact .globalsCrash hb
    | ok b w hb hh => exact .ok b w hb ((halts_of (sink := writerSink io) hP hv ht hT hf hs hb _ _).mpr hh)
    | err b e w hb hh => exact .err b e w hb ((halts_of (sink := writerSink io) hP hv ht hT hf hs hb _ _).mpr hh)
    | crash b w hb hh => exact .crash b w hb ((halts_of (sink := writerSink io) hP hv ht hT hf hs hb _ _).mpr hh)

namespace Vals
open Classical in
/-- A formatter that writes nothing for values without the property. -/
noncomputable def cut (P : Value → Prop) (f : Formatter) : Formatter := fun v => if P v then f v else .done (.ok ())

theorem cut_of {f : Formatter} {v : Value} (h : P v) : cut P f v = f v := if_pos h
theorem cut_not {f : Formatter} {v : Value} (h : ¬ P v) : cut P f v = .done (.ok ()) := if_neg h

noncomputable def cutFn (P : Value → Prop) : EngFn → EngFn
  | .formatter f => .formatter (cut P f)
  | .filter f => .filter f

noncomputable def cutFns (P : Value → Prop) (fs : BMap EngFn) : BMap EngFn := fs.map fun p => (p.1, cutFn P p.2)

theorem get_cut (fs : BMap EngFn) (n : Str) : BMap.get (cutFns P fs) n = (BMap.get fs n).map (cutFn P) := by
  induction fs with
  | nil => rfl
  | cons p fs ih =>
    obtain ⟨k, f⟩ := p
    rw [cutFns, List.map_cons, BMap.get, BMap.get]
    split
    · rfl
    · exact ih

theorem cut_same (e : Engine) : AlikeOn P e { e with defaultFormatter := cut P e.defaultFormatter, functions := cutFns P e.functions } := by
  refine ⟨fun v hv => (cut_of hv).symm, fun n => ?_⟩
  rw [get_cut]
  cases BMap.get e.functions n with
  | none => exact .none
  | some g =>
    cases g with
    | formatter f => exact .formatter fun v hv => (cut_of hv).symm
    | filter f => exact .filter rfl rfl fun _ _ _ _ => rfl

end Vals

/-- **C63** So it suffices for the safety of the output (C47) that formatters are safe for such values: if the text of the templates satisfies `Q`, as does all
that formatters write for values that have the property, and `Q` holds of the empty text and of two texts together if it holds of both, then `Q` holds of the
rendered text. -/
theorem C63_output {Q : Str → Prop} (hP : Hereditary P) (hv : Stocked env tree T r P) (ht : ∀ t, Includable (r.cfg env stringSink) t → Parsed env t (tree t))
    (hT : Parsed env r.template T) (hf : FiltersKeep P r.engine.functions) (htext : ∀ U, Needs (r.cfg env stringSink) tree T U → ∀ s, HasText U s → Q s)
    (hshown : ∀ v, P v → OnlyWrites Q (r.engine.defaultFormatter v))
    (hnamed : ∀ U, Needs (r.cfg env stringSink) tree T U → ∀ n f, HasFormatter U n → BMap.get r.engine.functions n = some (.formatter f) →
      ∀ v, P v → OnlyWrites Q (f v))
    (h0 : Q []) (happ : ∀ x y, Q x → Q y → Q (x ++ y)) {s : Str} (hs : r.ToString env (.ok s)) : Q s := by
  have hs := (C63_to_string hP hv ht hT hf (cut_same r.engine) _).mp hs
  have hneeds : ∀ U, Needs (({ r with engine := { r.engine with defaultFormatter := cut P r.engine.defaultFormatter, functions := cutFns P r.engine.functions } } : Renderer).cfg env stringSink) tree T U →
      Needs (r.cfg env stringSink) tree T U := by
    intro U h
    induction h with
    | self => exact .self
    | registered _ h1 h2 h3 ih => exact .registered ih h1 h2 h3
    | provided _ h1 h2 h3 ih => exact .provided ih h1 h2 h3
  refine C47_to_string (P := Q) (tree := tree) ⟨fun U hU => htext U (hneeds U hU), fun v => ?_, fun U hU n f hn hg v => ?_⟩ ht hT h0 happ hs
  · by_cases h : P v
    · show OnlyWrites Q (cut P _ v); rw [cut_of h]; exact hshown v h
    · show OnlyWrites Q (cut P _ v); rw [cut_not h]; exact .done _
  · change BMap.get (cutFns P r.engine.functions) n = _ at hg
    rw [get_cut] at hg
    cases hx : BMap.get r.engine.functions n with
    | none => rw [hx] at hg; cases hg
    | some g =>
      rw [hx] at hg
      cases g with
      | filter f => cases hg
      | formatter f =>
        cases hg
        by_cases h : P v
        · rw [cut_of h]; exact hnamed U (hneeds U hU) n f hn hx v h
        · rw [cut_not h]; exact .done _

end Upon
