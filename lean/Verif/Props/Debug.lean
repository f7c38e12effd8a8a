import Verif.Proofs.Debug
import Verif.Proofs.Equality
/-
C74: what `Debug` shows. C75: the equality of values.
-/
namespace Upon
open Spec

section
variable {printable : Char → Bool}

/-- **C74** Two strings show themselves in the same way only if they are the same, whatever follows. -/
theorem C74_string {s t x y : Str} (h : debugStr printable s ++ x = debugStr printable t ++ y) : s = t ∧ x = y := Dbg.str_inj h

/-- **C74** Two values show themselves in the same way exactly if they are the same, up to floats that are no numbers. -/
theorem C74_value {float : BitVec 64 → Str} (hf : ShowsFloats float) (v w : Value) :
    v.debug printable float = w.debug printable float ↔ ShownAs v w := by
  refine ⟨fun h => ?_, fun h => Dbg.value_same hf h⟩
  have : v.debug printable float ++ [] = w.debug printable float ++ [] := by rw [h]
  exact (Dbg.value_inj hf v w this).1

/-- **C74** An engine shows the names and kinds of its functions, the names of its templates and the limit of includes: all of this, and nothing else. -/
theorem C74_engine (e e' : Engine) : e.debug printable = e'.debug printable ↔ inventory e = inventory e' := by
  constructor
  · intro h
    unfold Engine.debug at h
    have h1 := List.append_cancel_left h
    rw [Dbg.lit_close, Dbg.lit_depth] at h1
    obtain ⟨h2, h3⟩ := Dbg.map_inj (kind := EngFn.discriminant) Dbg.fn_inj true e.functions e'.functions h1
    have h4 := List.append_cancel_left h3
    obtain ⟨h5, h6⟩ := Dbg.map_inj (kind := fun _ => ()) (show_ := compiledDebug) (fun v w x y h => ⟨rfl, List.append_cancel_left h⟩) true e.templates e'.templates h4
    have h7 := List.append_cancel_left h6
    obtain ⟨h8, _⟩ := Dbg.up_to (Dbg.nat_closed _) (Dbg.nat_closed _) h7
    have h9 := C32_integer_inj h8
    have h10 := congrArg (List.map Prod.fst) h5
    simp only [List.map_map] at h10
    have h11 : e.maxIncludeDepth = e'.maxIncludeDepth := by omega
    unfold inventory
    rw [h2, h11]
    exact congrArg (fun z => (_, z, _)) h10
  · intro h
    unfold inventory at h
    simp only [Prod.mk.injEq] at h
    obtain ⟨h1, h2, h3⟩ := h
    unfold Engine.debug
    rw [Dbg.map_same (kind := EngFn.discriminant) (fun v w h => by rw [Dbg.fn_text, Dbg.fn_text, h]) true _ _ h1, h3]
    have h4 : e.templates.map (fun p => (p.1, ())) = e'.templates.map (fun p => (p.1, ())) := by
      have := congrArg (List.map fun n => (n, ())) h2
      rw [List.map_map, List.map_map] at this
      exact this
    rw [Dbg.map_same (kind := fun _ => ()) (show_ := compiledDebug) (fun v w _ => rfl) true _ _ h4]

/-- **C74** All templates show themselves in the same way: nothing of their source or of what they were compiled to is shown. -/
theorem C74_template (t t' : Template) : t.debug = t'.debug := rfl

/-- **C74** A registered template shows its name and nothing else. -/
theorem C74_template_ref (t t' : TemplateRef) : t.debug printable = t'.debug printable ↔ t.name = t'.name := by
  unfold TemplateRef.debug
  constructor
  · intro h
    exact (Dbg.str_inj (List.append_cancel_left h)).1
  · intro h
    rw [h]
    rfl

/-- **C74** After the long form of an error, `{:?}` shows all its fields – the kind, the template's name, the reason, the place and the quoted line – such
that errors with different fields look different. (If the I/O errors inside can be read back.) -/
theorem C74_error (env : Env) {io : Nat → Str} (hio : Readable io) :
    ∃ fields : Err → Str, (∀ e, e.debug env (debugStr printable) io = e.display env true ++ '\n' :: fields e) ∧ ∀ e e', fields e = fields e' → e = e' := by
  refine ⟨fun e => "Error { kind: ".toList ++ e.kind.debug io ++ ", name: ".toList ++ debugOption (debugStr printable) e.name ++
      ", reason: ".toList ++ debugOption (fun r => debugStr printable r.toList) e.reason ++ ", pretty: ".toList ++
      debugOption (Pretty.debug (debugStr printable)) e.pretty ++ " }".toList, fun e => ?_, fun e e' h => ?_⟩
  · rw [Err.debug, List.append_assoc]
    rfl
  · simp only [List.append_assoc] at h
    obtain ⟨h1, h⟩ := Dbg.kind_inj hio _ _ _ _ (List.append_cancel_left h)
    obtain ⟨h2, h⟩ := Dbg.option_inj (fun _ _ _ _ => Dbg.str_inj) _ _ _ _ (List.append_cancel_left h)
    obtain ⟨h3, h⟩ := Dbg.option_inj (f := fun r : String => debugStr printable r.toList)
      (fun a b x y h => by obtain ⟨e, h⟩ := Dbg.str_inj h; exact ⟨String.toList_inj.mp e, h⟩) _ _ _ _ (List.append_cancel_left h)
    obtain ⟨h4, h⟩ := Dbg.option_inj Dbg.pretty_inj _ _ _ _ (List.append_cancel_left h)
    cases e
    cases e'
    simp only at h1 h2 h3 h4
    rw [h1, h2, h3, h4]

end

/-- **C75** A value is equal to itself exactly if no float inside it is not a number. -/
theorem C75_reflexive (v : Value) : v.eq v = true ↔ ∀ f, PartOf (.float f) v → ¬ NotNumber f := by
  constructor
  · intro h f hp hn
    exact Dbg.eq_part hp h (Dbg.nan_iff.mpr hn)
  · intro h
    exact Dbg.eq_refl v fun f hp => by
      cases hn : f64IsNan f with
      | true => exact absurd (Dbg.nan_iff.mp hn) (h f hp)
      | false => rfl

/-- **C75** Equality of values does not depend on the order. -/
theorem C75_symmetric (v w : Value) : v.eq w = w.eq v := Dbg.eq_symm v w

/-- **C75** Values equal to the same value are equal. -/
theorem C75_transitive {u v w : Value} (h1 : u.eq v = true) (h2 : v.eq w = true) : u.eq w = true := Dbg.eq_trans u v w h1 h2

/-- **C75** Equal values without floats that are zero are the same value, so nothing can tell them apart. -/
theorem C75_identical {v w : Value} (h : v.eq w = true) (hz : ∀ f, PartOf (.float f) v → f64IsZero f = false) : v = w := Dbg.eq_same v w h hz

/-- **C75** Equal values choose the same branches. -/
theorem C75_truth {v w : Value} (h : v.eq w = true) : v.asBool = w.asBool := Dbg.eq_truth h

/-- **C75** Equal values have equally many items. -/
theorem C75_items {v w : Value} (h : v.eq w = true) : items v = items w := Dbg.eq_length h

end Upon
