import Verif.Props.Signatures
import Verif.Proofs.Demo
/-
Beside C64: functions that can be filters, and functions that cannot.
-/
namespace Upon.Demo
open Spec

/-- The filter of the other examples, a `fn(i64, i64) -> i64`. -/
example : CanFilter add.val add.args := ⟨by decide, by simp [add, ByRef]⟩

/-- `fn(&[Value], &str, String, &str, bool)`, with as many parameters as a filter may have. -/
theorem five_params : CanFilter .listRef [.str, .string, .str, .bool] := ⟨by decide, by simp [ByRef]⟩

example : ∃ i ∈ filterImpls, i.AppliesTo [.listRef, .str, .string, .str, .bool] := (C64_registrable _).mpr ⟨_, _, rfl, five_params⟩

/-- `fn(String, &[Value])` cannot be a filter: only the first parameter may be a borrowed list. -/
example : ¬ ∃ i ∈ filterImpls, i.AppliesTo [.string, .listRef] := by
  rw [C64_registrable]
  rintro ⟨v, as, e, h⟩
  cases e
  have := h.strs .listRef (by simp) (by simp [ByRef])
  cases this

/-- Nor can a function of six parameters, -/
example (v a b c d e : ArgTy) : ¬ ∃ i ∈ filterImpls, i.AppliesTo [v, a, b, c, d, e] := by
  rw [C64_registrable]
  rintro ⟨v, as, h, h'⟩
  cases h
  have := h'.few
  simp at this

/-- nor one of none. -/
example : ¬ ∃ i ∈ filterImpls, i.AppliesTo [] := by
  rw [C64_registrable]
  rintro ⟨v, as, h, _⟩
  cases h

/-- The hypotheses of `C64_call` can be met. -/
example (env : Env) (source : Str) (stack : Stack) (name : Ident) (value : Cow) (args : List BaseExpr) :
    ∃ i ∈ filterImpls, ∃ a ∈ argsImpls,
      callWith env i a [.int .i64, .int .i64] (Filter.takes add) source stack name value args = callFilter env add source stack name value args := by
  have hc : CanFilter add.val add.args := ⟨by decide, by simp [add, ByRef]⟩
  obtain ⟨i, hi, h⟩ := (C64_registrable (add.val :: add.args)).mpr ⟨_, _, rfl, hc⟩
  obtain ⟨k, a, ha, hl, _⟩ := C64_arguments hc
  have ha := List.mem_of_getElem? ha
  exact ⟨i, hi, a, ha, C64_call hi ha h hl env source stack name value args⟩

end Upon.Demo
