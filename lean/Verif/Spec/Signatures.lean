import Verif.Model.Signatures
import Verif.Spec.Params
/-
Which functions can be filters (C64).
-/
namespace Upon.Spec

/-- A function with these parameters can be a filter: up to four arguments after the value, and all but the first parameter own what they hold or are `&str`. -/
structure CanFilter (val : ArgTy) (args : List ArgTy) : Prop where
  few : args.length ≤ 4
  strs : ∀ t ∈ args, ByRef t → t = .str

/-- A filter as a function of all that it is given. -/
def Filter.takes (f : Filter) : List ArgVal → Except String Value
  | v :: as => f.call v as
  | [] => .error "unreachable"

end Upon.Spec
