import Verif.Model.Typed
import Verif.Spec.Filters
/-
Rust functions as filters (C54).
-/
namespace Upon.Spec

/-- A parameter that is given a value holds exactly it: the kinds agree, and only `f32` rounds. -/
def Holds (env : Env) : (t : ArgTy) → Value → t.Out env → Prop
  | .unit, .none, _ => True
  | .bool, .bool b, x => x = b
  | .int _, .integer i, x => x.val = i
  | .f32, .float f, x => x = env.toF32 f
  | .f64, .float f, x => x = f
  | .string, .string s, x => x = s
  | .str, .string s, x => x = s
  | .list, .list l, x => x = l
  | .listRef, .list l, x => x = l
  | .map, .map m, x => x = m
  | .mapRef, .map m, x => x = m
  | .value, v, x => x = v
  | .valueRef, v, x => x = v
  | _, _, _ => False

/-- A parameter is given an argument: a literal or the value of a variable, which must be borrowed if the parameter
borrows. -/
inductive Given (env : Env) (src : Str) (st : Stack) (t : ArgTy) : BaseExpr → t.Out env → Prop
  | lit {l x} : Holds env t l.value x → Given env src st t (.lit l) x
  | var {v c x} : lookupVar env src st v = .ok c → (ByRef t → ∃ y, c = .borrowed y) → Holds env t c.val x →
      Given env src st t (.var v) x

/-- The parameters after the first are given the arguments, one by one. -/
inductive GivenAll (env : Env) (src : Str) (st : Stack) : (ts : List ArgTy) → List BaseExpr → Tuple env ts → Prop
  | nil : GivenAll env src st [] [] .nil
  | cons {t ts a as x xs} : Given env src st t a x → GivenAll env src st ts as xs →
      GivenAll env src st (t :: ts) (a :: as) (.cons x xs)

end Upon.Spec
