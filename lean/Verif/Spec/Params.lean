import Verif.Model.Filter
import Verif.Spec.Names
/-
Passing values to the parameters of filters (C16, C31).
-/
namespace Upon.Spec

/-- The integers a parameter of an integer type can hold. -/
def Fits (env : Env) : IntTy → Int → Prop
  | .u8, i => 0 ≤ i ∧ i < 2 ^ 8
  | .u16, i => 0 ≤ i ∧ i < 2 ^ 16
  | .u32, i => 0 ≤ i ∧ i < 2 ^ 32
  | .u64, i => 0 ≤ i ∧ i < 2 ^ 64
  | .u128, i => 0 ≤ i ∧ i < 2 ^ 128
  | .usize, i => 0 ≤ i ∧ i < 2 ^ env.usizeBits
  | .i8, i => -(2 ^ 7) ≤ i ∧ i < 2 ^ 7
  | .i16, i => -(2 ^ 15) ≤ i ∧ i < 2 ^ 15
  | .i32, i => -(2 ^ 31) ≤ i ∧ i < 2 ^ 31
  | .i64, i => -(2 ^ 63) ≤ i ∧ i < 2 ^ 63
  | .i128, i => -(2 ^ 127) ≤ i ∧ i < 2 ^ 127
  | .isize, i => -(2 ^ (env.usizeBits - 1)) ≤ i ∧ i < 2 ^ (env.usizeBits - 1)

instance (env : Env) (t : IntTy) (i : Int) : Decidable (Fits env t i) := by
  cases t <;> rw [Fits] <;> infer_instance

/-- The name of a parameter type in messages. -/
def argName : ArgTy → String
  | .unit => "()"
  | .bool => "bool"
  | .int .u8 => "u8"
  | .int .u16 => "u16"
  | .int .u32 => "u32"
  | .int .u64 => "u64"
  | .int .u128 => "u128"
  | .int .usize => "usize"
  | .int .i8 => "i8"
  | .int .i16 => "i16"
  | .int .i32 => "i32"
  | .int .i64 => "i64"
  | .int .i128 => "i128"
  | .int .isize => "isize"
  | .f32 => "f32"
  | .f64 => "f64"
  | .string => "string"
  | .str => "&str"
  | .list => "list"
  | .listRef => "list"
  | .map => "map"
  | .mapRef => "map"
  | .value => "value"
  | .valueRef => "value"

/-- The types that borrow their argument. -/
def ByRef : ArgTy → Prop
  | .str | .listRef | .mapRef | .valueRef => True
  | _ => False

instance (t : ArgTy) : Decidable (ByRef t) := by
  cases t <;> first | exact isTrue trivial | exact isFalse id

/-- The value has the kind the type asks for, and an integer fits. -/
def accepts (env : Env) : ArgTy → Value → Option ArgVal
  | .unit, .none => some .unit
  | .bool, .bool b => some (.bool b)
  | .int t, .integer i => if Fits env t i then some (.int i) else none
  | .f32, .float f => some (.f32 (env.toF32 f))
  | .f64, .float f => some (.f64 f)
  | .string, .string s | .str, .string s => some (.str s)
  | .list, .list l | .listRef, .list l => some (.list l)
  | .map, .map m | .mapRef, .map m => some (.map m)
  | .value, v | .valueRef, v => some (.value v)
  | _, _ => none

/-- What is passed to a parameter: the value being filtered, or an argument. -/
inductive Role where
  | value
  | argument

/-- Why a value is not accepted. -/
def objection : Role → ArgTy → Value → String
  | .value, .int t, .integer i => s!"filter expected {argName (.int t)} value, but `{i}` is out of range"
  | .argument, .int t, .integer i => s!"filter expected {argName (.int t)} argument, but `{i}` is out of range"
  | .value, t, v => s!"filter expected {argName t} value, found {typeName v}"
  | .argument, t, v => s!"filter expected {argName t} argument, found {typeName v}"

/-- Why a value that is not borrowed is refused by a type that borrows. -/
def noLoan : ArgTy → String
  | .str => "filter expected reference argument but this string can only be passed as owned"
  | .listRef => "filter expected reference argument but this list can only be passed as owned"
  | .mapRef => "filter expected reference argument but this map can only be passed as owned"
  | _ => "filter expected reference argument but this value can only be passed as owned"

/-- Pass the value being filtered, or an argument: the kind is checked first, then whether it can be borrowed
(`lent`) if the type borrows. -/
def offer (env : Env) (what : Role) (lent : Bool) (t : ArgTy) (v : Value) : Except String ArgVal :=
  match accepts env t v with
  | none => .error (objection what t v)
  | some a => if ByRef t ∧ lent = false then .error (noLoan t) else .ok a

end Upon.Spec

namespace Upon
open Spec

theorem IntTy.fits (env : Env) (t : IntTy) (i : Int) : (t.min env ≤ i ∧ i ≤ t.max env) ↔ Fits env t i := by
  cases t <;> simp only [IntTy.min, IntTy.max, Fits] <;> omega

theorem IntTy.name_eq (t : IntTy) : t.name = argName (.int t) := by cases t <;> rfl

/-- What the model's conversion amounts to. -/
theorem fromValueRef_eq (env : Env) (t : ArgTy) (v : Value) :
    t.fromValueRef env v = (match accepts env t v with
      | some a => .ok a
      | none => match t, v with
        | .int t, .integer i => .error (.tryFromInt (argName (.int t)) i)
        | t, v => .error (.type (argName t) (typeName v))) := by
  cases t <;> cases v <;> try rfl
  case int.integer t i =>
    simp only [accepts, ArgTy.fromValueRef, IntTy.fits, IntTy.name_eq]
    by_cases h : Fits env t i
    · simp only [h, if_true]
    · simp only [h, if_false]
  all_goals
    simp only [accepts, ArgTy.fromValueRef, IntTy.name_eq, human_value]

theorem fromValue_eq (env : Env) (t : ArgTy) (v : Value) :
    t.fromValue env v = (match accepts env t v with
      | some a => if ByRef t then .error (.reference (match t with | .str => "string" | .listRef => "list" | .mapRef => "map" | _ => "value"))
        else .ok a
      | none => match t, v with
        | .int t, .integer i => .error (.tryFromInt (argName (.int t)) i)
        | t, v => .error (.type (argName t) (typeName v))) := by
  cases t <;> cases v <;> try rfl
  case int.integer t i =>
    simp only [accepts, ArgTy.fromValue, ArgTy.fromValueRef, IntTy.fits, IntTy.name_eq]
    by_cases h : Fits env t i
    · simp only [h, if_true]; rfl
    · simp only [h, if_false]
  all_goals
    simp only [accepts, ArgTy.fromValue, ArgTy.fromValueRef, IntTy.name_eq, human_value]

theorem offer_lent (env : Env) (t : ArgTy) (v : Value) :
    offer env .argument true t v = (match t.fromValueRef env v with
      | .ok a => .ok a
      | .error e => .error (errExpectedArg e)) := by
  rw [fromValueRef_eq, offer]
  cases accepts env t v with
  | some a => simp
  | none => cases t <;> cases v <;> rfl

theorem offer_owned (env : Env) (t : ArgTy) (v : Value) :
    offer env .argument false t v = (match t.fromValue env v with
      | .ok a => .ok a
      | .error e => .error (errExpectedArg e)) := by
  rw [fromValue_eq, offer]
  cases accepts env t v with
  | some a => cases t <;> rfl
  | none => cases t <;> cases v <;> rfl

theorem offer_value (env : Env) (t : ArgTy) (v : Value) :
    (∃ a, t.fromValueRef env v = .ok a ∧ offer env .value true t v = .ok a) ∨
    ∃ e m, t.fromValueRef env v = .error e ∧ errExpectedVal e = some m ∧ offer env .value true t v = .error m := by
  rw [fromValueRef_eq, offer]
  cases accepts env t v with
  | some a => exact .inl ⟨a, rfl, by simp⟩
  | none => cases t <;> cases v <;> exact .inr ⟨_, _, rfl, rfl, rfl⟩

end Upon
