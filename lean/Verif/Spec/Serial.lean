import Verif.Model.Ser
import Verif.Spec.Maps
import Verif.Spec.Filters
/-
Vocabulary for serialisation and conversions (C33, C34, C38): what data becomes, written without
reference to how the serializer works.
-/
namespace Upon.Spec

/-- `v` is the last value given for `k` in a sequence of pairs. -/
def LastFor {V : Type} (pairs : List (Str × V)) (k : Str) (v : V) : Prop :=
  ∃ a b, pairs = a ++ (k, v) :: b ∧ ∀ p ∈ b, p.1 ≠ k

/-- `m` is the map of a sequence of pairs: sorted by key, each key once, with its last value. -/
def MapOf {V : Type} (pairs : List (Str × V)) (m : List (Str × V)) : Prop :=
  Ascending m ∧ ∀ k v, (k, v) ∈ m ↔ LastFor pairs k v

/-- The integer types serde passes on (it has no default for 128-bit integers). -/
def Wide : IntTy → Prop
  | .i128 | .u128 => True
  | _ => False

/-- The text of a map key: integers in decimal, characters, strings and unit variants as they are,
newtype structs like their content. Nothing else is a key. -/
inductive KeyText : SV → Str → Prop
  | int {t i s} : ¬ Wide t → IntText i s → KeyText (.int t i) s
  | char {c} : KeyText (.char c) [c]
  | str {s} : KeyText (.str s) s
  | unitVariant {n} : KeyText (.unitVariant n) n
  | newtype_ {v s} : KeyText v s → KeyText (.newtypeStruct v) s

mutual
/-- What a serialisable tree becomes. -/
inductive Becomes (env : Env) : SV → Value → Prop
  | bool {b} : Becomes env (.bool b) (.bool b)
  | int {t i} : ¬ Wide t → FitsI64 i → Becomes env (.int t i) (.integer i)
  | f32 {f} : Becomes env (.f32 f) (.float (env.ofF32 f))
  | f64 {f} : Becomes env (.f64 f) (.float f)
  | char {c} : Becomes env (.char c) (.string [c])
  | str {s} : Becomes env (.str s) (.string s)
  | bytes {b} : Becomes env (.bytes b) (.list (b.map fun (x : UInt8) => .integer x.toNat))
  | none : Becomes env .none .none
  | some {s v} : Becomes env s v → Becomes env (.some s) v
  | unit : Becomes env .unit .none
  | unitStruct : Becomes env .unitStruct .none
  | unitVariant {n} : Becomes env (.unitVariant n) (.string n)
  | newtypeStruct {s v} : Becomes env s v → Becomes env (.newtypeStruct s) v
  | newtypeVariant {n s v} : Becomes env s v → Becomes env (.newtypeVariant n s) (.map [(n, v)])
  | seq {l vs} : BecomeAll env l vs → Becomes env (.seq l) (.list vs)
  | tuple {l vs} : BecomeAll env l vs → Becomes env (.tuple l) (.list vs)
  | tupleStruct {l vs} : BecomeAll env l vs → Becomes env (.tupleStruct l) (.list vs)
  | tupleVariant {n l vs} : BecomeAll env l vs → Becomes env (.tupleVariant n l) (.map [(n, .list vs)])
  | map {l pairs m} : EntriesBecome env l pairs → MapOf pairs m → Becomes env (.map l) (.map m)
  | struct {l pairs m} : FieldsBecome env l pairs → MapOf pairs m → Becomes env (.struct l) (.map m)
  | structVariant {n l pairs m} : FieldsBecome env l pairs → MapOf pairs m →
      Becomes env (.structVariant n l) (.map [(n, .map m)])
/-- The elements, one by one. -/
inductive BecomeAll (env : Env) : List SV → List Value → Prop
  | nil : BecomeAll env [] []
  | cons {s l v vs} : Becomes env s v → BecomeAll env l vs → BecomeAll env (s :: l) (v :: vs)
/-- The entries of a map, one by one. -/
inductive EntriesBecome (env : Env) : List (SV × SV) → List (Str × Value) → Prop
  | nil : EntriesBecome env [] []
  | cons {k s l n v vs} : KeyText k n → Becomes env s v → EntriesBecome env l vs →
      EntriesBecome env ((k, s) :: l) ((n, v) :: vs)
/-- The fields of a struct, one by one. -/
inductive FieldsBecome (env : Env) : List (Str × SV) → List (Str × Value) → Prop
  | nil : FieldsBecome env [] []
  | cons {n s l v vs} : Becomes env s v → FieldsBecome env l vs →
      FieldsBecome env ((n, s) :: l) ((n, v) :: vs)
end

/-! Trees that a Rust program can produce: integers are in the range of their type. -/

mutual
def Typed (env : Env) : SV → Prop
  | .int t i => Fits env t i
  | .some v | .newtypeStruct v | .newtypeVariant _ v => Typed env v
  | .seq l | .tuple l | .tupleStruct l | .tupleVariant _ l => TypedAll env l
  | .map l => TypedEntries env l
  | .struct l | .structVariant _ l => TypedFields env l
  | _ => True
def TypedAll (env : Env) : List SV → Prop
  | [] => True
  | v :: l => Typed env v ∧ TypedAll env l
def TypedEntries (env : Env) : List (SV × SV) → Prop
  | [] => True
  | (k, v) :: l => Typed env k ∧ Typed env v ∧ TypedEntries env l
def TypedFields (env : Env) : List (Str × SV) → Prop
  | [] => True
  | (_, v) :: l => Typed env v ∧ TypedFields env l
end

/-- Two keys of one key type: the same shape, and integers of the same type. -/
inductive SameKind : SV → SV → Prop
  | int {t i j} : SameKind (.int t i) (.int t j)
  | char {c d} : SameKind (.char c) (.char d)
  | str {s t} : SameKind (.str s) (.str t)
  | unitVariant {n m} : SameKind (.unitVariant n) (.unitVariant m)
  | newtype_ {a b} : SameKind a b → SameKind (.newtypeStruct a) (.newtypeStruct b)

mutual
/-- The integers of a value are 64-bit integers, as they are in every `Value`. -/
def Machine : Value → Prop
  | .integer i => FitsI64 i
  | .list l => MachineList l
  | .map m => MachineMap m
  | _ => True
def MachineList : List Value → Prop
  | [] => True
  | v :: l => Machine v ∧ MachineList l
def MachineMap : List (Str × Value) → Prop
  | [] => True
  | p :: m => Machine p.2 ∧ MachineMap m
end

end Upon.Spec
