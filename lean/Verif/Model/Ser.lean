import Verif.Model.Filter
/-
Serialisation into values (src/value/ser/*.rs) and conversions (src/value/from.rs).
-/
namespace Upon

/-- A value of the serde data model: what `Serialize::serialize` tells a serializer, as a tree.
(`serde` itself is not part of /repo; the shapes are the methods of `serde::Serializer` implemented
at src/value/ser/mod.rs:52-229. `isize`/`usize` reach the serializer as `i64`/`u64`.) -/
inductive SV where
  | bool (b : Bool)
  | int (t : IntTy) (i : Int)
  | f32 (f : BitVec 32)
  | f64 (f : BitVec 64)
  | char (c : Char)
  | str (s : Str)
  | bytes (b : List UInt8)
  | none
  | some (v : SV)
  | unit
  | unitStruct
  | unitVariant (variant : Str)
  | newtypeStruct (v : SV)
  | newtypeVariant (variant : Str) (v : SV)
  | seq (l : List SV)
  | tuple (l : List SV)
  | tupleStruct (l : List SV)
  | tupleVariant (variant : Str) (l : List SV)
  | map (l : List (SV × SV))
  | struct (fields : List (Str × SV))
  | structVariant (variant : Str) (fields : List (Str × SV))

/-- Models `err_not_string`, src/value/ser/map.rs:235-237. -/
def errNotString {α : Type} : Res α := .err (Err.custom "map key must be a string")

/-- Models `impl Serializer for MapKeySerializer`, src/value/ser/map.rs:67-233. The defaults that
serde gives for `serialize_i128`/`serialize_u128` are an error. -/
def SV.toKey : SV → Res Str
  | .int .i128 _ => .err (Err.custom "i128 is not supported")
  | .int .u128 _ => .err (Err.custom "u128 is not supported")
  | .int _ i => .ok (toString i).toList
  | .char c => .ok [c]
  | .str s => .ok s
  | .unitVariant v => .ok v
  | .newtypeStruct v => v.toKey
  | _ => errNotString

mutual
/-- Models `to_value` and `impl Serializer for Serializer`, src/value/ser/mod.rs:15-21, 52-229, with
`SerializeList` (list.rs), `SerializeMap` (map.rs:1-64) and the variant serializers (variants.rs)
folded in. -/
def SV.toValue (env : Env) : SV → Res Value
  | .bool b => .ok (.bool b)
  | .int .i128 _ => .err (Err.custom "i128 is not supported")
  | .int .u128 _ => .err (Err.custom "u128 is not supported")
  | .int .u64 i | .int .usize i =>
    if i ≤ 9223372036854775807 then .ok (.integer i)
    else .err (Err.custom "out of range integral type conversion attempted")
  | .int _ i => .ok (.integer i)
  | .f32 f => .ok (.float (env.ofF32 f))
  | .f64 f => .ok (.float f)
  | .char c => .ok (.string [c])
  | .str s => .ok (.string s)
  | .bytes b => .ok (.list (b.map fun x => .integer x.toNat))
  | .none => .ok .none
  | .some v => v.toValue env
  | .unit => .ok .none
  | .unitStruct => .ok .none
  | .unitVariant v => .ok (.string v)
  | .newtypeStruct v => v.toValue env
  | .newtypeVariant n v => do
    let x ← v.toValue env
    .ok (.map (BMap.insert [] n x))
  | .seq l => do
    let xs ← SV.toValues env l
    .ok (.list xs)
  | .tuple l => do
    let xs ← SV.toValues env l
    .ok (.list xs)
  | .tupleStruct l => do
    let xs ← SV.toValues env l
    .ok (.list xs)
  | .tupleVariant n l => do
    let xs ← SV.toValues env l
    .ok (.map (BMap.insert [] n (.list xs)))
  | .map l => do
    let m ← SV.toEntries env [] l
    .ok (.map m)
  | .struct fs => do
    let m ← SV.toFields env [] fs
    .ok (.map m)
  | .structVariant n fs => do
    let m ← SV.toFields env [] fs
    .ok (.map (BMap.insert [] n (.map m)))

/-- The `serialize_element` / `serialize_field` calls, src/value/ser/list.rs:23-29. -/
def SV.toValues (env : Env) : List SV → Res (List Value)
  | [] => .ok []
  | v :: vs => do
    let x ← v.toValue env
    let xs ← SV.toValues env vs
    .ok (x :: xs)

/-- The `serialize_entry` calls of a map: key, then value, then insert, src/value/ser/map.rs:27-42. -/
def SV.toEntries (env : Env) (m : BMap Value) : List (SV × SV) → Res (BMap Value)
  | [] => .ok m
  | (k, v) :: es => do
    let key ← k.toKey
    let x ← v.toValue env
    SV.toEntries env (BMap.insert m key x) es

/-- The `serialize_field` calls of a struct, src/value/ser/map.rs:53-58, variants.rs:40-46. -/
def SV.toFields (env : Env) (m : BMap Value) : List (Str × SV) → Res (BMap Value)
  | [] => .ok m
  | (k, v) :: es => do
    let x ← v.toValue env
    SV.toFields env (BMap.insert m k x) es
end

mutual
/-- Models `impl Serialize for Value`, src/value/ser/mod.rs:23-44. -/
def Value.serialize : Value → SV
  | .none => .unit
  | .bool b => .bool b
  | .integer i => .int .i64 i
  | .float f => .f64 f
  | .string s => .str s
  | .list l => .seq (Value.serializeList l)
  | .map m => .map (Value.serializeMap m)

/-- The elements of a list. -/
def Value.serializeList : List Value → List SV
  | [] => []
  | v :: vs => v.serialize :: Value.serializeList vs

/-- The entries of a map, src/value/ser/mod.rs:36-41. -/
def Value.serializeMap : List (Str × Value) → List (SV × SV)
  | [] => []
  | (k, v) :: es => (.str k, v.serialize) :: Value.serializeMap es
end

/-- Models `From<Vec<V>>`, `From<[V; N]>`, `FromIterator<V>` for `Value`, src/value/from.rs:62-78,
122-132; `into` is `V: Into<Value>`. -/
def Value.ofVec {V : Type} (into : V → Value) (l : List V) : Value := .list (l.map into)

/-- Models `From<BTreeMap>`, `From<HashMap>`, `From<[(K, V); N]>` and `FromIterator<(K, V)>` for
`Value`, src/value/from.rs:80-108, 134-149: the pairs are collected in the iteration order. -/
def Value.ofPairs {K V : Type} (key : K → Str) (into : V → Value) (l : List (K × V)) : Value :=
  .map (BMap.ofList (l.map fun p => (key p.1, into p.2)))

/-- Models `From<Option<V>>`, src/value/from.rs:110-120. -/
def Value.ofOption {V : Type} (into : V → Value) : Option V → Value
  | Option.none => .none
  | Option.some v => into v

/-- Models the scalar conversions, src/value/from.rs:6-60 (`()`, `bool`, the integer types up to 64
bits except `u64`, `f32`, `f64`, `String`/`&str`/`Cow<str>`). -/
inductive Scalar where
  | unit
  | bool (b : Bool)
  | int (i : Int)
  | f32 (f : BitVec 32)
  | f64 (f : BitVec 64)
  | string (s : Str)

/-- See `Scalar`. -/
def Value.ofScalar (env : Env) : Scalar → Value
  | .unit => .none
  | .bool b => .bool b
  | .int i => .integer i
  | .f32 f => .float (env.ofF32 f)
  | .f64 f => .float f
  | .string s => .string s

end Upon
