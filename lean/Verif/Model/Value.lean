import Verif.Model.Error
/-
Values (src/value/mod.rs, src/value/cow.rs, src/render/value.rs) and the ordered map they use.
-/
namespace Upon

/-- The order of Rust's `String` (`Ord for str`): lexicographic on the UTF-8 bytes. -/
def byteLt : List UInt8 → List UInt8 → Bool
  | [], [] => false
  | [], _ :: _ => true
  | _ :: _, [] => false
  | a :: as, b :: bs => if a < b then true else if b < a then false else byteLt as bs

/-- `a < b` for Rust strings. -/
def strLt (a b : Str) : Bool := byteLt (utf8 a) (utf8 b)

/-- Models `std::collections::BTreeMap<String, V>` as the list of its entries in key order. -/
abbrev BMap (V : Type) := List (Str × V)

namespace BMap
variable {V : Type}

/-- Models `BTreeMap::get`. -/
def get : BMap V → Str → Option V
  | [], _ => none
  | (k, v) :: m, key => if k = key then some v else get m key

/-- Models `BTreeMap::insert` (the new map; the replaced value is `get` of the old map). -/
def insert : BMap V → Str → V → BMap V
  | [], key, x => [(key, x)]
  | (k, v) :: m, key, x =>
    if k = key then (key, x) :: m
    else if strLt key k then (key, x) :: (k, v) :: m
    else (k, v) :: insert m key x

/-- Models `BTreeMap::remove` (the new map). -/
def remove : BMap V → Str → BMap V
  | [], _ => []
  | (k, v) :: m, key => if k = key then m else (k, v) :: remove m key

/-- Models `FromIterator for BTreeMap`: insert the pairs one after the other. -/
def ofList (l : List (Str × V)) : BMap V := l.foldl (fun m p => m.insert p.1 p.2) []

end BMap

/-- Models `enum Value`, src/value/mod.rs:16-25. `i64` is an `Int` (ranges are checked where
the code checks them), `f64` its bits. -/
inductive Value where
  | none
  | bool (b : Bool)
  | integer (i : Int)
  | float (f : BitVec 64)
  | string (s : Str)
  | list (l : List Value)
  | map (m : List (Str × Value))
deriving Repr, Inhabited

/-- Models `Value::human`, src/render/value.rs:19-29. -/
def Value.human : Value → String
  | .none => "none"
  | .bool _ => "bool"
  | .integer _ => "integer"
  | .float _ => "float"
  | .string _ => "string"
  | .list _ => "list"
  | .map _ => "map"

/-- `f == 0.0` for an `f64` given by its bits: plus or minus zero. -/
def f64IsZero (f : BitVec 64) : Bool := f == 0#64 || f == 0x8000000000000000#64

/-- Models `ValueCow::as_bool`, src/render/value.rs:6-15. -/
def Value.asBool : Value → Bool
  | .none => false
  | .bool false => false
  | .integer 0 => false
  | .float n => !f64IsZero n
  | .string s => !s.isEmpty
  | .list l => !l.isEmpty
  | .map m => !m.isEmpty
  | _ => true

/-- Models `enum ValueCow`, src/value/cow.rs:7-11. The distinction matters because filters that
take references refuse owned arguments (src/filters/args.rs). -/
inductive Cow where
  | borrowed (v : Value)
  | owned (v : Value)
deriving Repr, Inhabited

/-- Models `Deref for ValueCow`, src/value/cow.rs:13-22. -/
def Cow.val : Cow → Value
  | .borrowed v => v
  | .owned v => v

/-- `i64::MIN` .. `i64::MAX`. -/
def inI64 (i : Int) : Bool := decide (-9223372036854775808 ≤ i) && decide (i ≤ 9223372036854775807)

end Upon
