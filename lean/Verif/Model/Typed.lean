import Verif.Model.Filter
import Verif.Model.Ser
/-
Rust functions as filters: src/filters/mod.rs:100-111, 179-262, 434-467 and src/filters/impls.rs.
-/
namespace Upon
variable {env : Env}

/-- Models `FilterArg::Output`, src/filters/args.rs:32, 51, 73, 102, 126, 150, 176, 200, 226, 250, 276, 294: what a
parameter of the type can hold. (`&str` and `String` both hold a text, and so on.) -/
def ArgTy.Out (env : Env) : ArgTy → Type
  | .unit => Unit
  | .bool => Bool
  | .int t => { i : Int // t.min env ≤ i ∧ i ≤ t.max env }
  | .f32 => BitVec 32
  | .f64 => BitVec 64
  | .string => Str
  | .str => Str
  | .list => List Value
  | .listRef => List Value
  | .map => List (Str × Value)
  | .mapRef => List (Str × Value)
  | .value => Value
  | .valueRef => Value

/-- The converted argument (`ArgVal`) with its type; `none` is ruled out by the type checker. -/
def ArgTy.out (env : Env) : (t : ArgTy) → ArgVal → Option (t.Out env)
  | .unit, .unit => some ()
  | .bool, .bool b => some b
  | .int t, .int i => if h : t.min env ≤ i ∧ i ≤ t.max env then some ⟨i, h⟩ else none
  | .f32, .f32 f => some f
  | .f64, .f64 f => some f
  | .string, .str s => some s
  | .str, .str s => some s
  | .list, .list l => some l
  | .listRef, .list l => some l
  | .map, .map m => some m
  | .mapRef, .map m => some m
  | .value, .value v => some v
  | .valueRef, .value v => some v
  | _, _ => none

/-- Models `FilterArgs::Output`, a tuple: src/filters/mod.rs:272, 287, 304, 323, 344. -/
inductive Tuple (env : Env) : List ArgTy → Type where
  | nil : Tuple env []
  | cons {t : ArgTy} {ts : List ArgTy} (x : t.Out env) (xs : Tuple env ts) : Tuple env (t :: ts)

/-- The converted arguments as a tuple. -/
def Tuple.out (env : Env) : (ts : List ArgTy) → List ArgVal → Option (Tuple env ts)
  | [], [] => some .nil
  | t :: ts, a :: as => do
    let x ← t.out env a
    let xs ← Tuple.out env ts as
    some (.cons x xs)
  | _, _ => none

/-- The Rust functions of these parameters: `Fn(V, A, B, ..) -> R`. -/
def FnOf (env : Env) : List ArgTy → Type → Type
  | [], R => R
  | t :: ts, R => t.Out env → FnOf env ts R

/-- Models `Filter::filter`, `self(v, a, b, ..)`: src/filters/mod.rs:179-262 and each of the impls of
src/filters/impls.rs (those spell out the combinations in which the value is borrowed or arguments are `&str`). The
impls stop at four arguments; the model allows any number, and any parameter to be borrowed. -/
def FnOf.apply {R : Type} : {ts : List ArgTy} → FnOf env ts R → Tuple env ts → R
  | [], f, .nil => f
  | _ :: _, f, .cons x xs => FnOf.apply (f x) xs

/-- Models `FilterReturn::to_value` for `T: Into<Value>`, src/filters/mod.rs:434-441; `into` is one of the conversions of
src/value/from.rs. -/
def returns {T : Type} (into : T → Value) (x : T) : Except String Value := .ok (into x)

/-- Models `FilterReturn::to_value` for `Result<T, E>`, src/filters/mod.rs:443-451, and `FilterError::to_error` for
`String` and `&str`, src/filters/mod.rs:457-467. -/
def returnsResult {T : Type} (into : T → Value) : Except String T → Except String Value
  | .ok x => .ok (into x)
  | .error m => .error m

/-- Models `filters::new`, src/filters/mod.rs:100-111, for a Rust function. The message is that of an outcome that
the type checker rules out. -/
def Filter.ofFn {R : Type} (env : Env) (val : ArgTy) (args : List ArgTy) (ret : R → Except String Value)
    (f : FnOf env (val :: args) R) : Filter where
  val
  args
  call a as :=
    match val.out env a, Tuple.out env args as with
    | some x, some xs => ret (FnOf.apply f (.cons x xs))
    | _, _ => .error "unreachable"

end Upon
