import Verif.Model.Stack
/-
Filters: argument conversion (src/filters/args.rs) and calling (src/filters/mod.rs).
-/
namespace Upon

/-- The integer types of `impl_for_int!`, src/filters/args.rs:96. -/
inductive IntTy where
  | u8 | u16 | u32 | u64 | u128 | usize | i8 | i16 | i32 | i64 | isize | i128
deriving DecidableEq, Repr

/-- `stringify!($ty)`, src/filters/args.rs:82,84. -/
def IntTy.name : IntTy → String
  | .u8 => "u8" | .u16 => "u16" | .u32 => "u32" | .u64 => "u64" | .u128 => "u128"
  | .usize => "usize" | .i8 => "i8" | .i16 => "i16" | .i32 => "i32" | .i64 => "i64"
  | .isize => "isize" | .i128 => "i128"

/-- The smallest value of the type. -/
def IntTy.min (env : Env) : IntTy → Int
  | .u8 | .u16 | .u32 | .u64 | .u128 | .usize => 0
  | .i8 => -(2 ^ 7) | .i16 => -(2 ^ 15) | .i32 => -(2 ^ 31) | .i64 => -(2 ^ 63)
  | .i128 => -(2 ^ 127) | .isize => -(2 ^ (env.usizeBits - 1))

/-- The largest value of the type. -/
def IntTy.max (env : Env) : IntTy → Int
  | .u8 => 2 ^ 8 - 1 | .u16 => 2 ^ 16 - 1 | .u32 => 2 ^ 32 - 1 | .u64 => 2 ^ 64 - 1
  | .u128 => 2 ^ 128 - 1 | .usize => 2 ^ env.usizeBits - 1
  | .i8 => 2 ^ 7 - 1 | .i16 => 2 ^ 15 - 1 | .i32 => 2 ^ 31 - 1 | .i64 => 2 ^ 63 - 1
  | .i128 => 2 ^ 127 - 1 | .isize => 2 ^ (env.usizeBits - 1) - 1

/-- The parameter types a filter may have: the implementors of `FilterArg`,
src/filters/args.rs:31-307 (`Str`, `ListRef`, `MapRef`, `ValueRef` are the reference types). -/
inductive ArgTy where
  | unit | bool | int (t : IntTy) | f32 | f64 | string | str | list | listRef | map | mapRef
  | value | valueRef
deriving DecidableEq, Repr

/-- A converted argument as the filter function receives it (`FilterArg::Output`). -/
inductive ArgVal where
  | unit
  | bool (b : Bool)
  | int (i : Int)
  | f32 (f : BitVec 32)
  | f64 (f : BitVec 64)
  | str (s : Str)
  | list (l : List Value)
  | map (m : List (Str × Value))
  | value (v : Value)
deriving Repr

/-- Models `args::Error`, src/filters/args.rs:9-29. -/
inductive ArgErr where
  | type (exp got : String)
  | reference (got : String)
  | tryFromInt (want : String) (value : Int)
deriving DecidableEq, Repr

/-- Models `FilterArg::from_value_ref` for every type: src/filters/args.rs:38-43, 57-62, 79-86,
108-113, 132-137, 159-164, 182-187, 209-214, 232-237, 259-264, 282-284, 300-302. -/
def ArgTy.fromValueRef (env : Env) : ArgTy → Value → Except ArgErr ArgVal
  | .unit, .none => .ok .unit
  | .unit, v => .error (.type "()" v.human)
  | .bool, .bool b => .ok (.bool b)
  | .bool, v => .error (.type "bool" v.human)
  | .int t, .integer i =>
    if t.min env ≤ i ∧ i ≤ t.max env then .ok (.int i) else .error (.tryFromInt t.name i)
  | .int t, v => .error (.type t.name v.human)
  | .f32, .float f => .ok (.f32 (env.toF32 f))
  | .f32, v => .error (.type "f32" v.human)
  | .f64, .float f => .ok (.f64 f)
  | .f64, v => .error (.type "f64" v.human)
  | .string, .string s => .ok (.str s)
  | .string, v => .error (.type "string" v.human)
  | .str, .string s => .ok (.str s)
  | .str, v => .error (.type "&str" v.human)
  | .list, .list l => .ok (.list l)
  | .list, v => .error (.type "list" v.human)
  | .listRef, .list l => .ok (.list l)
  | .listRef, v => .error (.type "list" v.human)
  | .map, .map m => .ok (.map m)
  | .map, v => .error (.type "map" v.human)
  | .mapRef, .map m => .ok (.map m)
  | .mapRef, v => .error (.type "map" v.human)
  | .value, v => .ok (.value v)
  | .valueRef, v => .ok (.value v)

/-- Models `FilterArg::from_value` (an owned argument): the reference types refuse it
(src/filters/args.rs:152-157, 202-207, 252-257, 296-298), the others behave as
`from_value_ref`. -/
def ArgTy.fromValue (env : Env) : ArgTy → Value → Except ArgErr ArgVal
  | .str, .string _ => .error (.reference "string")
  | .listRef, .list _ => .error (.reference "list")
  | .mapRef, .map _ => .error (.reference "map")
  | .valueRef, _ => .error (.reference "value")
  | t, v => t.fromValueRef env v

/-- Models `FilterArg::from_cow_mut` (the value being filtered), src/filters/args.rs:45-47, 64-66,
88-90, 115-117, 139-144, 166-172, 189-194, 216-222, 239-244, 266-272, 286-288, 304-306: the same
conversion as `from_value_ref`, whether borrowed or owned. -/
def ArgTy.fromCowMut (env : Env) (t : ArgTy) (c : Cow) : Except ArgErr ArgVal :=
  t.fromValueRef env c.val

/-- A registered filter: its signature and its function. `Filter` is implemented for functions of
one value and up to four arguments (src/filters/mod.rs:179-262, src/filters/impls.rs); the model
allows any number. The function is pure (Rust's `Fn`); its result is `FilterReturn::to_value`
(src/filters/mod.rs:434-451) where an `Err` carries a message (`FilterError`, 457-467). -/
structure Filter where
  val : ArgTy
  args : List ArgTy
  call : ArgVal → List ArgVal → Except String Value

/-- Models `err_expected_arg`, src/filters/mod.rs:400-413. -/
def errExpectedArg : ArgErr → String
  | .type exp got => s!"filter expected {exp} argument, found {got}"
  | .reference got =>
    s!"filter expected reference argument but this {got} can only be passed as owned"
  | .tryFromInt want value => s!"filter expected {want} argument, but `{value}` is out of range"

/-- Models `err_expected_val`, src/filters/mod.rs:415-428; `none` is `unreachable!()`. -/
def errExpectedVal : ArgErr → Option String
  | .type exp got => some s!"filter expected {exp} value, found {got}"
  | .reference _ => none
  | .tryFromInt want value =>
    some s!"filter expected {want} value, but `{value}` is out of range"

/-- Models `get_arg`, src/filters/mod.rs:376-398. -/
def getArg (env : Env) (source : Str) (stack : Stack) (t : ArgTy) : BaseExpr → Res ArgVal
  | .var v => do
    match ← lookupVar env source stack v with
    | .borrowed x =>
      match t.fromValueRef env x with
      | .ok a => .ok a
      | .error e => errRender env (errExpectedArg e) source v.span
    | .owned x =>
      match t.fromValue env x with
      | .ok a => .ok a
      | .error e => errRender env (errExpectedArg e) source v.span
  | .lit l =>
    match t.fromValueRef env l.value with
    | .ok a => .ok a
    | .error e => errRender env (errExpectedArg e) source l.span

/-- The `get_arg` calls of `from_state`, in order (src/filters/mod.rs:285-361). -/
def getArgs (env : Env) (source : Str) (stack : Stack) : List ArgTy → List BaseExpr → Res (List ArgVal)
  | t :: ts, a :: as => do
    let x ← getArg env source stack t a
    let xs ← getArgs env source stack ts as
    .ok (x :: xs)
  | [], _ => .ok []
  | _ :: _, [] => .crash

/-- Models `FilterArgs::from_state` and `check_args`, src/filters/mod.rs:268-374. -/
def fromState (env : Env) (f : Filter) (source : Str) (stack : Stack) (name : Ident) (value : Cow)
    (args : List BaseExpr) : Res (ArgVal × List ArgVal) :=
  if args.length = f.args.length then
    match f.val.fromCowMut env value with
    | .ok v => do
      let as ← getArgs env source stack f.args args
      .ok (v, as)
    | .error e =>
      match errExpectedVal e with
      | some msg => errRender env msg source name.span
      | none => .crash
  else errRender env s!"filter expected {f.args.length} arguments" source name.span

/-- Models the closure made by `filters::new`, src/filters/mod.rs:100-111. -/
def callFilter (env : Env) (f : Filter) (source : Str) (stack : Stack) (name : Ident) (value : Cow)
    (args : List BaseExpr) : Res Value := do
  let (v, as) ← fromState env f source stack name value args
  match f.call v as with
  | .ok r => .ok r
  | .error msg => .err (Err.filter msg)

end Upon
