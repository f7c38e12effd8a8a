import Verif.Model.Ser
/-
The `value!` macro (src/macros.rs).
-/
namespace Upon

/-- The tokens given to `value!`. Rust's own syntax is not part of /repo; a run of tokens that Rust reads as one
expression is one token here, `expr`, with the serde tree of its value, except that
* a single word is an `ident`: it may be a key, or an expression (a variable, `true`, `None`, …),
* an expression that starts with the word `None`, with `[` or with `{` is given as that token followed by
  the others, since the macro looks at the first token alone (src/macros.rs:79-92, 143-156). -/
inductive TT where
  | ident (name : Str) (val : SV)
  | expr (val : SV)
  | comma
  | colon
  /-- any other token -/
  | other
  /-- `[…]` -/
  | brackets (l : List TT)
  /-- `{…}` -/
  | braces (l : List TT)

/-- What the macro expands to: an expression made of `Value::None`, `Value::List(vec![…])`, a block that inserts
entries into a new `BTreeMap`, and `to_value(…).unwrap()`. -/
inductive MacroCode where
  | none
  | list (l : List MacroCode)
  | map (l : List (Str × MacroCode))
  | convert (v : SV)

mutual
/-- Models the `@list` rules of `_value!`, src/macros.rs:69-112, tried in their order. `es` are the elements
accumulated in the brackets; `trail` says whether they are followed by a comma (an empty accumulator
matches both `[$($elems:expr,)*]` and `[$($elems:expr),*]`). `none` means that the program does not compile. -/
def munchList (es : List MacroCode) (trail : Bool) : List TT → Option (List MacroCode)
  | [] => some es
  | .ident n v :: rest =>
    if trail || es.isEmpty then
      if n = "None".toList then munchList (es ++ [.none]) false rest
      else match rest with
        | .comma :: rest => munchList (es ++ [.convert v]) true rest
        | [] => some (es ++ [.convert v])
        | _ => none
    else none
  | .brackets l :: rest =>
    if trail || es.isEmpty then do
      let c ← munchList [] false l
      munchList (es ++ [.list c]) false rest
    else none
  | .braces l :: rest =>
    if trail || es.isEmpty then do
      let c ← munchMap l
      munchList (es ++ [.map c]) false rest
    else none
  | .expr v :: rest =>
    if trail || es.isEmpty then
      match rest with
      | .comma :: rest => munchList (es ++ [.convert v]) true rest
      | [] => some (es ++ [.convert v])
      | _ => none
    else none
  | .comma :: rest => if trail = false || es.isEmpty then munchList es true rest else none
  | .colon :: _ => none
  | .other :: _ => none

/-- Models the `@map` rules of `_value!` with no current key, src/macros.rs:124-125, 182-191: the entries still to be
inserted. `[]` and `{}` as values have rules of their own with the same result (src/macros.rs:210-220). -/
def munchMap : List TT → Option (List (Str × MacroCode))
  | [] => some []
  | .ident k _ :: rest => munchEntry k rest
  | _ => none

/-- Models the rules with a current key, src/macros.rs:143-180. -/
def munchEntry (key : Str) : List TT → Option (List (Str × MacroCode))
  | .colon :: .ident n v :: rest =>
    if n = "None".toList then munchInsert key .none rest
    else match rest with
      | [] => munchInsert key (.convert v) []
      | .comma :: rest => munchInsert key (.convert v) (.comma :: rest)
      | _ => none
  | .colon :: .brackets l :: rest => do
    let c ← munchList [] false l
    munchInsert key (.list c) rest
  | .colon :: .braces l :: rest => do
    let c ← munchMap l
    munchInsert key (.map c) rest
  | .colon :: .expr v :: rest =>
    match rest with
    | [] => munchInsert key (.convert v) []
    | .comma :: rest => munchInsert key (.convert v) (.comma :: rest)
    | _ => none
  | _ => none

/-- Models the rules with a current key and value, src/macros.rs:127-141. -/
def munchInsert (key : Str) (c : MacroCode) : List TT → Option (List (Str × MacroCode))
  | .comma :: rest => do
    let es ← munchMap rest
    some ((key, c) :: es)
  | [] => some [(key, c)]
  | _ => none
end

mutual
/-- Running the expanded expression: `to_value(…).unwrap()` (src/macros.rs:232) panics if the conversion fails. -/
def MacroCode.eval (env : Env) : MacroCode → Res Value
  | .none => .ok .none
  | .convert s =>
    match s.toValue env with
    | .ok v => .ok v
    | _ => .crash
  | .list l => do
    let vs ← MacroCode.evalList env l
    .ok (.list vs)
  | .map l => do
    let m ← MacroCode.evalMap env [] l
    .ok (.map m)

/-- The elements of `vec![…]`, from left to right. -/
def MacroCode.evalList (env : Env) : List MacroCode → Res (List Value)
  | [] => .ok []
  | c :: cs => do
    let v ← c.eval env
    let vs ← MacroCode.evalList env cs
    .ok (v :: vs)

/-- `let _ = map.insert(stringify!(key).into(), value);` for each entry in order, src/macros.rs:129, 140. -/
def MacroCode.evalMap (env : Env) (m : BMap Value) : List (Str × MacroCode) → Res (BMap Value)
  | [] => .ok m
  | (k, c) :: es => do
    let v ← c.eval env
    MacroCode.evalMap env (BMap.insert m k v) es
end

/-- Models `value!`, src/macros.rs:45-57: what the tokens expand to; `none` if the program does not compile. -/
def valueMacro (ts : List TT) : Option MacroCode := (munchMap ts).map .map

end Upon
