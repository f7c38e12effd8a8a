import Verif.Model.Ast
/-
Member lookup (src/render/value.rs), loop states (src/render/iter.rs) and the render stack
(src/render/stack.rs).
-/
namespace Upon

/-- Models `lookup`, src/render/value.rs:94-137: access one member of a value. `Res.ok none` is
`Ok(None)`: an optional access that found nothing. -/
def lookup (env : Env) (source : Str) (value : Value) (m : Member) : Res (Option Value) :=
  match value, m.access with
  | .list l, .index i =>
    match m.op, l[i.value]? with
    | _, some v => .ok (some v)
    | .optional, none => .ok none
    | .direct, none =>
      errRender env s!"index out of bounds, the length is {l.length}" source m.span
  | .map mp, .key k => do
    let name ← Res.ofOption (k.span.of source)
    match m.op, BMap.get mp name with
    | _, some v => .ok (some v)
    | .optional, none => .ok none
    | .direct, none => errRender env "not found in map" source m.span
  | v, .index _ => errRender env s!"{v.human} does not support integer-based access" source m.span
  | v, .key _ => errRender env s!"{v.human} does not support key-based access" source m.span

/-- The loop of `lookup_path`, src/render/value.rs:40-45 and 50-55 (the two copies differ only in
the ownership of the result): `Res.ok none` is the early return on an optional miss. -/
def walk (env : Env) (source : Str) : Value → List Member → Res (Option Value)
  | v, [] => .ok (some v)
  | v, p :: ps => do
    match ← lookup env source v p with
    | some v' => walk env source v' ps
    | none => .ok none

/-- Models `lookup_path`, src/render/value.rs:32-59. -/
def lookupPath (env : Env) (source : Str) (c : Cow) (path : List Member) : Res Cow := do
  match c with
  | .borrowed v =>
    match ← walk env source v path with
    | some v' => .ok (.borrowed v')
    | none => .ok (.borrowed .none)
  | .owned v =>
    match ← walk env source v path with
    | some v' => .ok (.owned v')
    | none => .ok (.borrowed .none)

/-- The loop of `lookup_path_maybe`, src/render/value.rs:69-76 and 81-88 (two copies), at position
`i`: outer `none` is `return Ok(None)` (first segment not found), inner `none` is the optional
miss. An `Err` at position 0 is built and discarded, so a panic while building it remains. -/
def walkMaybe (env : Env) (source : Str) : Nat → Value → List Member → Res (Option (Option Value))
  | _, v, [] => .ok (some (some v))
  | i, v, p :: ps =>
    match lookup env source v p with
    | .ok (some v') => walkMaybe env source (i + 1) v' ps
    | .ok none => if i = 0 then .ok none else .ok (some none)
    | .err e => if i = 0 then .ok none else .err e
    | .crash => .crash

/-- Models `lookup_path_maybe`, src/render/value.rs:61-92. -/
def lookupPathMaybe (env : Env) (source : Str) (c : Cow) (path : List Member) :
    Res (Option Cow) := do
  match c with
  | .borrowed v =>
    match ← walkMaybe env source 0 v path with
    | none => .ok none
    | some none => .ok (some (.borrowed .none))
    | some (some v') => .ok (some (.borrowed v'))
  | .owned v =>
    match ← walkMaybe env source 0 v path with
    | none => .ok none
    | some none => .ok (some (.borrowed .none))
    | some (some v') => .ok (some (.owned v'))

/-- Models `enum LoopState`, src/render/iter.rs:13-50. The four Rust variants are the two shapes
(list, map) times the ownership flag; `Enumerate<Iter>` is the next index and the remaining
items, `value` the last item yielded. -/
inductive LoopState where
  | list (owned : Bool) (i : Str) (next : Nat) (rem : List Value) (value : Option (Nat × Value))
  | map (owned : Bool) (k v : Str) (next : Nat) (rem : List (Str × Value))
      (value : Option (Nat × (Str × Value)))
deriving Repr

/-- The `Cow` constructor for items yielded by an iterator with ownership flag `owned`
(src/render/iter.rs:184, 193, 224, 233). -/
def mkCow (owned : Bool) (v : Value) : Cow := if owned then .owned v else .borrowed v

/-- Models `LoopState::new`, src/render/iter.rs:54-132. -/
def LoopState.new (env : Env) (source : Str) (vars : LoopVars) (iterable : Cow) (span : Span) :
    Res LoopState :=
  let owned := match iterable with
    | .owned _ => true
    | .borrowed _ => false
  match iterable.val with
  | .list l =>
    match vars with
    | .item item => do
      let i ← Res.ofOption (item.span.of source)
      .ok (.list owned i 0 l none)
    | .keyValue _ _ sp => errRender env "cannot unpack list item into two variables" source sp
  | .map m =>
    match vars with
    | .item item => errRender env "cannot unpack map item into one variable" source item.span
    | .keyValue key value _ => do
      let k ← Res.ofOption (key.span.of source)
      let v ← Res.ofOption (value.span.of source)
      .ok (.map owned k v 0 m none)
  | v =>
    errRender env s!"expected iterable, but expression evaluated to {v.human}" source span

/-- Models `LoopState::iterate`, src/render/iter.rs:134-150: `none` when the iterator is exhausted,
otherwise the advanced state. -/
def LoopState.iterate : LoopState → Option LoopState
  | .list _ _ _ [] _ => none
  | .list o i n (x :: xs) _ => some (.list o i (n + 1) xs (some (n, x)))
  | .map _ _ _ _ [] _ => none
  | .map o k v n (x :: xs) _ => some (.map o k v (n + 1) xs (some (n, x)))

/-- Models `LoopState::current_index_and_rem`, src/render/iter.rs:288-312. -/
def LoopState.indexAndRem : LoopState → Option (Nat × Nat)
  | .list _ _ _ rem (some (i, _)) => some (i, rem.length)
  | .map _ _ _ _ rem (some (i, _)) => some (i, rem.length)
  | _ => none

/-- The key-sorted map `{first, index, last}` built at src/render/iter.rs:246-252 (`Value::from` an
array of pairs, collected into a `BTreeMap`). -/
def loopMap (i rem : Nat) : Value :=
  .map (BMap.ofList [("index".toList, .integer i), ("first".toList, .bool (i == 0)),
    ("last".toList, .bool (rem == 0))])

/-- Models `LoopState::lookup_loop`, src/render/iter.rs:240-286; `rest` is `path[1..]`. -/
def LoopState.lookupLoop (env : Env) (source : Str) (ls : LoopState) (rest : List Member) :
    Res (Option Cow) :=
  match ls.indexAndRem with
  | none => .ok none
  | some (i, rem) =>
    match rest with
    | [] => .ok (some (.owned (loopMap i rem)))
    | member :: rest2 =>
      match member.access with
      | .index _ => errRender env "cannot index into map with integer" source member.span
      | .key k => do
        let name ← Res.ofOption (k.span.of source)
        let v ← (if name = "index".toList then .ok (.integer i)
          else if name = "first".toList then .ok (.bool (i == 0))
          else if name = "last".toList then .ok (.bool (rem == 0))
          else match member.op with
            | .optional => .ok .none
            | .direct => errRender env "not found in map" source member.span : Res Value)
        match rest2 with
        | m :: _ => errRender env s!"cannot index into {v.human}" source m.span
        | [] => .ok (some (.owned v))

/-- Models `LoopState::lookup_var`, src/render/iter.rs:152-238. -/
def LoopState.lookupVar (env : Env) (source : Str) (ls : LoopState) (var : Var) :
    Res (Option Cow) :=
  match var.first.access with
  | .index _ => .ok none
  | .key k => do
    let name ← Res.ofOption (k.span.of source)
    if name = "loop".toList then ls.lookupLoop env source var.rest
    else
      match ls with
      | .list owned i _ _ (some (_, value)) =>
        if name = i then do
          match ← walk env source value var.rest with
          | some v => .ok (some (mkCow owned v))
          | none => .ok none
        else .ok none
      | .map owned kn vn _ _ (some (_, (string, value))) =>
        if name = kn then
          match var.rest with
          | m :: _ => errRender env "cannot index into string" source m.span
          | [] => .ok (some (.owned (.string string)))
        else if name = vn then do
          match ← walk env source value var.rest with
          | some v => .ok (some (mkCow owned v))
          | none => .ok none
        else .ok none
      | _ => .ok none

/-- Models `ValueAccess`, src/lib.rs:298-306. -/
inductive ValueAccess where
  | index (i : Nat)
  | key (k : Str)
deriving DecidableEq, Repr

/-- Models `ValueMember`, src/lib.rs:286-296 (`ValueAccessOp`, lib.rs:308-316, is `AccessOp`). -/
structure ValueMember where
  op : AccessOp
  access : ValueAccess
deriving DecidableEq, Repr

/-- Models `ValueFn`, src/lib.rs:284: the value provider of `render_from_fn`, a pure function
(Rust's `Fn`; interior mutability is not modelled). -/
abbrev ValueFn := List ValueMember → Except String Value

/-- Models `enum State`, src/render/stack.rs:12-27. -/
inductive SState where
  | valueFn (f : ValueFn)
  | scope (c : Cow)
  | var (name : Ident) (c : Cow)
  | loop (ls : LoopState)
  | boundary

/-- Models `Stack`, src/render/stack.rs:7-10, with the top of the stack first. -/
abbrev Stack := List SState

/-- The conversion of one path member for a value provider, src/render/stack.rs:63-73. -/
def toValueMember (source : Str) (m : Member) : Res ValueMember :=
  match m.access with
  | .index i => .ok ⟨m.op, .index i.value⟩
  | .key k => do
    let s ← Res.ofOption (k.span.of source)
    .ok ⟨m.op, .key s⟩

/-- The `collect` of src/render/stack.rs:60-74. -/
def toValueMembers (source : Str) : List Member → Res (List ValueMember)
  | [] => .ok []
  | m :: ms => do
    let x ← toValueMember source m
    let xs ← toValueMembers source ms
    .ok (x :: xs)

/-- Models `Stack::lookup_var`, src/render/stack.rs:56-108. Note that the name of a `Var` is
sliced out of `source`, the source of the template being rendered now. -/
def lookupVar (env : Env) (source : Str) : Stack → Var → Res Cow
  | [], v => errRender env "not found in this scope" source v.first.span
  | .valueFn f :: _, v => do
    let path ← toValueMembers source v.path
    match f path with
    | .ok x => .ok (.owned x)
    | .error reason => errRender env reason source v.span
  | .scope c :: rest, v => do
    match ← lookupPathMaybe env source c v.path with
    | some x => .ok x
    | none => lookupVar env source rest v
  | .var name c :: rest, v => do
    let a ← Res.ofOption (v.first.access.span.of source)
    let b ← Res.ofOption (name.span.of source)
    if a = b then lookupPath env source c v.rest else lookupVar env source rest v
  | .loop ls :: rest, v => do
    match ← ls.lookupVar env source v with
    | some x => .ok x
    | none => lookupVar env source rest v
  | .boundary :: _, v => errRender env "not found in this scope" source v.first.span

end Upon
