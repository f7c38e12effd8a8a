import Verif.Model.Render
import Verif.Spec.Names
import Verif.Spec.Errors
import Verif.Spec.Params
/-
What a template means (C13-C23, C30): a direct evaluation of the syntax tree, by recursion on the
tree, without instructions, program counter or stacks.

`Quirks` selects between the documented meaning and the meaning the code has; they differ in two
places, see below.
-/
namespace Upon.Spec

/-- Where the code deviates from the documented meaning.
* `withNames`: the name of a variable bound by `with` is read, at each use, out of the source of the
  template in which the *use* stands, at the position where it stood in its own template.
* `loopOptional`: when a path that starts at a loop variable ends early at an optional access, the
  search for the name goes on in the enclosing scopes, instead of giving none. -/
structure Quirks where
  withNames : Bool
  loopOptional : Bool

/-- The documented meaning. -/
def documented : Quirks := ⟨false, false⟩

/-- What the code does. -/
def asBuilt : Quirks := ⟨true, true⟩

/-- Something that gives names a meaning. -/
inductive Binding where
  /-- a value whose entries are the variables -/
  | globals (c : Cow)
  /-- a function that is asked for every path -/
  | provider (f : ValueFn)
  /-- `with … as name`; the name may depend on the source of the template using it (`Quirks`) -/
  | name (n : Str → Option Str) (c : Cow)
  /-- one round of `for item in list`: the item, its index and the number of items after it -/
  | item (n : Str) (c : Cow) (index after : Nat)
  /-- one round of `for key, value in map` -/
  | entry (k v : Str) (key : Str) (c : Cow) (index after : Nat)
  /-- nothing beyond this is visible -/
  | wall

/-- The bindings in force, innermost first. -/
abbrev Scope := List Binding

/-- Follow the accesses, starting at a value. An optional access that finds nothing ends the walk
with `none`. -/
def follow (env : Env) (src : Str) (v : Value) : List Member → Res (Option Value)
  | [] => .ok (some v)
  | m :: ms =>
    match lookup env src v m with
    | .ok (some v') => follow env src v' ms
    | .ok none => .ok none
    | .err e => .err e
    | .crash => .crash

/-- Owned like `c`. -/
def like (c : Cow) (v : Value) : Cow :=
  match c with
  | .borrowed _ => .borrowed v
  | .owned _ => .owned v

/-- `follow`, where an early end gives none. -/
def followCow (env : Env) (src : Str) (c : Cow) (ms : List Member) : Res Cow :=
  match follow env src c.val ms with
  | .ok (some v) => .ok (like c v)
  | .ok none => .ok (.borrowed .none)
  | .err e => .err e
  | .crash => .crash

/-- The members of the special variable `loop`. -/
def loopInfo (env : Env) (src : Str) (index after : Nat) : List Member → Res (Option Cow)
  | [] => .ok (some (.owned (.map [("first".toList, .bool (index == 0)), ("index".toList, .integer index),
      ("last".toList, .bool (after == 0))])))
  | m :: ms =>
    match m.access with
    | .index _ => fault env "cannot index into map with integer" src m.span
    | .key k => do
      let n ← Res.ofOption (k.span.of src)
      let v ← (if n = "index".toList then .ok (.integer index)
        else if n = "first".toList then .ok (.bool (index == 0))
        else if n = "last".toList then .ok (.bool (after == 0))
        else if m.op = .optional then .ok .none
        else fault env "not found in map" src m.span : Res Value)
      match ms with
      | [] => .ok (some (.owned v))
      | m :: _ => fault env s!"cannot index into {typeName v}" src m.span

/-- The path as it is given to a value provider. -/
def pathOf (src : Str) : List Member → Res (List ValueMember)
  | [] => .ok []
  | m :: ms => do
    let a ← (match m.access with
      | .index i => .ok (.index i.value)
      | .key k => do
        let n ← Res.ofOption (k.span.of src)
        .ok (.key n) : Res ValueAccess)
    let rest ← pathOf src ms
    .ok (⟨m.op, a⟩ :: rest)

/-- A path that starts at a loop variable. -/
def followItem (q : Quirks) (env : Env) (src : Str) (c : Cow) (ms : List Member) : Res (Option Cow) :=
  match follow env src c.val ms with
  | .ok (some v) => .ok (some (like c v))
  | .ok none => if q.loopOptional then .ok none else .ok (some (.borrowed .none))
  | .err e => .err e
  | .crash => .crash

/-- What a binding says about a variable: `ok none` if nothing, so that the search goes on in the
enclosing scope. -/
def Binding.get (q : Quirks) (env : Env) (src : Str) (b : Binding) (v : Var) : Res (Option Cow) :=
  match b with
  | .globals c =>
    -- the first name must be an entry; if it is, the rest of the path must exist
    match lookup env src c.val v.first with
    | .ok (some x) => do
      let r ← followCow env src (like c x) v.rest
      .ok (some r)
    | .ok none => .ok none
    | .err _ => .ok none
    | .crash => .crash
  | .provider f => do
    let path ← pathOf src v.path
    match f path with
    | .ok x => .ok (some (.owned x))
    | .error reason => fault env reason src v.span
  | .name n c => do
    let a ← Res.ofOption (v.first.access.span.of src)
    let b ← Res.ofOption (n src)
    if a = b then do
      let r ← followCow env src c v.rest
      .ok (some r)
    else .ok none
  | .item n c index after =>
    match v.first.access with
    | .index _ => .ok none
    | .key k => do
      let a ← Res.ofOption (k.span.of src)
      if a = "loop".toList then loopInfo env src index after v.rest
      else if a = n then followItem q env src c v.rest
      else .ok none
  | .entry kn vn key c index after =>
    match v.first.access with
    | .index _ => .ok none
    | .key k => do
      let a ← Res.ofOption (k.span.of src)
      if a = "loop".toList then loopInfo env src index after v.rest
      else if a = kn then
        match v.rest with
        | [] => .ok (some (.owned (.string key)))
        | m :: _ => fault env "cannot index into string" src m.span
      else if a = vn then followItem q env src c v.rest
      else .ok none
  | .wall => fault env "not found in this scope" src v.first.span

/-- The value of a variable: the innermost binding that says something decides. -/
def resolve (q : Quirks) (env : Env) (src : Str) : Scope → Var → Res Cow
  | [], v => fault env "not found in this scope" src v.first.span
  | b :: ρ, v => do
    match ← b.get q env src v with
    | some c => .ok c
    | none => resolve q env src ρ v

/-! Expressions -/

/-- The value of a name or literal. -/
def evalBase (q : Quirks) (env : Env) (src : Str) (ρ : Scope) : BaseExpr → Res Cow
  | .var v => resolve q env src ρ v
  | .lit l => .ok (.owned l.value)

/-- Convert an argument to the parameter type; an argument that is a borrowed value or a literal
may be passed by reference, any other only by value. -/
def evalArg (q : Quirks) (env : Env) (src : Str) (ρ : Scope) (t : ArgTy) : BaseExpr → Res ArgVal
  | .lit l =>
    match offer env .argument true t l.value with
    | .ok a => .ok a
    | .error msg => fault env msg src l.span
  | .var v => do
    let c ← resolve q env src ρ v
    match (match c with | .borrowed x => offer env .argument true t x | .owned x => offer env .argument false t x) with
    | .ok a => .ok a
    | .error msg => fault env msg src v.span

/-- The arguments, left to right; the first that fails decides. -/
def evalArgs (q : Quirks) (env : Env) (src : Str) (ρ : Scope) :
    List ArgTy → List BaseExpr → Res (List ArgVal)
  | t :: ts, a :: as => do
    let x ← evalArg q env src ρ t a
    let xs ← evalArgs q env src ρ ts as
    .ok (x :: xs)
  | _, _ => .ok []

/-- Apply a filter: the number of arguments is checked first, then the value is converted, then the
arguments are evaluated and converted; then the filter runs. -/
def applyFilter (q : Quirks) (env : Env) (src : Str) (ρ : Scope) (f : Filter) (name : Ident) (v : Cow)
    (args : List BaseExpr) : Res Value :=
  if args.length ≠ f.args.length then
    fault env s!"filter expected {f.args.length} arguments" src name.span
  else
    match offer env .value true f.val v.val with
    | .error msg => fault env msg src name.span
    | .ok a => do
      let as ← evalArgs q env src ρ f.args args
      match f.call a as with
      | .ok r => .ok r
      | .error msg => filterFault env msg src name.span

variable {σ : Type}

/-- The value of an expression: the receiver first, then the call. -/
def evalExpr (q : Quirks) (cfg : RenderCfg σ) (src : Str) (ρ : Scope) : Expr → Res Cow
  | .base b => evalBase q cfg.env src ρ b
  | .call name args recv _ => do
    let v ← evalExpr q cfg src ρ recv
    let n ← Res.ofOption (name.span.of src)
    match BMap.get cfg.functions n with
    | some (.filter f) => do
      let r ← applyFilter q cfg.env src ρ f name v ((args.map Args.values).getD [])
      .ok (.owned r)
    | some (.formatter _) => fault cfg.env "expected filter, found formatter" src name.span
    | none => fault cfg.env "unknown filter" src name.span

/-! Statements -/

/-- Go on with a result; an error gets the name of the running template. -/
def andThen {α : Type} (name : Option Str) (w : World σ) (r : Res α) (k : α → RunRes σ) : RunRes σ :=
  match r with
  | .ok a => k a
  | .err e => .err (e.attachName name) w
  | .crash => .crash

/-- One after the other. -/
def seq (r : RunRes σ) (k : World σ → RunRes σ) : RunRes σ :=
  match r with
  | .ok w => k w
  | r => r

/-- Write a value with a formatter. -/
def write (cfg : RenderCfg σ) (name : Option Str) (f : Formatter) (v : Value) (src : Str) (span : Span)
    (w : World σ) : RunRes σ :=
  match (f v).run cfg.sink w.out with
  | (out, .ok ()) => .ok { w with out }
  | (out, .error reason) =>
    andThen (α := Unit) name { w with out } (formatFault cfg.env reason src span) (fun _ => .crash)

/-- `{{ e }}`: when the last call of `e` has no arguments it may name a formatter. -/
def emitExpr (q : Quirks) (cfg : RenderCfg σ) (name : Option Str) (src : Str) (ρ : Scope) (e : Expr)
    (w : World σ) : RunRes σ :=
  match e with
  | .call fn none recv span =>
    andThen name w (evalExpr q cfg src ρ recv) fun v =>
    andThen name w (Res.ofOption (fn.span.of src)) fun n =>
    match BMap.get cfg.functions n with
    | some (.formatter f) => write cfg name f v.val src fn.span w
    | some (.filter f) =>
      andThen name w (applyFilter q cfg.env src ρ f fn v []) fun r =>
        write cfg name cfg.defaultFormatter r src span w
    | none =>
      andThen (α := Unit) name w (fault cfg.env "unknown filter or formatter" src fn.span)
        (fun _ => .crash)
  | e =>
    andThen name w (evalExpr q cfg src ρ e) fun v => write cfg name cfg.defaultFormatter v.val src e.span w

/-- The bindings of the rounds of a loop over a list. -/
def listRounds (n : Str) (owned : Bool) : Nat → List Value → List Binding
  | _, [] => []
  | i, x :: xs => .item n (if owned then .owned x else .borrowed x) i xs.length :: listRounds n owned (i + 1) xs

/-- The bindings of the rounds of a loop over a map. -/
def mapRounds (k v : Str) (owned : Bool) : Nat → List (Str × Value) → List Binding
  | _, [] => []
  | i, (key, x) :: xs =>
    .entry k v key (if owned then .owned x else .borrowed x) i xs.length :: mapRounds k v owned (i + 1) xs

/-- Is the value owned? -/
def isOwned : Cow → Bool
  | .owned _ => true
  | .borrowed _ => false

/-- The rounds of a loop over a value. -/
def rounds (env : Env) (src : Str) (vars : LoopVars) (c : Cow) (span : Span) : Res (List Binding) :=
  match c.val, vars with
  | .list l, .item i => do
    let n ← Res.ofOption (i.span.of src)
    .ok (listRounds n (isOwned c) 0 l)
  | .list _, .keyValue _ _ sp => fault env "cannot unpack list item into two variables" src sp
  | .map m, .keyValue k v _ => do
    let kn ← Res.ofOption (k.span.of src)
    let vn ← Res.ofOption (v.span.of src)
    .ok (mapRounds kn vn (isOwned c) 0 m)
  | .map _, .item i => fault env "cannot unpack map item into one variable" src i.span
  | v, _ => fault env s!"expected iterable, but expression evaluated to {typeName v}" src span

/-- The name a `with` binds. -/
def withName (q : Quirks) (src : Str) (n : Ident) : Str → Option Str :=
  if q.withNames then fun src' => n.span.of src' else fun _ => n.span.of src

/-- Do the same for each element, in order, until one fails. -/
def forEach {α : Type} (f : α → World σ → RunRes σ) : List α → World σ → RunRes σ
  | [], w => .ok w
  | a :: as, w => seq (f a w) (forEach f as)

/-- Whether a condition holds. -/
def truthy : Value → Bool
  | .none => false
  | .bool b => b
  | .integer i => i ≠ 0
  | .float f => f ≠ 0#64 ∧ f ≠ 1#64 <<< 63
  | .string s => s ≠ []
  | .list l => l.length ≠ 0
  | .map m => m.length ≠ 0

/-- Rendering an included template: given the `include`'s name, the source it stands in and the
scope the template is to see. -/
abbrev Include (σ : Type) := AstString → Str → Option Str → Scope → World σ → RunRes σ

mutual
/-- The meaning of one statement of a template with the given name and source. -/
def evalStmt (q : Quirks) (cfg : RenderCfg σ) (inc : Include σ) (name : Option Str) (src : Str) (ρ : Scope) :
    Stmt → World σ → RunRes σ
  | .raw span, w =>
    andThen name w (Res.ofOption (span.of src)) fun t =>
      match cfg.sink.write w.out t with
      | (out, true) => .ok { w with out }
      | (out, false) => .err (formatErr.attachName name) { w with out }
  | .inlineExpr e _, w => emitExpr q cfg name src ρ e w
  | .include_ n none, w => inc n src name ρ w
  | .include_ n (some e), w =>
    andThen name w (evalExpr q cfg src ρ e) fun v => inc n src name (.globals v :: .wall :: ρ) w
  | .ifElse neg cond then_ else_, w =>
    andThen name w (evalExpr q cfg src ρ cond) fun v =>
      if truthy v.val ≠ neg then evalStmts q cfg inc name src ρ then_ w
      else match else_ with
        | some ss => evalStmts q cfg inc name src ρ ss w
        | none => .ok w
  | .forLoop vars e body, w =>
    andThen name w (evalExpr q cfg src ρ e) fun v =>
    andThen name w (rounds cfg.env src vars v e.span) fun bs =>
      forEach (fun b => evalStmts q cfg inc name src (b :: ρ) body) bs w
  | .with_ e n body, w =>
    andThen name w (evalExpr q cfg src ρ e) fun v =>
      evalStmts q cfg inc name src (.name (withName q src n) v :: ρ) body w

/-- The meaning of a sequence of statements. -/
def evalStmts (q : Quirks) (cfg : RenderCfg σ) (inc : Include σ) (name : Option Str) (src : Str) (ρ : Scope) :
    List Stmt → World σ → RunRes σ
  | [], w => .ok w
  | s :: ss, w => seq (evalStmt q cfg inc name src ρ s w) (evalStmts q cfg inc name src ρ ss)
end

/-- A template as a tree. -/
structure Tree where
  source : Str
  body : List Stmt

/-- Finding the template to include: the world records the question asked to a template function. -/
def find (cfg : RenderCfg σ) (src : Str) (n : AstString) (w : World σ) : World σ × Res Template :=
  match cfg.templateFn with
  | some f =>
    ({ w with asked := n.name :: w.asked },
      match f w.asked n.name with
      | .ok t => .ok t
      | .error e => fault cfg.env e src n.span)
  | none =>
    (w, match BMap.get cfg.templates n.name with
      | some t => .ok t
      | none => fault cfg.env "unknown template" src n.span)

/-- Including a template when `left` more levels of nesting are allowed. -/
def include_ (q : Quirks) (cfg : RenderCfg σ) (tree : Template → Tree) : Nat → Include σ
  | left, n, src, name, ρ, w =>
    match find cfg src n w with
    | (w, .ok t) =>
      match left with
      | 0 => .err (depthErr cfg.maxIncludeDepth) w
      | left + 1 =>
        evalStmts q cfg (include_ q cfg tree left) (some n.name) (tree t).source ρ (tree t).body w
    | (w, .err e) => .err (e.attachName name) w
    | (_, .crash) => .crash

/-- Rendering a template: at most `maxIncludeDepth` templates are active at a time, but always at
least one. -/
def render (q : Quirks) (cfg : RenderCfg σ) (tree : Template → Tree) (t : Tree) (name : Option Str) (ρ : Scope)
    (w : World σ) : RunRes σ :=
  evalStmts q cfg (include_ q cfg tree (cfg.maxIncludeDepth - 1)) name t.source ρ t.body w

/-- The templates an `include` may find: those registered in the engine or, if there is a template
function, those it may return. -/
def Includable (cfg : RenderCfg σ) (t : Template) : Prop :=
  match cfg.templateFn with
  | some f => ∃ asked n, f asked n = .ok t
  | none => ∃ n, BMap.get cfg.templates n = some t

end Upon.Spec
