import Verif.Model.Impls
/-
How the impls of `Filter` and `FilterArgs` are chosen and used: src/filters/mod.rs:100-111.
-/
namespace Upon

/-- The type a parameter stands for, given those of the type variables. -/
def Param.ty (θ : Char → ArgTy) : Param → ArgTy
  | .generic n => θ n
  | .str => .str
  | .listRef => .listRef
  | .mapRef => .mapRef
  | .valueRef => .valueRef

/-- The types for which `FilterArg<Output<'a> = Self>`: the types that own what they hold, src/filters/args.rs:31-142, 170-192, 220-242, 270-290 (those with
`type Output<'a> = Self`, or the type itself). The markers `Str`, `ListRef`, `MapRef` and `ValueRef` are the other ones (args.rs:150, 200, 250, 294). -/
def ArgTy.owns : ArgTy → Bool
  | .str | .listRef | .mapRef | .valueRef => false
  | _ => true

/-- The impl applies to a function with parameters of these types: for some choice of the type variables the function is an `Fn` of these types and all
bounds are met (that the types of the tuple, of what `FilterArgs` yields and of the pattern agree is a matter of the type checker, and is part of it). -/
def FilterImpl.AppliesTo (i : FilterImpl) (ts : List ArgTy) : Prop :=
  ∃ θ : Char → ArgTy, (∀ n ∈ i.owned, (θ n).owns = true) ∧ (∀ n ∈ i.generics, n ∈ i.owned) ∧ (∀ n, .generic n ∈ i.params → n ∈ i.generics) ∧
    i.func.map (Param.ty θ) = ts ∧ i.params = i.func ∧ i.output = i.func ∧ i.types = i.func

/-- The variable that a `let` or a pattern bound. -/
def bound {α : Type} (xs : List (Char × α)) (n : Char) : Option α := xs.lookup n

/-- The `let`s of `FilterArgs::from_state`, one after the other: `V::from_cow_mut(state.value).map_err(err)?` and `get_arg::<A>(.., k)?`, for the types given for
the type variables, src/filters/mod.rs:276-279 and the others. A name that is not bound, or an argument that is not there (`args[k]` in `get_arg`,
src/filters/mod.rs:385), is a panic. -/
def readAll (env : Env) (source : Str) (stack : Stack) (name : Ident) (value : Cow) (args : List BaseExpr) (types : List (Char × ArgTy)) :
    List (Char × Char × Option Nat) → Res (List (Char × ArgVal))
  | [] => .ok []
  | (x, T, from_) :: rest => do
    let t ← Res.ofOption (bound types T)
    let v ← (match from_ with
      | none =>
        match t.fromCowMut env value with
        | .ok v => .ok v
        | .error e =>
          match errExpectedVal e with
          | some msg => errRender env msg source name.span
          | none => .crash
      | some k => do
        let a ← Res.ofOption args[k]?
        getArg env source stack t a : Res ArgVal)
    let vs ← readAll env source stack name value args types rest
    .ok ((x, v) :: vs)

/-- Models `FilterArgs::from_state` of one impl, src/filters/mod.rs:268-361, and `check_args`, src/filters/mod.rs:364-374. -/
def ArgsImpl.fromState (a : ArgsImpl) (env : Env) (ts : List ArgTy) (source : Str) (stack : Stack) (name : Ident) (value : Cow) (args : List BaseExpr) :
    Res (List ArgVal) :=
  if args.length = a.expects then do
    let vars ← readAll env source stack name value args (a.generics.zip ts) a.reads
    Res.ofOption (a.result.mapM (bound vars))
  else errRender env s!"filter expected {a.expects} arguments" source name.span

/-- Models `Filter::filter` of one impl, `self(v, a, ..)`: src/filters/mod.rs:189-191 and the others. -/
def FilterImpl.filter {R : Type} (i : FilterImpl) (f : List ArgVal → R) (xs : List ArgVal) : Option R :=
  (i.passed.mapM (bound (i.names.zip xs))).map f

/-- Models the closure of `filters::new`, src/filters/mod.rs:100-111, made with two impls. -/
def callWith (env : Env) (i : FilterImpl) (a : ArgsImpl) (ts : List ArgTy) (f : List ArgVal → Except String Value) (source : Str) (stack : Stack) (name : Ident)
    (value : Cow) (args : List BaseExpr) : Res Value := do
  let xs ← a.fromState env ts source stack name value args
  match ← Res.ofOption (i.filter f xs) with
  | .ok r => .ok r
  | .error msg => .err (Err.filter msg)

end Upon
