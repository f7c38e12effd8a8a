import Verif.Spec.Refactor
/-
Vocabulary for C72: rewriting a template with the help of what the engine's functions do.
-/
namespace Upon.Plain
open Spec

/-- What a filter has to say about a value. -/
inductive Said where
  /-- it answers -/
  | value (v : Value)
  /-- it is not called: the number or the type of what it is given is wrong -/
  | refused (msg : String)
  /-- it returns an error -/
  | failed (msg : String)
deriving Repr

/-- Arguments that are literals, as the filter receives them. -/
def given (env : Env) : List ArgTy → List Value → Except String (List ArgVal)
  | t :: ts, v :: vs =>
    match offer env .argument true t v with
    | .error m => .error m
    | .ok a => (given env ts vs).map (a :: ·)
  | _, _ => .ok []

/-- What a filter with literals for arguments says about a value. -/
def answers (env : Env) (f : Filter) (args : List Value) (v : Value) : Said :=
  if args.length ≠ f.args.length then .refused s!"filter expected {f.args.length} arguments"
  else match offer env .value true f.val v with
    | .error m => .refused m
    | .ok a =>
      match given env f.args args with
      | .error m => .refused m
      | .ok as =>
        match f.call a as with
        | .ok r => .value r
        | .error m => .failed m

/-- A parameter of this type can receive this. -/
def Takes (env : Env) (t : ArgTy) (a : ArgVal) : Prop := ∃ v, accepts env t v = some a

/-- Parameters of these types can receive these. -/
inductive TakesAll (env : Env) : List ArgTy → List ArgVal → Prop
  | nil : TakesAll env [] []
  | cons {t ts a as} : Takes env t a → TakesAll env ts as → TakesAll env (t :: ts) (a :: as)

/-- The result of a filter function. -/
def ofCall : Except String Value → Said
  | .ok v => .value v
  | .error m => .failed m

/-- `e | name: args`, without a colon if there are no arguments. -/
def callWith (n : Str) (args : List Value) (e : Expr) : Expr :=
  .call n (if args.isEmpty then none else some (args.map .lit)) e

/-- The engine's function of this name is the filter. -/
def IsFilter (fs : List (Str × EngFn)) (n : Str) (f : Filter) : Prop := BMap.get fs n = some (.filter f)

/-- The expression is a variable or a literal, or the last call is a call of a filter. -/
def Valued (fs : List (Str × EngFn)) : Expr → Prop
  | .base _ => True
  | .call n _ _ => ∃ f, IsFilter fs n f

/-- Expressions that come to the same with these functions. -/
inductive Equal (env : Env) (fs : List (Str × EngFn)) : Expr → Expr → Prop
  /-- two names of one function -/
  | sameFn {n m args e} : BMap.get fs n = BMap.get fs m → Equal env fs (.call n args e) (.call m args e)
  /-- `e | f: 1, 2` is `e | g: 3` if `f` with these arguments does what `g` does with those -/
  | literals {n f as m g bs e} : IsFilter fs n f → IsFilter fs m g → (∀ v, answers env f as v = answers env g bs v) →
      Equal env fs (callWith n as e) (callWith m bs e)
  /-- `e | f: x, y | g: 1` is `e | h: x, y` if `h`, for whatever `f` can be given, does what `f` does and then `g` with these arguments -/
  | fuse {n f m g bs k h args e} : IsFilter fs n f → IsFilter fs m g → IsFilter fs k h → h.val = f.val → h.args = f.args →
      (∀ a xs, Takes env f.val a → TakesAll env f.args xs → ofCall (h.call a xs) = match f.call a xs with
        | .ok r => answers env g bs r
        | .error msg => .failed msg) →
      Equal env fs (callWith m bs (.call n args e)) (.call k args e)
  /-- `7 | f: 1` is `8` if that is what `f` answers -/
  | precompute {n f as v r} : IsFilter fs n f → answers env f as v = .value r → Equal env fs (callWith n as (.base (.lit v))) (.base (.lit r))
  /-- a filter that changes nothing can be left out before another call -/
  | skip {n f as m args e} : IsFilter fs n f → (∀ v, answers env f as v = .value v) → Equal env fs (.call m args (callWith n as e)) (.call m args e)
  /-- what comes before a call can be rewritten -/
  | inside {n args e e'} : Equal env fs e e' → Equal env fs (.call n args e) (.call n args e')
  | refl {e} : Equal env fs e e
  | symm {a b} : Equal env fs a b → Equal env fs b a
  | trans {a b c} : Equal env fs a b → Equal env fs b c → Equal env fs a c

/-- Rewriting by the laws of C49 and by what the functions and the default formatter of the engine do, in both directions and anywhere. -/
inductive Simplified (env : Env) (fs : List (Str × EngFn)) (fmt : Formatter) : List Stmt → List Stmt → Prop
  | law {a b} : Law a b → Simplified env fs fmt a b
  /-- expressions that come to the same, wherever a template has one -/
  | expr {e e'} : Equal env fs e e' → Simplified env fs fmt [.expr e] [.expr e']
  | cond {neg e e' a b} : Equal env fs e e' → Simplified env fs fmt [.ifElse neg e a b] [.ifElse neg e' a b]
  | seq {vs e e' b} : Equal env fs e e' → Simplified env fs fmt [.forLoop vs e b] [.forLoop vs e' b]
  | bound {e e' n b} : Equal env fs e e' → Simplified env fs fmt [.with_ e n b] [.with_ e' n b]
  | passed {m e e'} : Equal env fs e e' → Simplified env fs fmt [.include_ m (some e)] [.include_ m (some e')]
  /-- `{{ e | fmt }}` is `{{ e }}` if this is the default formatter -/
  | formatter {n e} : BMap.get fs n = some (.formatter fmt) → Valued fs e → Simplified env fs fmt [.expr (.call n none e)] [.expr e]
  /-- a literal can be replaced by the text that is written for it -/
  | text {v s} : (fmt v).run stringSink [] = (s, .ok ()) → Simplified env fs fmt [.expr (.base (.lit v))] (s.map .char)
  /-- `{% with e as n %}{{ n }}{% endwith %}` is `{{ e }}` -/
  | once {e n} : Valued fs e → Simplified env fs fmt [.with_ e n [.expr (justName n)]] [.expr e]
  /-- a filter that changes nothing can be left out where a value is written -/
  | shown {n f as e} : IsFilter fs n f → (∀ v, answers env f as v = .value v) → Valued fs e → Simplified env fs fmt [.expr (callWith n as e)] [.expr e]
  /-- and a filter that takes every value and keeps true what is true and false what is false can be left out of a condition -/
  | asked {n f as neg e a b} : IsFilter fs n f → (∀ v, ∃ r, answers env f as v = .value r ∧ truthy r = truthy v) →
      Simplified env fs fmt [.ifElse neg (callWith n as e) a b] [.ifElse neg e a b]
  | refl {a} : Simplified env fs fmt a a
  | symm {a b} : Simplified env fs fmt a b → Simplified env fs fmt b a
  | trans {a b c} : Simplified env fs fmt a b → Simplified env fs fmt b c → Simplified env fs fmt a c
  | append {a a' b b'} : Simplified env fs fmt a a' → Simplified env fs fmt b b' → Simplified env fs fmt (a ++ b) (a' ++ b')
  | then_ {neg c a a' e} : Simplified env fs fmt a a' → Simplified env fs fmt [.ifElse neg c a e] [.ifElse neg c a' e]
  | else_ {neg c a b b'} : Simplified env fs fmt b b' → Simplified env fs fmt [.ifElse neg c a (some b)] [.ifElse neg c a (some b')]
  | for_ {vs e b b'} : Simplified env fs fmt b b' → Simplified env fs fmt [.forLoop vs e b] [.forLoop vs e b']
  | with_ {e n b b'} : Simplified env fs fmt b b' → Simplified env fs fmt [.with_ e n b] [.with_ e n b']

end Upon.Plain
