import Verif.Spec.Mentions
/-
Properties that all values in a running render have.
-/
namespace Upon.Spec
variable {σ : Type}

/-- How many rounds a loop over a value has. -/
def items : Value → Nat
  | .list l => l.length
  | .map m => m.length
  | _ => 0

/-- A property of values that the parts of a value have if the value has it – the elements of lists, the keys and values of maps – and that "none" has and the
map `loop` in each round of a loop over a value that has it. -/
structure Hereditary (P : Value → Prop) : Prop where
  item : ∀ l, P (.list l) → ∀ x ∈ l, P x
  entry : ∀ m, P (.map m) → ∀ p ∈ m, P p.2
  key : ∀ m, P (.map m) → ∀ p ∈ m, P (.string p.1)
  loop : ∀ v i r, P v → i + r < items v → P (loopMap i r)
  none : P .none

/-- All that a literal can denote has the property. -/
structure Scalars (P : Value → Prop) : Prop where
  bool : ∀ b, P (.bool b)
  integer : ∀ i, P (.integer i)
  float : ∀ f, P (.float f)
  string : ∀ s, P (.string s)

/-- The literals in an expression. -/
def baseLits : BaseExpr → List Value
  | .var _ => []
  | .lit l => [l.value]
def exprLits : Expr → List Value
  | .base b => baseLits b
  | .call _ args recv _ => exprLits recv ++ ((args.map Args.values).getD []).flatMap baseLits

/-- The literal occurs in the template. -/
def HasLit (T : Tree) (v : Value) : Prop := ∃ e ∈ stmtsExprs T.body, v ∈ exprLits e

/-- What is given to a filter has the property (if it is a number that was rounded, nothing is said). -/
def ArgOf (P : Value → Prop) : ArgVal → Prop
  | .value v => P v
  | .list l => P (.list l)
  | .map m => P (.map m)
  | .str s => P (.string s)
  | .int i => P (.integer i)
  | .bool b => P (.bool b)
  | .f64 f => P (.float f)
  | .unit => P .none
  | .f32 _ => True

/-- Filters return values with the property when they are given values with the property. -/
def FiltersKeep (P : Value → Prop) (fs : BMap EngFn) : Prop :=
  ∀ n f a as v, BMap.get fs n = some (.filter f) → ArgOf P a → (∀ x ∈ as, ArgOf P x) → f.call a as = .ok v → P v

/-- The values a render is given have the property. -/
def GlobalsOf (P : Value → Prop) : Globals → Prop
  | .owned r => ∀ v, r = .ok v → P v
  | .borrowed v => P v
  | .fn f => ∀ p v, f p = .ok v → P v

/-- What the engine has under a name, in two engines: the same kind of function, which does the same when it is given values with the property. -/
inductive FnAlikeOn (P : Value → Prop) : Option EngFn → Option EngFn → Prop
  | none : FnAlikeOn P none none
  | formatter {f f' : Formatter} : (∀ v, P v → f v = f' v) → FnAlikeOn P (some (.formatter f)) (some (.formatter f'))
  | filter {f f' : Filter} : f.val = f'.val → f.args = f'.args →
      (∀ a as, ArgOf P a → (∀ x ∈ as, ArgOf P x) → f.call a as = f'.call a as) → FnAlikeOn P (some (.filter f)) (some (.filter f'))

/-- The filters and formatters of two engines do the same when they are given values with the property. -/
structure AlikeOn (P : Value → Prop) (e e' : Engine) : Prop where
  shown : ∀ v, P v → e.defaultFormatter v = e'.defaultFormatter v
  named : ∀ n, FnAlikeOn P (BMap.get e.functions n) (BMap.get e'.functions n)

/-- The values that a render is given have the property: the data, and the literals of the templates. -/
structure Stocked (env : Env) (tree : Template → Tree) (T : Tree) (r : Renderer) (P : Value → Prop) : Prop where
  data : GlobalsOf P r.globals
  lits : ∀ v, HasLit T v → P v
  included : ∀ t, Includable (r.cfg env stringSink) t → ∀ v, HasLit (tree t) v → P v

end Upon.Spec
