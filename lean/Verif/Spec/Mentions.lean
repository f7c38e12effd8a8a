import Verif.Spec.Rendering
/-
Vocabulary for C43: what a template mentions, and which templates matter to a render.
-/
namespace Upon.Spec

variable {σ : Type}

/-- The variables in a name or literal. -/
def baseVars : BaseExpr → List Var
  | .var v => [v]
  | .lit _ => []

/-- The variables in an expression. -/
def exprVars : Expr → List Var
  | .base b => baseVars b
  | .call _ args recv _ => exprVars recv ++ ((args.map Args.values).getD []).flatMap baseVars

/-- The names of the filters and formatters in an expression. -/
def exprCalls : Expr → List Ident
  | .base _ => []
  | .call name _ recv _ => name :: exprCalls recv

mutual
/-- The expressions in a statement, in all its branches and bodies. -/
def stmtExprs : Stmt → List Expr
  | .raw _ => []
  | .inlineExpr e _ => [e]
  | .include_ _ none => []
  | .include_ _ (some e) => [e]
  | .ifElse _ e t none => e :: stmtsExprs t
  | .ifElse _ e t (some f) => e :: (stmtsExprs t ++ stmtsExprs f)
  | .forLoop _ e b => e :: stmtsExprs b
  | .with_ e _ b => e :: stmtsExprs b
def stmtsExprs : List Stmt → List Expr
  | [] => []
  | s :: ss => stmtExprs s ++ stmtsExprs ss
end

mutual
/-- The templates a statement includes, in all its branches and bodies. -/
def stmtIncludes : Stmt → List AstString
  | .raw _ => []
  | .inlineExpr _ _ => []
  | .include_ n _ => [n]
  | .ifElse _ _ t none => stmtsIncludes t
  | .ifElse _ _ t (some f) => stmtsIncludes t ++ stmtsIncludes f
  | .forLoop _ _ b => stmtsIncludes b
  | .with_ _ _ b => stmtsIncludes b
def stmtsIncludes : List Stmt → List AstString
  | [] => []
  | s :: ss => stmtIncludes s ++ stmtsIncludes ss
end

/-- The variable occurs in the template. -/
def HasVar (T : Tree) (v : Var) : Prop := ∃ e ∈ stmtsExprs T.body, v ∈ exprVars e

/-- Some variable in the template begins with this name. -/
def HasName (T : Tree) (n : Str) : Prop := ∃ v, HasVar T v ∧ v.first.access.span.of T.source = some n

/-- The filter or formatter is called in the template. -/
def HasCall (T : Tree) (n : Str) : Prop := ∃ e ∈ stmtsExprs T.body, ∃ i ∈ exprCalls e, i.span.of T.source = some n

/-- The template includes another one of this name. -/
def HasInclude (T : Tree) (n : Str) : Prop := ∃ a ∈ stmtsIncludes T.body, a.name = n

/-- The templates that can be reached from `T` by includes. -/
inductive Needs (cfg : RenderCfg σ) (tree : Template → Tree) (T : Tree) : Tree → Prop
  | self : Needs cfg tree T T
  | registered {U n t} : Needs cfg tree T U → HasInclude U n → cfg.templateFn = none → BMap.get cfg.templates n = some t →
      Needs cfg tree T (tree t)
  | provided {U n f asked t} : Needs cfg tree T U → HasInclude U n → cfg.templateFn = some f → f asked n = .ok t →
      Needs cfg tree T (tree t)

/-- The same globals, as far as `T` can tell. -/
inductive SameGlobals (T : Tree) : SState → SState → Prop
  | maps {m m'} : (∀ n, HasName T n → BMap.get m n = BMap.get m' n) →
      SameGlobals T (.scope (.borrowed (.map m))) (.scope (.borrowed (.map m')))
  | providers {f f' : ValueFn} : (∀ v path, HasVar T v → pathOf T.source v.path = .ok path → f path = f' path) →
      SameGlobals T (.valueFn f) (.valueFn f')

/-- The same functions and templates, as far as `T` can tell. -/
structure SameEngine (T : Tree) (e e' : Engine) : Prop where
  functions : ∀ n, HasCall T n → BMap.get e.functions n = BMap.get e'.functions n
  templates : ∀ n, HasInclude T n → e.getTemplate n = e'.getTemplate n

end Upon.Spec
