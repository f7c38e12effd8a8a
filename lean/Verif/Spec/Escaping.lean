import Verif.Spec.Mentions
/-
Vocabulary for C47: what can reach the output.
-/
namespace Upon.Spec

mutual
/-- The pieces of text outside tags in a statement, in all its branches and bodies. -/
def stmtRaws : Stmt → List Span
  | .raw sp => [sp]
  | .inlineExpr _ _ => []
  | .include_ _ _ => []
  | .ifElse _ _ t none => stmtsRaws t
  | .ifElse _ _ t (some f) => stmtsRaws t ++ stmtsRaws f
  | .forLoop _ _ b => stmtsRaws b
  | .with_ _ _ b => stmtsRaws b
def stmtsRaws : List Stmt → List Span
  | [] => []
  | s :: ss => stmtRaws s ++ stmtsRaws ss
end

mutual
/-- The expressions a statement shows (`{{ e }}`), in all its branches and bodies. -/
def stmtShown : Stmt → List Expr
  | .raw _ => []
  | .inlineExpr e _ => [e]
  | .include_ _ _ => []
  | .ifElse _ _ t none => stmtsShown t
  | .ifElse _ _ t (some f) => stmtsShown t ++ stmtsShown f
  | .forLoop _ _ b => stmtsShown b
  | .with_ _ _ b => stmtsShown b
def stmtsShown : List Stmt → List Expr
  | [] => []
  | s :: ss => stmtShown s ++ stmtsShown ss
end

/-- The template has the piece of text outside tags. -/
def HasText (T : Tree) (s : Str) : Prop := ∃ sp ∈ stmtsRaws T.body, sp.of T.source = some s

/-- The template shows an expression that ends in a call `| n` without arguments. -/
def HasFormatter (T : Tree) (n : Str) : Prop := ∃ i recv sp, .call i none recv sp ∈ stmtsShown T.body ∧ i.span.of T.source = some n

/-- Every text that the formatter writes satisfies `P`, whether or not its writes succeed. -/
inductive OnlyWrites (P : Str → Prop) : FmtProg → Prop
  | done (r) : OnlyWrites P (.done r)
  | write {s k} : P s → (∀ ok, OnlyWrites P (k ok)) → OnlyWrites P (.write s k)

/-- The text of the templates needed, and all that the default formatter writes, and all that the other formatters used in these
templates write, satisfies `P`. -/
structure Airtight (env : Env) (tree : Template → Tree) (T : Tree) (r : Renderer) (P : Str → Prop) : Prop where
  text : ∀ U, Needs (r.cfg env stringSink) tree T U → ∀ s, HasText U s → P s
  shown : ∀ v, OnlyWrites P (r.engine.defaultFormatter v)
  named : ∀ U, Needs (r.cfg env stringSink) tree T U → ∀ n f, HasFormatter U n →
    BMap.get r.engine.functions n = some (.formatter f) → ∀ v, OnlyWrites P (f v)

end Upon.Spec
