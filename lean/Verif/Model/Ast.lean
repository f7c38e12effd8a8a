import Verif.Model.Value
/-
The syntax tree (src/types/ast.rs) and the compiled program (src/types/program.rs).
-/
namespace Upon

/-- Models `ast::Ident`, src/types/ast.rs:136-140. -/
structure Ident where
  span : Span
deriving DecidableEq, Repr, Inhabited

/-- Models `ast::Index`, src/types/ast.rs:129-134. -/
structure Index where
  value : Nat
  span : Span
deriving DecidableEq, Repr

/-- Models `ast::Access`, src/types/ast.rs:122-127. -/
inductive Access where
  | index (i : Index)
  | key (k : Ident)
deriving DecidableEq, Repr

/-- Models `Access::span`, src/types/ast.rs:196-203. -/
def Access.span : Access → Span
  | .index i => i.span
  | .key k => k.span

/-- Models `ast::AccessOp`, src/types/ast.rs:116-120. -/
inductive AccessOp where
  | direct
  | optional
deriving DecidableEq, Repr

/-- Models `ast::Member`, src/types/ast.rs:109-114. -/
structure Member where
  op : AccessOp
  access : Access
  span : Span
deriving DecidableEq, Repr

/-- Models `ast::Var`, src/types/ast.rs:104-107. The path is never empty: it is built from a
first member (src/compile/parse.rs:534-561), which the model makes explicit; `first`, `rest` and
`last` (ast.rs:183-193) are then total. -/
structure Var where
  first : Member
  rest : List Member
deriving DecidableEq, Repr

/-- The whole path. -/
def Var.path (v : Var) : List Member := v.first :: v.rest

/-- Models `Var::last`, src/types/ast.rs:187-189. -/
def Var.last (v : Var) : Member := (v.rest.getLast?).getD v.first

/-- Models `Var::span`, src/types/ast.rs:179-181. -/
def Var.span (v : Var) : Span := v.first.span.combine v.last.span

/-- Models `ast::Literal`, src/types/ast.rs:142-146. -/
structure Literal where
  value : Value
  span : Span
deriving Repr

/-- Models `ast::BaseExpr`, src/types/ast.rs:98-102. -/
inductive BaseExpr where
  | var (v : Var)
  | lit (l : Literal)
deriving Repr

/-- Models `BaseExpr::span`, src/types/ast.rs:169-176. -/
def BaseExpr.span : BaseExpr → Span
  | .var v => v.span
  | .lit l => l.span

/-- Models `ast::Args`, src/types/ast.rs:92-96. -/
structure Args where
  values : List BaseExpr
  span : Span
deriving Repr

/-- Models `ast::Expr` and `ast::Call`, src/types/ast.rs:78-90. -/
inductive Expr where
  | base (b : BaseExpr)
  | call (name : Ident) (args : Option Args) (receiver : Expr) (span : Span)
deriving Repr

/-- Models `Expr::span`, src/types/ast.rs:160-167. -/
def Expr.span : Expr → Span
  | .base b => b.span
  | .call _ _ _ sp => sp

/-- Models `ast::String`, src/types/ast.rs:37-41. -/
structure AstString where
  name : Str
  span : Span
deriving DecidableEq, Repr

/-- Models `ast::LoopVars` and `ast::KeyValue`, src/types/ast.rs:58-69. -/
inductive LoopVars where
  | item (i : Ident)
  | keyValue (key value : Ident) (span : Span)
deriving DecidableEq, Repr

/-- Models `ast::Stmt` with `InlineExpr`, `Include`, `IfElse`, `ForLoop`, `With`
(src/types/ast.rs:15-76); a `Scope` (ast.rs:10-13) is the list of its statements. -/
inductive Stmt where
  | raw (span : Span)
  | inlineExpr (expr : Expr) (span : Span)
  | include_ (name : AstString) (globals : Option Expr)
  | ifElse (not_ : Bool) (cond : Expr) (then_ : List Stmt) (else_ : Option (List Stmt))
  | forLoop (vars : LoopVars) (iterable : Expr) (body : List Stmt)
  | with_ (expr : Expr) (name : Ident) (body : List Stmt)
deriving Repr

/-- Models `enum Instr`, src/types/program.rs:18-64. -/
inductive Instr where
  | jump (j : Nat)
  | jumpIfTrue (j : Nat)
  | jumpIfFalse (j : Nat)
  | emit (span : Span)
  | emitRaw (span : Span)
  | emitWith (name : Ident) (span : Span)
  | loopStart (vars : LoopVars) (span : Span)
  | loopNext (j : Nat)
  | withStart (name : Ident)
  | withEnd
  | include_ (name : AstString)
  | includeWith (name : AstString)
  | exprStart (v : Var)
  | exprStartLit (v : Value)
  | apply (name : Ident) (span : Span) (args : Option Args)
deriving Repr

/-- Models `program::Template`, src/types/program.rs:12-16. -/
structure Template where
  source : Str
  instrs : List Instr
deriving Repr

end Upon
