import Verif.Model.Ast
/-
The byte ranges in a syntax tree lie in the source text, on character boundaries.
-/
namespace Upon.Spec

/-- The byte range can be sliced out of the text. -/
def SpanIn (src : Str) (sp : Span) : Prop := ∃ t, sp.of src = some t

def MemberIn (src : Str) (m : Member) : Prop := SpanIn src m.span ∧ SpanIn src m.access.span

def VarIn (src : Str) (v : Var) : Prop := MemberIn src v.first ∧ ∀ m ∈ v.rest, MemberIn src m

def BaseIn (src : Str) : BaseExpr → Prop
  | .var v => VarIn src v
  | .lit l => SpanIn src l.span

def ExprIn (src : Str) : Expr → Prop
  | .base b => BaseIn src b
  | .call name args recv sp =>
    SpanIn src name.span ∧ (∀ a, args = some a → ∀ x ∈ a.values, BaseIn src x) ∧ ExprIn src recv ∧ SpanIn src sp

def VarsIn (src : Str) : LoopVars → Prop
  | .item i => SpanIn src i.span
  | .keyValue key value sp => SpanIn src key.span ∧ SpanIn src value.span ∧ SpanIn src sp

mutual
def StmtIn (src : Str) : Stmt → Prop
  | .raw sp => SpanIn src sp
  | .inlineExpr e sp => ExprIn src e ∧ SpanIn src sp
  | .include_ name none => SpanIn src name.span
  | .include_ name (some e) => SpanIn src name.span ∧ ExprIn src e
  | .ifElse _ cond thn none => ExprIn src cond ∧ StmtsIn src thn
  | .ifElse _ cond thn (some els) => ExprIn src cond ∧ StmtsIn src thn ∧ StmtsIn src els
  | .forLoop vars e body => VarsIn src vars ∧ ExprIn src e ∧ StmtsIn src body
  | .with_ e name body => ExprIn src e ∧ SpanIn src name.span ∧ StmtsIn src body

/-- All byte ranges in the statements lie in the text. -/
def StmtsIn (src : Str) : List Stmt → Prop
  | [] => True
  | s :: ss => StmtIn src s ∧ StmtsIn src ss
end

end Upon.Spec
