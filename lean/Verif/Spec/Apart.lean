import Verif.Spec.Blame
/-
Templates for which the documented meaning is the meaning (C16): no plain `include` inside `with` (`Tame`),
and no optional access to a loop variable (`Apart`).
-/
namespace Upon.Spec

/-- If the variable has an optional access its name is not one of the names `L`. -/
def VarApart (L : Str → Prop) (src : Str) (v : Var) : Prop :=
  (∃ m ∈ v.rest, m.op = .optional) → ∀ n, v.first.access.span.of src = some n → ¬ L n

def BaseApart (L : Str → Prop) (src : Str) : BaseExpr → Prop
  | .var v => VarApart L src v
  | .lit _ => True

def ExprApart (L : Str → Prop) (src : Str) : Expr → Prop
  | .base b => BaseApart L src b
  | .call _ args recv _ => (∀ a, args = some a → ∀ x ∈ a.values, BaseApart L src x) ∧ ExprApart L src recv

/-- The variables of a loop are among the names `L`. -/
def LoopNames (L : Str → Prop) (src : Str) : LoopVars → Prop
  | .item i => ∀ n, i.span.of src = some n → L n
  | .keyValue _ v _ => ∀ n, v.span.of src = some n → L n

mutual
def StmtApart (L : Str → Prop) (src : Str) : Stmt → Prop
  | .raw _ => True
  | .inlineExpr e _ => ExprApart L src e
  | .include_ _ none => True
  | .include_ _ (some e) => ExprApart L src e
  | .ifElse _ c t none => ExprApart L src c ∧ Apart L src t
  | .ifElse _ c t (some e) => ExprApart L src c ∧ Apart L src t ∧ Apart L src e
  | .forLoop vs e b => LoopNames L src vs ∧ ExprApart L src e ∧ Apart L src b
  | .with_ e _ b => ExprApart L src e ∧ Apart L src b
/-- Every name given to the items of a loop is in `L`; every variable with an optional access has a name
that is not in `L`. -/
def Apart (L : Str → Prop) (src : Str) : List Stmt → Prop
  | [] => True
  | s :: ss => StmtApart L src s ∧ Apart L src ss
end

end Upon.Spec
