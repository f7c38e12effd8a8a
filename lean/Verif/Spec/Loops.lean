import Verif.Spec.Plain
import Verif.Spec.Semantics
/-
Vocabulary for C68: loops over parts of a list or map. Trees are without byte ranges (Spec/Plain).
-/
namespace Upon.Plain
open Spec

/-- The variable does not start with `loop`. -/
def Base.AsksNoLoop : Base → Prop
  | .var _ first _ => first.access ≠ .key "loop".toList
  | .lit _ => True

/-- No variable of the expression starts with `loop`. -/
def Expr.AsksNoLoop : Expr → Prop
  | .base b => b.AsksNoLoop
  | .call _ args recv => (∀ b ∈ args.getD [], b.AsksNoLoop) ∧ recv.AsksNoLoop

mutual
/-- The statement does not ask for `loop` (a loop inside has a `loop` of its own), and the templates that it includes with all variables are in `S`. -/
def Stmt.AsksNoLoop (S : Str → Prop) : Stmt → Prop
  | .char _ => True
  | .expr e => e.AsksNoLoop
  | .include_ n none => S n
  | .include_ _ (some e) => e.AsksNoLoop
  | .ifElse _ c t none => c.AsksNoLoop ∧ AllAskNoLoop S t
  | .ifElse _ c t (some e) => c.AsksNoLoop ∧ AllAskNoLoop S t ∧ AllAskNoLoop S e
  | .forLoop _ e _ => e.AsksNoLoop
  | .with_ e _ b => e.AsksNoLoop ∧ AllAskNoLoop S b
/-- The same for each of the statements. -/
def AllAskNoLoop (S : Str → Prop) : List Stmt → Prop
  | [] => True
  | s :: ss => s.AsksNoLoop S ∧ AllAskNoLoop S ss
end

/-- The last value is a list that has the items of the first and then those of the second, or a map that has the entries of the first and then those of the
second (so that the keys of the first are the lower ones). -/
inductive Joined : Vars → Value → Value → Value → Prop
  | list {n a b} : Joined (.item n) (.list a) (.list b) (.list (a ++ b))
  | map {k v a b} : Joined (.keyValue k v) (.map a) (.map b) (.map (a ++ b))

end Upon.Plain
