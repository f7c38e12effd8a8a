import Verif.Spec.Ahead
/-
Vocabulary for C82: templates that can be rendered ahead whenever they can be rendered. Trees are without byte ranges (Spec/Plain).
-/
namespace Upon.Plain
open Spec

/-- A literal, or a variable with a path without `?.` -/
inductive PlainBase : Base → Prop
  | var {n p} : (∀ m ∈ p, m.op = .direct) → PlainBase (.var n ⟨.direct, .key n⟩ p)
  | lit {x} : PlainBase (.lit x)

/-- An expression without `?.` -/
inductive PlainExpr : Expr → Prop
  | base {b} : PlainBase b → PlainExpr (.base b)
  | call {n args e} : PlainExpr e → (∀ b ∈ args.getD [], PlainBase b) → PlainExpr (.call n args e)

/-- A template that includes nothing and does not use `?.` -/
inductive Alone : List Stmt → Prop
  | nil : Alone []
  | char {c ss} : Alone ss → Alone (.char c :: ss)
  | expr {e ss} : PlainExpr e → Alone ss → Alone (.expr e :: ss)
  | ifThen {neg c a ss} : PlainExpr c → Alone a → Alone ss → Alone (.ifElse neg c a none :: ss)
  | ifElse {neg c a b ss} : PlainExpr c → Alone a → Alone b → Alone ss → Alone (.ifElse neg c a (some b) :: ss)
  | for_ {vs e b ss} : PlainExpr e → Alone b → Alone ss → Alone (.forLoop vs e b :: ss)
  | with_ {e n b ss} : PlainExpr e → Alone b → Alone ss → Alone (.with_ e n b :: ss)

end Upon.Plain
