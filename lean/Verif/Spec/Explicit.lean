import Verif.Spec.Plain
import Verif.Spec.Semantics
/-
Vocabulary for C77: tags that name the formatter they use. Trees are without byte ranges (Spec/Plain).
-/
namespace Upon.Plain
open Spec

/-- The function of this name is a filter. -/
def NamesFilter (functions : BMap EngFn) (n : Str) : Prop := ∃ f, BMap.get functions n = some (.filter f)

/-- `{{ e }}` and the tag that names the formatter: `{{ e | f }}`, unless the last name in `{{ e }}` is already that of a formatter, or of nothing. -/
inductive Named (functions : BMap EngFn) (f : Str) : Expr → Expr → Prop
  /-- `{{ x }}` -/
  | base {b} : Named functions f (.base b) (.call f none (.base b))
  /-- `{{ … | g: 1 }}` -/
  | args {g as recv} : Named functions f (.call g (some as) recv) (.call f none (.call g (some as) recv))
  /-- `{{ … | g }}` with a filter -/
  | filter {g recv} : NamesFilter functions g → Named functions f (.call g none recv) (.call f none (.call g none recv))
  /-- `{{ … | g }}` with a formatter -/
  | formatter {g recv} : ¬ NamesFilter functions g → Named functions f (.call g none recv) (.call g none recv)

/-- The same template, but every tag names its formatter. -/
inductive Explicit (functions : BMap EngFn) (f : Str) : List Stmt → List Stmt → Prop
  | nil : Explicit functions f [] []
  | char {c ss ss'} : Explicit functions f ss ss' → Explicit functions f (.char c :: ss) (.char c :: ss')
  | expr {e e' ss ss'} : Named functions f e e' → Explicit functions f ss ss' → Explicit functions f (.expr e :: ss) (.expr e' :: ss')
  | include_ {n e ss ss'} : Explicit functions f ss ss' → Explicit functions f (.include_ n e :: ss) (.include_ n e :: ss')
  | ifThen {neg c a a' ss ss'} : Explicit functions f a a' → Explicit functions f ss ss' →
      Explicit functions f (.ifElse neg c a none :: ss) (.ifElse neg c a' none :: ss')
  | ifElse {neg c a a' b b' ss ss'} : Explicit functions f a a' → Explicit functions f b b' → Explicit functions f ss ss' →
      Explicit functions f (.ifElse neg c a (some b) :: ss) (.ifElse neg c a' (some b') :: ss')
  | for_ {vs e b b' ss ss'} : Explicit functions f b b' → Explicit functions f ss ss' → Explicit functions f (.forLoop vs e b :: ss) (.forLoop vs e b' :: ss')
  | with_ {e n b b' ss ss'} : Explicit functions f b b' → Explicit functions f ss ss' → Explicit functions f (.with_ e n b :: ss) (.with_ e n b' :: ss')

end Upon.Plain
