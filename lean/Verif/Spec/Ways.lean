import Verif.Model.Api
/-
C55: the ways to render a template, and how their outcomes compare.
-/
namespace Upon.Spec

/-- The error is the same, except that it may say that it happened in the template called `n` where the other does not name a template. -/
def NamedAs (n : Str) (e e' : Err) : Prop := e' = e ∨ (e.name = none ∧ e' = { e with name := some n })

/-- The same outcome, up to the name of the template in an error. -/
inductive SameBut {α : Type} (n : Str) : Res α → Res α → Prop
  | ok (a : α) : SameBut n (.ok a) (.ok a)
  | err {e e' : Err} : NamedAs n e e' → SameBut n (.err e) (.err e')
  | crash : SameBut n .crash .crash

end Upon.Spec
