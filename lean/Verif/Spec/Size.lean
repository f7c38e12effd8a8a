import Verif.Spec.Data
import Verif.Spec.Semantics
/-
Vocabulary for C59: how deep the blocks of a template are nested.
-/
namespace Upon.Spec

mutual
/-- The number of `for` and `with` blocks that are open at the deepest place of a statement. -/
def nestingOne : Stmt → Nat
  | .raw _ => 0
  | .inlineExpr _ _ => 0
  | .include_ _ _ => 0
  | .ifElse _ _ t none => nesting t
  | .ifElse _ _ t (some e) => max (nesting t) (nesting e)
  | .forLoop _ _ b => nesting b + 1
  | .with_ _ _ b => nesting b + 1

/-- The same for a template. -/
def nesting : List Stmt → Nat
  | [] => 0
  | s :: ss => max (nestingOne s) (nesting ss)
end

end Upon.Spec
