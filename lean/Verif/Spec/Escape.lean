import Verif.Spec.Print
/-
Vocabulary for C84: writing down a text.
-/
namespace Upon.Spec

/-- A piece of a text: as it is, or in a tag with a string literal. -/
inductive Passage where
  | asIs (s : Str)
  | literal (s : Str)

/-- The text of the piece. -/
def Passage.str : Passage → Str
  | .asIs s => s
  | .literal s => s

/-- What a template says that contains the piece. -/
def Passage.items : Passage → List Item
  | .asIs s => s.map .char
  | .literal s => [.sign .beginExpr, .word .string (quoted s), .sign .endExpr]

/-- The piece is text as it is. -/
def Passage.IsText : Passage → Prop
  | .asIs _ => True
  | .literal _ => False

end Upon.Spec
