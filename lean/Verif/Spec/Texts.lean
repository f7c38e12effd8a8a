import Verif.Spec.Plain
/-
Vocabulary for C76: other text between the tags. Trees are without byte ranges (Spec/Plain).
-/
namespace Upon.Spec

/-- A way to compare texts, in which every text is like itself, and texts are alike if they are made of parts that are alike. -/
structure Likeness (R : Str → Str → Prop) : Prop where
  same : ∀ s, R s s
  parts : ∀ {a a' b b'}, R a a' → R b b' → R (a ++ b) (a' ++ b')

/-- The same apart from white space. -/
def SameButBlanks (s s' : Str) : Prop := s.filter (fun c => !isWhite c) = s'.filter (fun c => !isWhite c)

/-! The same on what a template says -/

/-- What can be inside a tag: a name, keyword, number, string or punctuation mark. -/
def Inside : Item → Prop
  | .char _ => False
  | .sign t => t ≠ .beginExpr ∧ t ≠ .endExpr ∧ t ≠ .beginBlock ∧ t ≠ .endBlock
  | .word _ _ => True

/-- A tag: `{{ … }}` or `{% … %}`. -/
inductive IsTag : List Item → Prop
  | expr {is} : (∀ i ∈ is, Inside i) → IsTag (.sign .beginExpr :: (is ++ [.sign .endExpr]))
  | block {is} : (∀ i ∈ is, Inside i) → IsTag (.sign .beginBlock :: (is ++ [.sign .endBlock]))

/-- The same tags, with text that is alike before, between and after them. -/
inductive Rephrased (R : Str → Str → Prop) : List Item → List Item → Prop
  | text {s s'} : R s s' → Rephrased R (s.map .char) (s'.map .char)
  | tag {s s' tag ws ws'} : R s s' → IsTag tag → Rephrased R ws ws' → Rephrased R (s.map .char ++ (tag ++ ws)) (s'.map .char ++ (tag ++ ws'))

end Upon.Spec

namespace Upon.Plain

/-- The second tree has the tags of the first, with text that is alike before, between and after them. -/
inductive Retexted (R : Str → Str → Prop) : List Stmt → List Stmt → Prop
  | nil : Retexted R [] []
  | text {s s' ss ss'} : R s s' → Retexted R ss ss' → Retexted R (s.map .char ++ ss) (s'.map .char ++ ss')
  | expr {e ss ss'} : Retexted R ss ss' → Retexted R (.expr e :: ss) (.expr e :: ss')
  | include_ {n e ss ss'} : Retexted R ss ss' → Retexted R (.include_ n e :: ss) (.include_ n e :: ss')
  | ifThen {neg c a a' ss ss'} : Retexted R a a' → Retexted R ss ss' → Retexted R (.ifElse neg c a none :: ss) (.ifElse neg c a' none :: ss')
  | ifElse {neg c a a' b b' ss ss'} : Retexted R a a' → Retexted R b b' → Retexted R ss ss' →
      Retexted R (.ifElse neg c a (some b) :: ss) (.ifElse neg c a' (some b') :: ss')
  | for_ {vs e b b' ss ss'} : Retexted R b b' → Retexted R ss ss' → Retexted R (.forLoop vs e b :: ss) (.forLoop vs e b' :: ss')
  | with_ {e n b b' ss ss'} : Retexted R b b' → Retexted R ss ss' → Retexted R (.with_ e n b :: ss) (.with_ e n b' :: ss')

end Upon.Plain
