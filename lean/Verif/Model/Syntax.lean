import Verif.Model.Text
/-
The syntax configuration (src/types/syntax.rs).
-/
namespace Upon

/-- Models `enum Kind`, src/types/syntax.rs:23-37. -/
inductive Kind where
  | beginExpr | endExpr | beginExprTrim | endExprTrim
  | beginBlock | endBlock | beginBlockTrim | endBlockTrim
  | beginComment | endComment | beginCommentTrim | endCommentTrim
deriving DecidableEq, Repr, Inhabited

/-- Models `impl From<Kind> for usize`, src/types/syntax.rs:23-37,190-194. -/
def Kind.toUsize : Kind → Nat
  | .beginExpr => 0 | .endExpr => 1 | .beginExprTrim => 2 | .endExprTrim => 3
  | .beginBlock => 4 | .endBlock => 5 | .beginBlockTrim => 6 | .endBlockTrim => 7
  | .beginComment => 8 | .endComment => 9 | .beginCommentTrim => 10 | .endCommentTrim => 11

/-- Models `Kind::from_usize`, src/types/syntax.rs:170-188; `none` is `unreachable!()`. -/
def Kind.fromUsize : Nat → Option Kind
  | 0 => some .beginExpr | 1 => some .endExpr | 2 => some .beginExprTrim | 3 => some .endExprTrim
  | 4 => some .beginBlock | 5 => some .endBlock | 6 => some .beginBlockTrim
  | 7 => some .endBlockTrim | 8 => some .beginComment | 9 => some .endComment
  | 10 => some .beginCommentTrim | 11 => some .endCommentTrim
  | _ => none

/-- Models `struct Syntax`, src/types/syntax.rs:7-11: the patterns in the order they are given
to the searcher. -/
abbrev Syn := List (Kind × Str)

/-- Models `struct SyntaxBuilder`, src/types/syntax.rs:16-21. -/
structure SyntaxBuilder where
  expr : Option (Str × Str)
  block : Option (Str × Str)
  comment : Option (Str × Str)
deriving Repr

/-- Models `SyntaxBuilder::new`, src/types/syntax.rs:92-98. -/
def SyntaxBuilder.new : SyntaxBuilder := ⟨none, none, none⟩

/-- Models `SyntaxBuilder::expr`, src/types/syntax.rs:108-112; `none` is the failing assertion. -/
def SyntaxBuilder.setExpr (b : SyntaxBuilder) (begin_ end_ : Str) : Option SyntaxBuilder :=
  if begin_ ≠ [] ∧ end_ ≠ [] then some { b with expr := some (begin_, end_) } else none

/-- Models `SyntaxBuilder::block`, src/types/syntax.rs:122-126. -/
def SyntaxBuilder.setBlock (b : SyntaxBuilder) (begin_ end_ : Str) : Option SyntaxBuilder :=
  if begin_ ≠ [] ∧ end_ ≠ [] then some { b with block := some (begin_, end_) } else none

/-- Models `SyntaxBuilder::comment`, src/types/syntax.rs:136-140. -/
def SyntaxBuilder.setComment (b : SyntaxBuilder) (begin_ end_ : Str) : Option SyntaxBuilder :=
  if begin_ ≠ [] ∧ end_ ≠ [] then some { b with comment := some (begin_, end_) } else none

/-- Models `SyntaxBuilder::build`, src/types/syntax.rs:143-167. -/
def SyntaxBuilder.build (b : SyntaxBuilder) : Syn :=
  (match b.expr with
    | some (begin_, end_) =>
      [(.beginExpr, begin_), (.endExpr, end_), (.beginExprTrim, begin_ ++ ['-']),
        (.endExprTrim, '-' :: end_)]
    | none => []) ++
  (match b.block with
    | some (begin_, end_) =>
      [(.beginBlock, begin_), (.endBlock, end_), (.beginBlockTrim, begin_ ++ ['-']),
        (.endBlockTrim, '-' :: end_)]
    | none => []) ++
  (match b.comment with
    | some (begin_, end_) =>
      [(.beginComment, begin_), (.endComment, end_), (.beginCommentTrim, begin_ ++ ['-']),
        (.endCommentTrim, '-' :: end_)]
    | none => [])

/-- The builder of `impl Default for Syntax`, src/types/syntax.rs:47-69. -/
def defaultBuilder : SyntaxBuilder :=
  ⟨some (['{', '{'], ['}', '}']), some (['{', '%'], ['%', '}']), some (['{', '#'], ['#', '}'])⟩

/-- Models `Syntax::default`, src/types/syntax.rs:62-68. -/
def Syn.default : Syn := defaultBuilder.build

/-- A builder that only the public setters can have produced: the asserts of
src/types/syntax.rs:109,123,137 passed. -/
def SyntaxBuilder.Valid (b : SyntaxBuilder) : Prop :=
  (∀ p, b.expr = some p → p.1 ≠ [] ∧ p.2 ≠ []) ∧
  (∀ p, b.block = some p → p.1 ≠ [] ∧ p.2 ≠ []) ∧
  (∀ p, b.comment = some p → p.1 ≠ [] ∧ p.2 ≠ [])

end Upon
