import Verif.Spec.Location
import Verif.Spec.Filters
/-
What the long form of an error message, `{e:#}`, looks like (C41).
-/
namespace Upon.Spec

/-- Lines joined by newlines. -/
def joined : List Str → Str
  | [] => []
  | [l] => l
  | l :: ls => l ++ '\n' :: joined ls

/-- The picture

    message

      --> name:3:5
       |
     3 | the quoted line
       |     ^^^^
       |
       = reason: why

for a place on line `ln` and column `col` (both from 0; they are shown counting from 1), with the quoted
line and what stands under it. The number of the line takes as many columns as the blanks in its place on the
other lines, so that the quoted line and what stands under it begin in the same column. -/
def Picture (message name reason : Str) (ln col : Nat) (line under text : Str) : Prop :=
  ∃ num colNum blanks, Numeral (ln + 1) num ∧ Numeral (col + 1) colNum ∧ blanks.length = num.length ∧ (∀ c ∈ blanks, c = ' ') ∧
    text = joined [
      message,
      [],
      ' ' :: blanks ++ "--> ".toList ++ name ++ ':' :: num ++ ':' :: colNum,
      ' ' :: blanks ++ " |".toList,
      ' ' :: num    ++ " | ".toList ++ line,
      ' ' :: blanks ++ " | ".toList ++ under,
      ' ' :: blanks ++ " |".toList,
      ' ' :: blanks ++ " = reason: ".toList ++ reason,
      []]

/-- `text` is a report that quotes the line of `src` in which byte `m` stands, with a caret under that place; and if
`t`, the offending text, is non-empty and in one line, there are carets exactly under it, filled up with
dashes to three marks. -/
def PointsAt (message name reason src : Str) (m : Nat) (t text : Str) : Prop :=
  ∃ ln pre post under, Place src m ln pre.length (pre ++ post) ∧
    Picture message name reason ln pre.length (pre ++ post) under text ∧
    (∃ more, under = List.replicate pre.length ' ' ++ '^' :: more) ∧
    (t ≠ [] → '\n' ∉ t → t <+: post ∧
      under = List.replicate pre.length ' ' ++ List.replicate t.length '^' ++ List.replicate (3 - t.length) '-')

end Upon.Spec
