import Verif.Model.Error
/-
Vocabulary for error locations (C36).
-/
namespace Upon.Spec

/-- The place `m` bytes into the source is on line `ln` (counted from 0) at byte `col` of that line,
and `line` is the text of the line. -/
def Place (src : Str) (m ln col : Nat) (line : Str) : Prop :=
  ∃ before after, src = before ++ (line ++ after) ∧ (∀ c r, before.reverse = c :: r → c = '\n') ∧
    (∀ c r, after = c :: r → c = '\n') ∧ '\n' ∉ line ∧ before.count '\n' = ln ∧
    blen before + col = m ∧ col ≤ blen line

/-- Printable ASCII. -/
def Printable (c : Char) : Prop := ' ' ≤ c ∧ c ≤ '~'

/-- The source consists of lines of printable ASCII. -/
def AsciiLines (src : Str) : Prop := ∀ c ∈ src, c = '\n' ∨ Printable c

/-- Printable ASCII characters are one column wide: true of `unicode_width`, and of counting characters. -/
def AsciiWidths (env : Env) : Prop := ∀ s, (∀ c ∈ s, Printable c) → env.width s = s.length

/-- The lines of the source; the last one may, but need not, end in a newline. -/
def LinesOf (src : Str) (lines : List Str) : Prop :=
  (∀ l ∈ lines, '\n' ∉ l) ∧
    (src = lines.flatMap (· ++ ['\n']) ∨ (src ++ ['\n'] = lines.flatMap (· ++ ['\n']) ∧ ∃ c r, src.reverse = c :: r ∧ c ≠ '\n'))

/-- The columns of these lines, as they are displayed, with one for each newline. -/
def columns (env : Env) (lines : List Str) : Nat := (lines.map fun l => env.width l + 1).sum

/-- `m` columns into the source is line `ln` (counted from 0), column `col` of that line, which reads `line`; or there are not that many
columns, then `ln` is the number of lines, and `col` and `line` are the end of the last line. -/
def Counted (env : Env) (lines : List Str) (m ln col : Nat) (line : Str) : Prop :=
  (∃ before after, lines = before ++ line :: after ∧ before.length = ln ∧ columns env before + col = m ∧ col ≤ env.width line) ∨
    (∃ before, lines = before ++ [line] ∧ columns env lines ≤ m ∧ ln = lines.length ∧ col = env.width line)

end Upon.Spec
