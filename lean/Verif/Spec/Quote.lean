import Verif.Spec.Grammar
/-
Vocabulary for C11 and C53: string literals.
-/
namespace Upon.Spec

/-- A way to write a character inside a string literal. -/
def escapeChar (c : Char) : Str :=
  if c = '\n' then ['\\', 'n']
  else if c = '\r' then ['\\', 'r']
  else if c = '\t' then ['\\', 't']
  else if c = '\\' then ['\\', '\\']
  else if c = '"' then ['\\', '"']
  else [c]

/-- A string literal for a text. -/
def quote (s : Str) : Str := '"' :: (s.flatMap escapeChar ++ ['"'])

/-- A string literal for a text that may end in a backslash: then the quote after it, which does not end the literal and stands
for nothing, is followed by the one that does. -/
def quoted (s : Str) : Str := if s.getLast? = some '\\' then quote s ++ ['"'] else quote s

end Upon.Spec
