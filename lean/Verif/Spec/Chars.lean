import Verif.Model.Lexer
/-
The classes of characters and the keywords that the lexer properties speak of, spelled out.
-/
namespace Upon.Spec

/-- The code points with the Unicode property `White_Space` (PropList.txt). -/
def whiteSpace : List Nat :=
  [0x9, 0xA, 0xB, 0xC, 0xD, 0x20, 0x85, 0xA0, 0x1680, 0x2000, 0x2001, 0x2002, 0x2003, 0x2004, 0x2005, 0x2006, 0x2007, 0x2008, 0x2009,
   0x200A, 0x2028, 0x2029, 0x202F, 0x205F, 0x3000]

/-- The ten digits. -/
def digitChars : Str := ['0', '1', '2', '3', '4', '5', '6', '7', '8', '9']

/-- The characters that may continue a number. -/
def numberChars : Str :=
  digitChars ++
  ['a', 'b', 'c', 'd', 'e', 'f', 'g', 'h', 'i', 'j', 'k', 'l', 'm', 'n', 'o', 'p', 'q', 'r', 's', 't', 'u', 'v', 'w', 'x', 'y', 'z',
   'A', 'B', 'C', 'D', 'E', 'F', 'G', 'H', 'I', 'J', 'K', 'L', 'M', 'N', 'O', 'P', 'Q', 'R', 'S', 'T', 'U', 'V', 'W', 'X', 'Y', 'Z',
   '_', '-', '+', '.']

/-- The reserved words of the template language (SYNTAX.md). -/
def reserved : List String :=
  ["true", "false", "if", "else", "not", "endif", "for", "in", "endfor", "with", "as", "endwith", "include"]

end Upon.Spec
