import Verif.Model.Lexer
import Verif.Spec.Names
import Verif.Spec.Search
/-
Vocabulary for the lexer properties (C03-C06, C08, C37, C39).
-/
namespace Upon.Spec

/-- The delimiter read at byte `i` of `src` is the one of kind `k`, up to byte `j`. -/
def DelimAt (syn : Syn) (src : Str) (k : Kind) (i j : Nat) : Prop := Chosen syn src i k i j

/-- Closing delimiters. -/
def isEnd : Kind → Bool
  | .endExpr | .endExprTrim | .endBlock | .endBlockTrim | .endComment | .endCommentTrim => true
  | _ => false

/-- Delimiters that ask for whitespace to be trimmed. -/
def isTrim : Kind → Bool
  | .beginExprTrim | .endExprTrim | .beginBlockTrim | .endBlockTrim | .beginCommentTrim
  | .endCommentTrim => true
  | _ => false

/-- No closing delimiter ends in whitespace. -/
def NoWhiteEnd (syn : Syn) : Prop :=
  ∀ p ∈ syn, isEnd p.1 = true → ∀ d c, p.2 = d ++ [c] → isWhite c = false

/-- Nowhere in `src` is a closing delimiter that ends in whitespace followed by whitespace (and some of
it) up to a trimming opening delimiter. -/
def Tidy (syn : Syn) (src : Str) : Prop :=
  ∀ p ∈ syn, isEnd p.1 = true → ∀ q ∈ syn, isEnd q.1 = false → isTrim q.1 = true →
    ∀ before white behind, src = before ++ p.2 ++ white ++ q.2 ++ behind → white ≠ [] →
      (∀ c ∈ white, isWhite c = true) → ∀ d c, p.2 = d ++ [c] → isWhite c = false

/-- `u` is `t` without its maximal leading (`l`) and trailing (`r`) run of whitespace; `a` and `b`
are what is removed. -/
structure Trimmed (l r : Bool) (t a u b : Str) : Prop where
  split : t = a ++ u ++ b
  whiteA : ∀ c ∈ a, isWhite c = true
  whiteB : ∀ c ∈ b, isWhite c = true
  keepA : l = false → a = []
  keepB : r = false → b = []
  maxA : l = true → ∀ c v, u = c :: v → isWhite c = false
  maxB : r = true → ∀ v c, u = v ++ [c] → isWhite c = false
  /-- if nothing remains, all of it counts as trimmed at the end -/
  whole : r = true → u = [] → a = []

/-- Characters that mean something by themselves inside a tag, and so never start a name. -/
def Punct (c : Char) : Prop :=
  c ∈ ['.', '|', ',', ':', '+', '-', '?', '"', ' ', '\t'] ∨ isDigit c = true

/-- The text of a name or keyword. -/
def Word (env : Env) (s : Str) : Prop :=
  ∃ c r, s = c :: r ∧ ¬ Punct c ∧ isIdentStart env c = true ∧ ∀ x ∈ r, isIdentChar env x = true

/-- The shape of the text of a token inside a tag. -/
def TokText (env : Env) : Token → Str → Prop
  | .dot, s => s = ['.']
  | .questionDot, s => s = ['?', '.']
  | .pipe, s => s = ['|']
  | .comma, s => s = [',']
  | .colon, s => s = [':']
  | .plus, s => s = ['+']
  | .minus, s => s = ['-']
  | .whitespace, s => s ≠ [] ∧ ∀ c ∈ s, c = ' ' ∨ c = '\t'
  | .keyword, s => s ∈ keywords ∧ Word env s
  | .ident, s => s ∉ keywords ∧ Word env s
  | .index, s => s ≠ [] ∧ ∀ c ∈ s, isDigit c = true
  | .number, s => ∃ c r, s = c :: r ∧ isDigit c = true ∧ ∀ x ∈ r, isNumberChar x = true
  | .string, s => ∃ body, s = '"' :: (body ++ ['"']) ∧ (∀ c ∈ body, c ≠ '\n' ∧ c ≠ '\r') ∧
      -- a quote inside the body follows a backslash, the last character is not a backslash
      (∀ x y, '"' :: body = x ++ '"' :: y → x ≠ [] → ∃ z, x = z ++ ['\\']) ∧
      (∀ x, body ≠ x ++ ['\\'])
  | _, _ => False

/-- Tokens extend as far as possible: the text `rest` after a token does not continue it. -/
def TokStop (env : Env) : Token → Str → Prop
  | .keyword, c :: _ | .ident, c :: _ => isIdentChar env c = false
  | .index, c :: _ => isDigit c = false
  | .number, c :: _ => isNumberChar c = false
  | .whitespace, c :: _ => c ≠ ' ' ∧ c ≠ '\t'
  | _, _ => True

/-- Digits are read as a list index in a path and as a number elsewhere. -/
def TokFits (path : Bool) : Token → Prop
  | .index => path = true
  | .number => path = false
  | _ => True

/-- Whether a path is being read after a token: a name starts one; a pipe, comma or colon ends it. -/
def nextPath (path : Bool) : Token → Bool
  | .ident => true
  | .pipe | .comma | .colon => false
  | _ => path

/-- The text from byte `i` on starts with the token `tk`, whose text is `t`. -/
def TokAt (env : Env) (src : Str) (path : Bool) (i : Nat) (tk : Token) (t : Str) : Prop :=
  ∃ rest, dropB src i = some (t ++ rest) ∧ TokText env tk t ∧ TokStop env tk rest ∧ TokFits path tk

/-- The token a delimiter stands for. -/
def tokenOf : Kind → Token
  | .beginExpr | .beginExprTrim => .beginExpr
  | .endExpr | .endExprTrim => .endExpr
  | .beginBlock | .beginBlockTrim => .beginBlock
  | .endBlock | .endBlockTrim => .endBlock
  | .beginComment | .beginCommentTrim => .beginComment
  | .endComment | .endCommentTrim => .endComment

/-- Where a reader of the template is. -/
inductive Mode where
  /-- in the text between tags; the flag says whether the tag before asked for trimming -/
  | text (trimmed : Bool)
  /-- inside an expression or block tag closed by the given token; the flag says whether a path
  is being read -/
  | tag (close : Token) (path : Bool)
  /-- inside a comment -/
  | comment
deriving DecidableEq

/-- What follows an opening delimiter. -/
def inside : Kind → Mode
  | .beginExpr | .beginExprTrim => .tag .endExpr false
  | .beginBlock | .beginBlockTrim => .tag .endBlock false
  | _ => .comment

/-- How a template text is laid out in tokens: the text from byte `i` on, read in the given mode, is
exactly the given tokens, blanks inside tags and trimmed whitespace. -/
inductive Layout (syn : Syn) (env : Env) (src : Str) : Mode → Nat → List (Token × Span) → Prop
  | done {l} : Layout syn env src (.text l) (blen src) []
  /-- Text up to the end of the template: no delimiter occurs any more. -/
  | textEnd {l i t a u} (free : ∀ k x y, i ≤ x → ¬ Occurs syn src k x y)
      (text : slice src i (blen src) = some t) (ne : t ≠ []) (trim : Trimmed l false t a u []) :
      Layout syn env src (.text l) i [(.raw, ⟨i + blen a, i + blen a + blen u⟩)]
  /-- Text up to the next delimiter, which must be an opening one. -/
  | textTag {l i k j n t a u b rest} (next : Chosen syn src i k j n) (opening : isEnd k = false)
      (text : slice src i j = some t) (ne : t ≠ []) (trim : Trimmed l (isTrim k) t a u b)
      (tail : Layout syn env src (inside k) n rest) :
      Layout syn env src (.text l) i
        ((.raw, ⟨i + blen a, i + blen a + blen u⟩) :: (tokenOf k, ⟨j, n⟩) :: rest)
  /-- An opening delimiter with no text before it. -/
  | tag {l i k n rest} (next : DelimAt syn src k i n) (opening : isEnd k = false)
      (tail : Layout syn env src (inside k) n rest) :
      Layout syn env src (.text l) i ((tokenOf k, ⟨i, n⟩) :: rest)
  /-- Blanks inside a tag are skipped. -/
  | blank {c p i t rest} (free : ∀ k j, ¬ Occurs syn src k i j)
      (text : TokAt env src p i .whitespace t)
      (tail : Layout syn env src (.tag c p) (i + blen t) rest) : Layout syn env src (.tag c p) i rest
  /-- A token inside a tag. -/
  | token {c p i tk t rest} (free : ∀ k j, ¬ Occurs syn src k i j)
      (text : TokAt env src p i tk t) (real : tk ≠ .whitespace)
      (tail : Layout syn env src (.tag c (nextPath p tk)) (i + blen t) rest) :
      Layout syn env src (.tag c p) i ((tk, ⟨i, i + blen t⟩) :: rest)
  /-- The closing delimiter of a tag. -/
  | close {c p i k n rest} (next : DelimAt syn src k i n) (same : tokenOf k = c)
      (tail : Layout syn env src (.text (isTrim k)) n rest) :
      Layout syn env src (.tag c p) i ((c, ⟨i, n⟩) :: rest)
  /-- A comment extends to the next delimiter, which must be the closing one. -/
  | comment {i k j n rest} (next : Chosen syn src i k j n) (closing : tokenOf k = .endComment)
      (ne : i < j) (tail : Layout syn env src (.text (isTrim k)) n rest) :
      Layout syn env src .comment i ((.raw, ⟨i, j⟩) :: (.endComment, ⟨j, n⟩) :: rest)
  | emptyComment {i k n rest} (next : DelimAt syn src k i n) (closing : tokenOf k = .endComment)
      (tail : Layout syn env src (.text (isTrim k)) n rest) :
      Layout syn env src .comment i ((.endComment, ⟨i, n⟩) :: rest)

/-- The lexer, called repeatedly, returns these tokens. -/
inductive Lexes (cx : LexCx) : Lexer → List (Token × Span) → Lexer → Prop
  | none {lx} : Lexes cx lx [] lx
  | some {lx t lx' ts lx''} : lx.nextToken cx = .ok (some t, lx') → Lexes cx lx' ts lx'' →
      Lexes cx lx (t :: ts) lx''

/-- The tokens of a template that the lexer read to its end without an error. -/
def Tokens (cx : LexCx) (ts : List (Token × Span)) : Prop :=
  ∃ lx, Lexes cx Lexer.new ts lx ∧ ∃ lx', lx.nextToken cx = .ok (none, lx')

/-- The byte ranges, in order, cover the text from byte `i` to its end; what is left between them is
whitespace only. -/
inductive Cover (src : Str) : Nat → List Span → Prop
  | nil {i t} : slice src i (blen src) = some t → (∀ c ∈ t, isWhite c = true) → Cover src i []
  | cons {i gap t sp rest} : slice src i sp.m = some gap → (∀ c ∈ gap, isWhite c = true) →
      slice src sp.m sp.n = some t → Cover src sp.n rest → Cover src i (sp :: rest)

/-- Tokens that close a tag. -/
def isEndTag : Token → Bool
  | .endExpr | .endBlock | .endComment => true
  | _ => false

/-- Tokens that open a tag. -/
def isBeginTag : Token → Bool
  | .beginExpr | .beginBlock | .beginComment => true
  | _ => false

/-- Every opening tag token is followed by a closing one. -/
def Closed (ts : List (Token × Span)) : Prop :=
  ∀ xs t ys, ts = xs ++ t :: ys → isBeginTag t.1 = true → ∃ y ∈ ys, isEndTag y.1 = true

/-- The lexer runs in an engine whose syntax came out of the builder `b`. -/
structure Setup (b : SyntaxBuilder) (cx : LexCx) : Prop where
  built : Built b
  searcher : AC.new b.build = some cx.searcher

/-- A concrete instance of the external functions, for examples only: correct on ASCII text without
control characters, except that no text is a floating point number. -/
def asciiEnv : Env where
  xidStart c := c.isAlpha
  xidContinue c := c.isAlphanum || c == '_'
  width := List.length
  parseF64 _ := none
  showF64 _ := []
  toF32 _ := 0
  ofF32 _ := 0
  usizeBits := 64

end Upon.Spec
