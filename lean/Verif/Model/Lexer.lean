import Verif.Model.Error
import Verif.Model.AhoCorasick
/-
The lexer (src/compile/lex.rs).
-/
namespace Upon

/-- Models `enum Token`, src/compile/lex.rs:75-118. -/
inductive Token where
  | raw | beginExpr | endExpr | beginBlock | endBlock | beginComment | endComment
  | dot | questionDot | pipe | comma | colon | plus | minus | whitespace
  | keyword | ident | index | number | string
deriving DecidableEq, Repr, Inhabited

/-- Models `Token::human`, src/compile/lex.rs:458-481. -/
def Token.human : Token → String
  | .raw => "raw template"
  | .beginExpr => "begin expression"
  | .endExpr => "end expression"
  | .beginBlock => "begin block"
  | .endBlock => "end block"
  | .beginComment => "begin comment"
  | .endComment => "end comment"
  | .dot => "member access operator"
  | .questionDot => "optional member access operator"
  | .pipe => "pipe"
  | .comma => "comma"
  | .colon => "colon"
  | .minus => "minus"
  | .plus => "plus"
  | .whitespace => "whitespace"
  | .keyword => "keyword"
  | .ident => "identifier"
  | .index => "index"
  | .string => "string"
  | .number => "number"

/-- Models `Token::pair`, src/compile/lex.rs:484-494; `none` is `panic!("not a tag")`. -/
def Token.pair : Token → Option Token
  | .beginExpr => some .endExpr
  | .endExpr => some .beginExpr
  | .beginBlock => some .endBlock
  | .endBlock => some .beginBlock
  | .beginComment => some .endComment
  | .endComment => some .beginComment
  | _ => none

/-- Models `Token::is_begin_tag`, src/compile/lex.rs:496-501. -/
def Token.isBeginTag : Token → Bool
  | .beginExpr | .beginBlock | .beginComment => true
  | _ => false

/-- Models `Token::from_kind`, src/compile/lex.rs:511-526. -/
def Token.fromKind : Kind → Token × Bool
  | .beginExpr => (.beginExpr, false)
  | .endExpr => (.endExpr, false)
  | .beginExprTrim => (.beginExpr, true)
  | .endExprTrim => (.endExpr, true)
  | .beginBlock => (.beginBlock, false)
  | .endBlock => (.endBlock, false)
  | .beginBlockTrim => (.beginBlock, true)
  | .endBlockTrim => (.endBlock, true)
  | .beginComment => (.beginComment, false)
  | .endComment => (.endComment, false)
  | .beginCommentTrim => (.beginComment, true)
  | .endCommentTrim => (.endComment, true)

/-- Models `enum State`, src/compile/lex.rs:39-66. -/
inductive LexState where
  | template
  | block (begin_ : Span) (end_ : Token)
  | blockPath (begin_ : Span) (end_ : Token)
  | comment (begin_ : Span) (end_ : Token)
deriving DecidableEq, Repr

/-- Models `enum BlockState`, src/compile/lex.rs:70-73. -/
inductive BlockState where
  | unknown
  | path
deriving DecidableEq, Repr

/-- The parts of the engine the lexer uses: the searcher (src/lib.rs:259), and the external
functions. -/
structure LexCx where
  env : Env
  searcher : AC.Auto
  source : Str

/-- Models `struct Lexer`, src/compile/lex.rs:13-31 (the engine and the source are in `LexCx`). -/
structure Lexer where
  cursor : Nat
  state : LexState
  leftTrim : Bool
  next : Option (Token × Span)
deriving DecidableEq, Repr

/-- Models `Lexer::new`, src/compile/lex.rs:122-131. -/
def Lexer.new : Lexer := { cursor := 0, state := .template, leftTrim := false, next := none }

/-- Models `is_whitespace`, src/compile/lex.rs:529-531. -/
def isBlank (c : Char) : Bool := c == '\t' || c == ' '

/-- Models `is_ident_start` (feature `unicode`), src/compile/lex.rs:534-536. -/
def isIdentStart (env : Env) (c : Char) : Bool := c == '_' || env.xidStart c

/-- Models `is_ident` (feature `unicode`), src/compile/lex.rs:539-541. -/
def isIdentChar (env : Env) (c : Char) : Bool := env.xidContinue c

/-- `char::is_ascii_digit`; models `is_index`, src/compile/lex.rs:553-555. -/
def isDigit (c : Char) : Bool := '0' ≤ c && c ≤ '9'

/-- Models `is_number`, src/compile/lex.rs:557-559. -/
def isNumberChar (c : Char) : Bool :=
  isDigit c || ('A' ≤ c && c ≤ 'Z') || ('a' ≤ c && c ≤ 'z') ||
  c == '_' || c == '-' || c == '+' || c == '.'

/-- Models `Keyword::all`, src/compile/parse.rs:861-866. -/
def keywords : List Str :=
  ["if".toList, "not".toList, "else".toList, "endif".toList, "for".toList, "in".toList,
    "endfor".toList, "with".toList, "as".toList, "endwith".toList, "include".toList,
    "true".toList, "false".toList]

namespace Lexer
variable (cx : LexCx)

/-- Models `find_at`, src/compile/search/mod.rs:17, on the template source. -/
def findAt (i : Nat) : Res (Option (Kind × Nat × Nat)) :=
  .ofOption (AC.searcherFindAt cx.searcher (utf8 cx.source) i)

/-- Models `starts_with`, src/compile/search/mod.rs:27, on the template source. -/
def startsWith (i : Nat) : Res (Option (Kind × Nat)) :=
  .ofOption (AC.searcherStartsWith cx.searcher (utf8 cx.source) i)

/-- Models `err_unclosed`, src/compile/lex.rs:438-441. -/
def errUnclosed {α : Type} (begin_ : Span) (end_ : Token) : Res α :=
  match end_.pair with
  | none => .crash
  | some t => errSyntax cx.env s!"unclosed {t.human}" cx.source begin_

/-- Models `err_unexpected_token`, src/compile/lex.rs:443-446. -/
def errUnexpectedToken {α : Type} (tk : Token) (m n : Nat) : Res α :=
  errSyntax cx.env s!"unexpected {tk.human}" cx.source ⟨m, n⟩

/-- Models `err_unexpected_character`, src/compile/lex.rs:448-450. -/
def errUnexpectedCharacter {α : Type} (m n : Nat) : Res α :=
  errSyntax cx.env "unexpected character" cx.source ⟨m, n⟩

/-- Models `err_undelimited_string`, src/compile/lex.rs:452-454. -/
def errUndelimitedString {α : Type} (m n : Nat) : Res α :=
  errSyntax cx.env "undelimited string" cx.source ⟨m, n⟩

/-- Models the closure `trim_raw_token`, src/compile/lex.rs:174-184: the span of the raw token
`i..j` after trimming, and the lexer with `left_trim` consumed. -/
def trimRawToken (lx : Lexer) (i j : Nat) (rightTrim : Bool) :
    Res (Option (Token × Span) × Lexer) := do
  let j ← if rightTrim then do
      let s ← Res.ofOption (slice cx.source 0 j)
      pure (blen (trimEnd s))
    else pure j
  if lx.leftTrim then do
    let s ← Res.ofOption (slice cx.source i j)
    let i := i + (blen s - blen (trimStart s))
    pure (some (.raw, ⟨i, j⟩), { lx with leftTrim := false })
  else
    pure (some (.raw, ⟨i, j⟩), lx)

/-- Models `lex_template`, src/compile/lex.rs:164-224. -/
def lexTemplate (lx : Lexer) (i : Nat) : Res (Option (Token × Span) × Lexer) := do
  match ← findAt cx i with
  | some (kind, j, k) =>
    let (tk, trim) := Token.fromKind kind
    if !tk.isBeginTag then errUnexpectedToken cx tk j k
    else
      let begin_ : Span := ⟨j, k⟩
      let end_ ← Res.ofOption tk.pair
      let lx := { lx with
        cursor := k
        state := if tk = .beginComment then .comment begin_ end_ else .block begin_ end_ }
      if i = j then pure (some (tk, begin_), lx)
      else trimRawToken cx { lx with next := some (tk, begin_) } i j trim
  | none =>
    let j := blen cx.source
    trimRawToken cx { lx with cursor := j } i j false

/-- Models `lex_while`, src/compile/lex.rs:422-436, over the characters that remain and the offset
of the first of them: the offset of the first character that does not satisfy the predicate. -/
def lexWhile (pred : Char → Bool) : Nat → Str → Nat
  | j, [] => j
  | j, c :: s => if pred c then lexWhile pred (j + c.utf8Size) s else j

/-- Models `lex_question_dot`, src/compile/lex.rs:355-364. `rest` is the text after the `?` at
offset `i`. -/
def lexQuestionDot (i : Nat) (rest : Str) : Res (Token × Nat) :=
  match rest with
  | '.' :: _ => pure (.questionDot, i + 2)
  | c :: _ => errUnexpectedCharacter cx i (i + 1 + c.utf8Size)
  | [] => errUnexpectedCharacter cx i (blen cx.source)

/-- The loop of `lex_string`, src/compile/lex.rs:370-386: `curr` is the previous character, `j` the
offset of the first character of `rest`. -/
def lexString (i : Nat) (curr : Char) : Nat → Str → Res (Token × Nat)
  | _, [] => errUndelimitedString cx i (blen cx.source)
  | j, c :: rest =>
    if c = '\r' ∨ c = '\n' then errUndelimitedString cx i j
    else if c = '"' ∧ curr ≠ '\\' then pure (.string, j + 1)
    else lexString i c (j + c.utf8Size) rest

/-- Models `lex_ident_or_keyword`, src/compile/lex.rs:410-420. -/
def lexIdentOrKeyword (i j : Nat) (rest : Str) : Res (Token × Nat) := do
  let j := lexWhile (isIdentChar cx.env) j rest
  let s ← Res.ofOption (slice cx.source i j)
  pure (if s ∈ keywords then .keyword else .ident, j)

/-- The `None` arm of `lex_block`, src/compile/lex.rs:254-288: the token starting with the character
`c` at offset `i`, followed by `rest`. -/
def lexChar (bs : BlockState) (i : Nat) (c : Char) (rest : Str) : Res (Token × Nat) :=
  if c = '.' then pure (.dot, i + 1)
  else if c = '|' then pure (.pipe, i + 1)
  else if c = ',' then pure (.comma, i + 1)
  else if c = ':' then pure (.colon, i + 1)
  else if c = '+' then pure (.plus, i + 1)
  else if c = '-' then pure (.minus, i + 1)
  else if c = '?' then lexQuestionDot cx i rest
  else if c = '"' then lexString cx i '"' (i + 1) rest
  else if isDigit c then
    match bs with
    | .path => pure (.index, lexWhile isDigit (i + c.utf8Size) rest)
    | .unknown => pure (.number, lexWhile isNumberChar (i + c.utf8Size) rest)
  else if isBlank c then pure (.whitespace, lexWhile isBlank (i + c.utf8Size) rest)
  else if isIdentStart cx.env c then lexIdentOrKeyword cx i (i + c.utf8Size) rest
  else errUnexpectedCharacter cx i (i + c.utf8Size)

/-- Models `lex_block`, src/compile/lex.rs:226-305. -/
def lexBlock (lx : Lexer) (bs : BlockState) (begin_ : Span) (end_ : Token) (i : Nat) :
    Res (Option (Token × Span) × Lexer) := do
  let ((tk, j), lx) ← (do
    match ← startsWith cx i with
    | some (kind, j) =>
      let (tk, trim) := Token.fromKind kind
      if tk.isBeginTag then errUnclosed cx begin_ end_
      else if tk ≠ end_ then errUnexpectedToken cx tk i j
      else pure ((tk, j), { lx with state := .template, leftTrim := trim })
    | none =>
      match ← Res.ofOption (dropB cx.source i) with
      | [] => Res.crash
      | c :: rest => do
        let r ← lexChar cx bs i c rest
        pure (r, lx) : Res ((Token × Nat) × Lexer))
  let lx :=
    match bs, tk with
    | .unknown, .ident => { lx with state := .blockPath begin_ end_ }
    | .path, .pipe | .path, .comma | .path, .colon => { lx with state := .block begin_ end_ }
    | _, _ => lx
  pure (some (tk, ⟨i, j⟩), { lx with cursor := j })

/-- Models `lex_comment`, src/compile/lex.rs:307-353. -/
def lexComment (lx : Lexer) (begin_ : Span) (end_ : Token) (i : Nat) :
    Res (Option (Token × Span) × Lexer) := do
  match ← findAt cx i with
  | some (kind, j, k) =>
    let (tk, trim) := Token.fromKind kind
    if tk.isBeginTag then errUnclosed cx begin_ end_
    else if tk ≠ end_ then errUnexpectedToken cx tk j k
    else
      let lx := { lx with cursor := k, state := .template, leftTrim := trim }
      if i = j then pure (some (tk, ⟨j, k⟩), lx)
      else pure (some (.raw, ⟨i, j⟩), { lx with next := some (tk, ⟨j, k⟩) })
  | none =>
    let j := blen cx.source
    pure (some (.raw, ⟨i, j⟩), { lx with cursor := j })

/-- Models `Lexer::lex`, src/compile/lex.rs:145-162. -/
def lex (lx : Lexer) : Res (Option (Token × Span) × Lexer) :=
  match lx.next with
  | some t => pure (some t, { lx with next := none })
  | none => do
    let i := lx.cursor
    let rest ← Res.ofOption (dropB cx.source i)
    if rest.isEmpty then pure (none, lx)
    else
      match lx.state with
      | .template => lexTemplate cx lx i
      | .block b e => lexBlock cx lx .unknown b e i
      | .blockPath b e => lexBlock cx lx .path b e i
      | .comment b e => lexComment cx lx b e i

/-- The loop of `Lexer::next`, src/compile/lex.rs:134-142, with fuel. -/
def nextLoop : Nat → Lexer → Res (Option (Token × Span) × Lexer)
  | 0, _ => .crash
  | fuel + 1, lx => do
    match ← lex cx lx with
    | (some (tk, sp), lx) =>
      if tk = .whitespace then nextLoop fuel lx else pure (some (tk, sp), lx)
    | (none, lx) => pure (none, lx)

/-- Models `Lexer::next`, src/compile/lex.rs:134-142. The loop discards whitespace tokens, each of
which consumes source text, so the length of the source is enough fuel. -/
def nextToken (lx : Lexer) : Res (Option (Token × Span) × Lexer) :=
  nextLoop cx (blen cx.source + 1) lx

end Lexer
end Upon
