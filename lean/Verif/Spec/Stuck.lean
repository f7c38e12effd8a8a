import Verif.Spec.Diagnosis
/-
Vocabulary for C52: texts that cannot be split into tokens.
-/
namespace Upon.Spec

/-- Part of a template text and its tokens: read from byte `i` in mode `m`, inside the tag opened by the delimiter at `b` if any, up to
byte `i'`, where the mode is `m'` and the open tag `b'`.  The cases are those of `Layout` (C06). -/
inductive Scans (syn : Syn) (env : Env) (src : Str) (m' : Mode) (b' : Option Span) (i' : Nat) : Mode → Option Span → Nat → List (Token × Span) → Prop
  | here : Scans syn env src m' b' i' m' b' i' []
  | textTag {l i k j n t a u b rest} (next : Chosen syn src i k j n) (opening : isEnd k = false)
      (text : slice src i j = some t) (ne : t ≠ []) (trim : Trimmed l (isTrim k) t a u b)
      (tail : Scans syn env src m' b' i' (inside k) (some ⟨j, n⟩) n rest) :
      Scans syn env src m' b' i' (.text l) none i ((.raw, ⟨i + blen a, i + blen a + blen u⟩) :: (tokenOf k, ⟨j, n⟩) :: rest)
  | tag {l i k n rest} (next : DelimAt syn src k i n) (opening : isEnd k = false)
      (tail : Scans syn env src m' b' i' (inside k) (some ⟨i, n⟩) n rest) :
      Scans syn env src m' b' i' (.text l) none i ((tokenOf k, ⟨i, n⟩) :: rest)
  | blank {c p b₀ i t rest} (free : ∀ k j, ¬ Occurs syn src k i j) (text : TokAt env src p i .whitespace t)
      (tail : Scans syn env src m' b' i' (.tag c p) b₀ (i + blen t) rest) : Scans syn env src m' b' i' (.tag c p) b₀ i rest
  | token {c p b₀ i tk t rest} (free : ∀ k j, ¬ Occurs syn src k i j) (text : TokAt env src p i tk t) (real : tk ≠ .whitespace)
      (tail : Scans syn env src m' b' i' (.tag c (nextPath p tk)) b₀ (i + blen t) rest) :
      Scans syn env src m' b' i' (.tag c p) b₀ i ((tk, ⟨i, i + blen t⟩) :: rest)
  | close {c p b₀ i k n rest} (next : DelimAt syn src k i n) (same : tokenOf k = c)
      (tail : Scans syn env src m' b' i' (.text (isTrim k)) none n rest) :
      Scans syn env src m' b' i' (.tag c p) b₀ i ((c, ⟨i, n⟩) :: rest)
  | comment {b₀ i k j n rest} (next : Chosen syn src i k j n) (closing : tokenOf k = .endComment)
      (ne : i < j) (tail : Scans syn env src m' b' i' (.text (isTrim k)) none n rest) :
      Scans syn env src m' b' i' .comment b₀ i ((.raw, ⟨i, j⟩) :: (.endComment, ⟨j, n⟩) :: rest)
  | emptyComment {b₀ i k n rest} (next : DelimAt syn src k i n) (closing : tokenOf k = .endComment)
      (tail : Scans syn env src m' b' i' (.text (isTrim k)) none n rest) :
      Scans syn env src m' b' i' .comment b₀ i ((.endComment, ⟨i, n⟩) :: rest)

/-- The opening delimiter of the tag that is closed by `c`. -/
def opener : Token → Token
  | .endExpr => .beginExpr
  | .endBlock => .beginBlock
  | _ => .beginComment

/-- What is wrong at byte `i`, read in mode `m` inside the tag `o` if any: the message, and the byte range it is about. -/
inductive Stuck (syn : Syn) (env : Env) (src : Str) (o : Option Span) (i : Nat) : Mode → String → Span → Prop
  /-- The next delimiter of the text is a closing one. -/
  | close {l k j n} (next : Chosen syn src i k j n) (closing : isEnd k = true) :
      Stuck syn env src o i (.text l) s!"unexpected {tokenName (tokenOf k)}" ⟨j, n⟩
  /-- A tag opens in a tag: the outer one is blamed. -/
  | nested {b c p k n} (outer : o = some b) (next : DelimAt syn src k i n) (opening : isEnd k = false) :
      Stuck syn env src o i (.tag c p) s!"unclosed {tokenName (opener c)}" b
  /-- The wrong delimiter closes a tag. -/
  | mismatch {c p k n} (next : DelimAt syn src k i n) (closing : isEnd k = true) (other : tokenOf k ≠ c) :
      Stuck syn env src o i (.tag c p) s!"unexpected {tokenName (tokenOf k)}" ⟨i, n⟩
  /-- No token starts with this character. -/
  | char {c p x rest} (free : ∀ k j, ¬ Occurs syn src k i j) (text : dropB src i = some (x :: rest))
      (mark : ¬ Punct x) (name : isIdentStart env x = false) :
      Stuck syn env src o i (.tag c p) "unexpected character" ⟨i, i + x.utf8Size⟩
  /-- A question mark without a dot. -/
  | question {c p x rest} (free : ∀ k j, ¬ Occurs syn src k i j) (text : dropB src i = some ('?' :: x :: rest)) (other : x ≠ '.') :
      Stuck syn env src o i (.tag c p) "unexpected character" ⟨i, i + 1 + x.utf8Size⟩
  | questionLast {c p} (free : ∀ k j, ¬ Occurs syn src k i j) (text : dropB src i = some ['?']) :
      Stuck syn env src o i (.tag c p) "unexpected character" ⟨i, i + 1⟩
  /-- A string literal that is not closed in its line: after the quote all quotes follow a backslash. -/
  | string {c p body rest} (free : ∀ k j, ¬ Occurs syn src k i j) (text : dropB src i = some ('"' :: (body ++ rest)))
      (line : ∀ c ∈ body, c ≠ '\n' ∧ c ≠ '\r') (last : ∀ x r, rest = x :: r → x = '\n' ∨ x = '\r')
      (quotes : ∀ x y, '"' :: body = x ++ '"' :: y → x ≠ [] → ∃ z, x = z ++ ['\\']) :
      Stuck syn env src o i (.tag c p) "undelimited string" ⟨i, i + 1 + blen body⟩
  /-- A tag opens in a comment: the comment is blamed. -/
  | commentNested {b k j n} (outer : o = some b) (next : Chosen syn src i k j n) (opening : isEnd k = false) :
      Stuck syn env src o i .comment "unclosed begin comment" b
  /-- The wrong delimiter closes a comment. -/
  | commentMismatch {k j n} (next : Chosen syn src i k j n) (closing : isEnd k = true) (other : tokenOf k ≠ .endComment) :
      Stuck syn env src o i .comment s!"unexpected {tokenName (tokenOf k)}" ⟨j, n⟩

end Upon.Spec
