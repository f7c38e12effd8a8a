import Verif.Spec.Plain
/-
Vocabulary for C51: what a syntax error says and where it points.
-/
namespace Upon.Spec
open Plain (WStmts)

/-- The words are the beginning of what some template says. -/
def Viable (env : Env) (ws : List Item) : Prop := ∃ more ss, WStmts env (ws ++ more) ss

/-- The words are what a template says. -/
def Complete (env : Env) (ws : List Item) : Prop := ∃ ss, WStmts env ws ss

/-- Some template says these words somewhere. -/
def Sayable (env : Env) (ws : List Item) : Prop := ∃ before after ss, WStmts env (before ++ ws ++ after) ss

/-- A syntax error with this message that points at this byte range. -/
def Reports (cx : LexCx) (m : String) (sp : Span) (e : Err) : Prop :=
  ∃ p, Pretty.build cx.env cx.source sp = some p ∧ e = ⟨.syntax, none, some m, some p⟩

/-- Something that the message calls `x`. -/
inductive Called : String → Item → Prop
  | sign {tk} : Called (tokenName tk) (.sign tk)
  | word {tk s} : Called (tokenName tk) (.word tk s)
  | expression {s} : Called "expression" (.word .ident s)
  | access {s} : Called "identifier or index" (.word .ident s)
  | token {i} : Called "token" i

/-- The base of an integer literal, the text that tells it, and the digits after it. -/
inductive InBase : Str → Nat → Str → Str → Prop
  | bin {ds} : InBase ('0' :: 'b' :: ds) 2 ['0', 'b'] ds
  | oct {ds} : InBase ('0' :: 'o' :: ds) 8 ['0', 'o'] ds
  | hex {ds} : InBase ('0' :: 'x' :: ds) 16 ['0', 'x'] ds
  | dec {ds} : (∀ r, ds ≠ '0' :: 'b' :: r) → (∀ r, ds ≠ '0' :: 'o' :: r) → (∀ r, ds ≠ '0' :: 'x' :: r) → InBase ds 10 [] ds

/-- Why `raw`, after a minus sign if `neg`, is no number: the message, and the byte of `raw` it is about, or none if it is
about all of it. -/
inductive BadNumber (env : Env) (raw : Str) (neg : Bool) : String → Option Nat → Prop
  | digit {base pre ds n c rest} : env.parseF64 raw = none → '.' ∉ raw → '-' ∉ raw → '+' ∉ raw →
      InBase raw base pre (ds ++ c :: rest) → Digits base ds n → FitsI64 (signed neg n) →
      c ≠ '_' → (∀ d, digitVal c = some d → base ≤ d) →
      BadNumber env raw neg s!"invalid digit for base {base} literal" (some (blen (pre ++ ds)))
  | range {base pre ds n rest} : env.parseF64 raw = none → '.' ∉ raw → '-' ∉ raw → '+' ∉ raw →
      InBase raw base pre (ds ++ rest) → Digits base ds n → ¬ FitsI64 (signed neg n) →
      BadNumber env raw neg s!"base {base} literal out of range for 64-bit integer" none
  | float : env.parseF64 raw = none → '.' ∈ raw ∨ '-' ∈ raw ∨ '+' ∈ raw → BadNumber env raw neg "invalid float literal" none

/-- The place the message about a number points at: the number with its sign starts at `m` and ends at `n`. -/
def numberPlace (m n : Nat) : Option Nat → Span
  | some k => ⟨m + k, m + k + 1⟩
  | none => ⟨m, n⟩

/-- A message about the token `t`, which stands after the tokens `us`, where `Next` could, and the place it points at. -/
inductive Complaint (env : Env) (src : Str) (us : List Tok) (Next : Item → Prop) (t : Tok) : String → Span → Prop
  | expected {x i} : Called x i → Next i → Complaint env src us Next t s!"expected {x}, found {tokenName t.1}" t.2
  | expectedKeyword {a b : String} : t.1 = .keyword → textAt src t.2 = b.toList → Next (.word .keyword a.toList) →
      Complaint env src us Next t s!"expected keyword `{a}`, found keyword `{b}`" t.2
  | keyword {a : String} : t.1 = .keyword → textAt src t.2 = a.toList → Complaint env src us Next t s!"unexpected keyword `{a}`" t.2
  | escape {body s c post} : t.1 = .string → textAt src t.2 = '"' :: (body ++ '\\' :: c :: post) → Unescaped body s → escape c = none →
      Complaint env src us Next t "unknown escape character"
        ⟨t.2.m + blen ('"' :: (body ++ ['\\'])), t.2.m + blen ('"' :: (body ++ ['\\', c]))⟩
  | number {m k} : t.1 = .number → Next (.word .ident []) → BadNumber env (textAt src t.2) false m k →
      Complaint env src us Next t m (numberPlace t.2.m t.2.n k)
  | signed {us' s neg m k} : t.1 = .number → us = us' ++ [s] → s.1 = (if neg then .minus else .plus) →
      BadNumber env (textAt src t.2) neg m k → Complaint env src us Next t m (numberPlace s.2.m t.2.n k)
  | index {s} : t.1 = .index → textAt src t.2 = s → 2 ^ env.usizeBits ≤ decimal s →
      Complaint env src us Next t s!"base 10 literal out of range for unsigned {env.usizeBits}-bit integer" t.2

/-- The tokens the lexer returns first. -/
def Read (cx : LexCx) (ts : List Tok) : Prop := ∃ lx, Lexes cx Lexer.new ts lx

/-- The tokens the lexer returns before it fails. -/
def Stops (cx : LexCx) (ts : List Tok) (e : Err) : Prop := ∃ lx, Lexes cx Lexer.new ts lx ∧ lx.nextToken cx = .err e

/-- After the tokens `front`, which are the beginning of some template, come the tokens `part`, which are the beginning of a
tag; and either it is still the beginning of some template, or the keyword of the tag is out of place there. -/
structure InTag (cx : LexCx) (front part : List Tok) : Prop where
  fine : Viable cx.env (words cx.source front)
  opens : ∃ t us, part = t :: us ∧ (t.1 = .beginExpr ∨ t.1 = .beginBlock) ∧ ∀ u ∈ us, isEndTag u.1 = false
  sayable : Sayable cx.env (words cx.source part)
  here : Viable cx.env (words cx.source (front ++ part)) ∨
    ∃ b k us, part = (.beginBlock, b) :: (.keyword, k) :: us ∧
      ¬ Viable cx.env (words cx.source (front ++ [(.beginBlock, b), (.keyword, k)]))

/-- After the tokens `front`, which are the beginning of some template, come the tokens `part`, which are the beginning of a
comment, and `next` is what must follow. -/
structure InComment (cx : LexCx) (front part : List Tok) (next : Token) : Prop where
  fine : Viable cx.env (words cx.source front)
  begun : (∃ b, part = [(.beginComment, b)] ∧ next = .raw) ∨ (∃ b c, part = [(.beginComment, b), (.raw, c)] ∧ next = .endComment)

/-- A block tag. -/
def blockTag (b k : Span) (us : List Tok) (c : Span) : List Tok := (.beginBlock, b) :: (.keyword, k) :: us ++ [(.endBlock, c)]

/-- The tokens between the keyword and the end of a block tag, and what the message calls the tag. -/
inductive TagName (src : Str) (k : Span) (us : List Tok) : String → Prop
  | elseIf {i us'} : textAt src k = "else".toList → us = (.keyword, i) :: us' → textAt src i = "if".toList → TagName src k us "else if"
  | keyword {w} : textAt src k = w.toList → (w = "else" → us = []) → TagName src k us w

/-- Why a template is not accepted. -/
inductive Diagnosis (cx : LexCx) (e : Err) : Prop
  /-- A token in a tag is the first one that cannot follow what is before it. -/
  | token {front part t m sp} : Read cx (front ++ part ++ [t]) → InTag cx front part →
      ¬ Sayable cx.env (words cx.source (part ++ [t])) →
      Complaint cx.env cx.source part (fun i => Sayable cx.env (words cx.source part ++ [i])) t m sp → Reports cx m sp e → Diagnosis cx e
  /-- The source ends inside a tag. -/
  | eof {front part x i} : Tokens cx (front ++ part) → InTag cx front part →
      Called x i → Sayable cx.env (words cx.source part ++ [i]) →
      Reports cx s!"expected {x}, found EOF" ⟨blen cx.source, blen cx.source⟩ e → Diagnosis cx e
  /-- A comment without text. -/
  | comment {front part t next} : Read cx (front ++ part ++ [t]) → InComment cx front part next → t.1 ≠ next →
      Reports cx s!"expected {tokenName next}, found {tokenName t.1}" t.2 e → Diagnosis cx e
  /-- The source ends inside a comment. -/
  | eofComment {front part next} : Tokens cx (front ++ part) → InComment cx front part next →
      Reports cx s!"expected {tokenName next}, found EOF" ⟨blen cx.source, blen cx.source⟩ e → Diagnosis cx e
  /-- A block tag that is fine by itself cannot stand here. -/
  | misplaced {front b k us c w} : Read cx (front ++ blockTag b k us c) →
      Viable cx.env (words cx.source front) →
      Sayable cx.env (words cx.source (blockTag b k us c)) →
      ¬ Viable cx.env (words cx.source (front ++ [(.beginBlock, b), (.keyword, k)])) →
      TagName cx.source k us w → Reports cx s!"unexpected `{w}` block" (b.combine c) e → Diagnosis cx e
  /-- The source ends inside a block: the one that opens after the longest beginning that is a template. -/
  | unclosed {front b k us c rest w} : Tokens cx (front ++ blockTag b k us c ++ rest) →
      Viable cx.env (words cx.source (front ++ blockTag b k us c ++ rest)) →
      Complete cx.env (words cx.source front) →
      (∀ n, front.length < n → ¬ Complete cx.env (words cx.source
        ((front ++ blockTag b k us c ++ rest).take n))) →
      TagName cx.source k us w → Reports cx s!"unclosed `{w}` block" (b.combine c) e → Diagnosis cx e
  /-- The lexer cannot go on. -/
  | lexical {front part} : Stops cx (front ++ part) e →
      (part = [] ∧ Viable cx.env (words cx.source front)) ∨ InTag cx front part ∨ (∃ next, InComment cx front part next) → Diagnosis cx e

end Upon.Spec
