import Verif.Spec.Diagnosis
import Verif.Spec.Quote
/-
Vocabulary for C53: writing a template down.
-/
namespace Upon.Spec

/-- How a punctuation mark is written. -/
def mark : Token → Str
  | .dot => ['.']
  | .questionDot => ['?', '.']
  | .pipe => ['|']
  | .comma => [',']
  | .colon => [':']
  | .plus => ['+']
  | .minus => ['-']
  | _ => []

/-- One thing written down in the syntax `b`: everything inside a tag is followed by a space. A comment is written as a space, which
it trims, and one that says nothing; it keeps characters of text apart. -/
def spell (b : SyntaxBuilder) : Item → Str
  | .char c => [c]
  | .sign .beginExpr => (b.expr.map (·.1)).getD [] ++ [' ']
  | .sign .endExpr => (b.expr.map (·.2)).getD []
  | .sign .beginBlock => (b.block.map (·.1)).getD [] ++ [' ']
  | .sign .endBlock => (b.block.map (·.2)).getD []
  | .sign .beginComment => ' ' :: ((b.comment.map (·.1)).getD [] ++ '-' :: ' ' :: (b.comment.map (·.2)).getD [])
  | .sign tk => mark tk ++ [' ']
  | .word _ s => s ++ [' ']

/-- The template text that says the given words, one after the other. -/
def print (b : SyntaxBuilder) (ws : List Item) : Str := ws.flatMap (spell b)

/-- The words without the comments. -/
def said (ws : List Item) : List Item := ws.filter (· ≠ .sign .beginComment)

/-- Put a comment after each character of text that a delimiter starts with. -/
def guarded (b : SyntaxBuilder) : List Item → List Item
  | [] => []
  | .char c :: ws => if b.build.any (fun p => p.2.head? == some c) then .char c :: .sign .beginComment :: guarded b ws else .char c :: guarded b ws
  | i :: ws => i :: guarded b ws

/-- A syntax whose delimiters are told apart easily from each other and from what stands inside tags, as in the default
syntax: they have no whitespace, none starts like a token (a minus sign starts a trimming one), no two are the same, and no
other delimiter starts with a closing one. (A space ends a name, and the keywords are spelled like names.) -/
structure Standard (b : SyntaxBuilder) (env : Env) : Prop where
  expr : ∃ p, b.expr = some p
  block : ∃ p, b.block = some p
  solid : ∀ p ∈ b.build, ∀ c ∈ p.2, isWhite c = false
  starts : ∀ p ∈ b.build, ∀ c r, p.2 = c :: r → (c = '-' ∧ r ≠ []) ∨ (¬ Punct c ∧ isIdentStart env c = false)
  apart : ∀ p ∈ b.build, ∀ q ∈ b.build, p.2 = q.2 → p.1 = q.1
  ends : ∀ p ∈ b.build, isEnd p.1 = true → isTrim p.1 = false → ∀ q ∈ b.build, p.2 <+: q.2 → p.2 = q.2
  stops : isIdentChar env ' ' = false
  keys : ∀ s ∈ keywords, Word env s

/-- The characters of names are the letters, the digits and the underscore, as far as ASCII is concerned (as in Unicode's table). -/
def AsciiNames (env : Env) : Prop :=
  ∀ c : Char, c.toNat < 128 → env.xidStart c = c.isAlpha ∧ env.xidContinue c = (c.isAlphanum || c == '_')

/-- The punctuation marks inside tags. -/
def isMark : Token → Bool
  | .dot | .questionDot | .pipe | .comma | .colon | .plus | .minus => true
  | _ => false

/-- The tokens that have a text of their own. -/
def isWord : Token → Bool
  | .ident | .keyword | .index | .number | .string => true
  | _ => false

/-- Things are where they belong: text outside of tags (`none`), marks and words inside; the words are spelled right, and
digits stand for an index or a number according to what comes before. Inside a tag the state is the token that closes
it and whether a path is being read. A comment comes after a character that it does not trim. -/
inductive InPlace (env : Env) : Option (Token × Bool) → List Item → Prop
  | nil : InPlace env none []
  | char {c ws} : InPlace env none ws → InPlace env none (.char c :: ws)
  | comment {c ws} : isWhite c = false → InPlace env none ws → InPlace env none (.char c :: .sign .beginComment :: ws)
  | beginExpr {ws} : InPlace env (some (.endExpr, false)) ws → InPlace env none (.sign .beginExpr :: ws)
  | beginBlock {ws} : InPlace env (some (.endBlock, false)) ws → InPlace env none (.sign .beginBlock :: ws)
  | mark {c p tk ws} : isMark tk = true → InPlace env (some (c, nextPath p tk)) ws → InPlace env (some (c, p)) (.sign tk :: ws)
  | word {c p tk s ws} : isWord tk = true → TokText env tk s → TokFits p tk → InPlace env (some (c, nextPath p tk)) ws →
      InPlace env (some (c, p)) (.word tk s :: ws)
  | close {c p ws} : InPlace env none ws → InPlace env (some (c, p)) (.sign c :: ws)

/-- No delimiter comes about by accident: none stands where a character of text is written. -/
def NoAccident (b : SyntaxBuilder) (ws : List Item) : Prop :=
  ∀ before c after, ws = before ++ .char c :: after → ∀ p ∈ b.build, ¬ p.2 <+: print b (.char c :: after)

end Upon.Spec

namespace Upon.Plain
open Spec

/-! The words for a tree -/

/-- The decimal form of a number. -/
def digits (n : Nat) : Str := (toString n).toList

/-- A way to write floating point numbers: whether there is a minus sign, and the digits. -/
abbrev FloatText := BitVec 64 → Bool × Str

/-- The words for the value of a literal. -/
def litWords (fl : FloatText) : Value → List Item
  | .bool true => [.word .keyword "true".toList]
  | .bool false => [.word .keyword "false".toList]
  | .integer i => if i < 0 then [.sign .minus, .word .number (digits i.natAbs)] else [.word .number (digits i.natAbs)]
  | .float f => if (fl f).1 then [.sign .minus, .word .number (fl f).2] else [.word .number (fl f).2]
  | .string s => [.word .string (quoted s)]
  | _ => []

/-- The words for a step of a path. -/
def memberWords (m : ValueMember) : List Item :=
  [.sign (match m.op with | .direct => .dot | .optional => .questionDot),
    match m.access with | .key k => .word .ident k | .index i => .word .index (digits i)]

/-- The words for a variable or literal. -/
def baseWords (fl : FloatText) : Base → List Item
  | .var n _ ms => .word .ident n :: ms.flatMap memberWords
  | .lit v => litWords fl v

/-- The words for arguments. -/
def argWords (fl : FloatText) : List Base → List Item
  | [] => []
  | [b] => baseWords fl b
  | b :: bs => baseWords fl b ++ .sign .comma :: argWords fl bs

/-- The words for an expression. -/
def exprWords (fl : FloatText) : Expr → List Item
  | .base b => baseWords fl b
  | .call n none r => exprWords fl r ++ [.sign .pipe, .word .ident n]
  | .call n (some as) r => exprWords fl r ++ .sign .pipe :: .word .ident n :: .sign .colon :: argWords fl as

/-- The words for loop variables. -/
def varsWords : Vars → List Item
  | .item n => [.word .ident n]
  | .keyValue k v => [.word .ident k, .sign .comma, .word .ident v]

mutual
/-- The words for a statement. -/
def stmtWords (fl : FloatText) : Stmt → List Item
  | .char c => [.char c]
  | .expr e => .sign .beginExpr :: (exprWords fl e ++ [.sign .endExpr])
  | .include_ n none => tag "include" [.word .string (quoted n)]
  | .include_ n (some e) => tag "include" (.word .string (quoted n) :: .word .keyword "with".toList :: exprWords fl e)
  | .ifElse neg c t e =>
    tag "if" ((if neg then [.word .keyword "not".toList] else []) ++ exprWords fl c) ++ (stmtsWords fl t ++ elseWords fl e)
  | .forLoop vs e b => tag "for" (varsWords vs ++ .word .keyword "in".toList :: exprWords fl e) ++ (stmtsWords fl b ++ tag "endfor" [])
  | .with_ e n b => tag "with" (exprWords fl e ++ [.word .keyword "as".toList, .word .ident n]) ++ (stmtsWords fl b ++ tag "endwith" [])
/-- The words for statements. -/
def stmtsWords (fl : FloatText) : List Stmt → List Item
  | [] => []
  | s :: ss => stmtWords fl s ++ stmtsWords fl ss
/-- The words for what follows the first body of an `if` block. -/
def elseWords (fl : FloatText) : Option (List Stmt) → List Item
  | none => tag "endif" []
  | some b => tag "else" [] ++ (stmtsWords fl b ++ tag "endif" [])
end

/-! The trees that can be written -/

/-- The values that have literals: booleans, 64-bit integers, strings, and those floating point numbers that are read back from
the way they are written. (Which these are depends on the reader for floating point numbers, which is not modelled.) -/
def LitOk (fl : FloatText) (env : Env) : Value → Prop
  | .bool _ => True
  | .integer i => FitsI64 i
  | .float f => TokText env .number (fl f).2 ∧ NumLit env (fl f).2 (fl f).1 (.float f)
  | .string _ => True
  | _ => False

/-- The step is a name or a number that fits. -/
def MemberOk (env : Env) (m : ValueMember) : Prop :=
  match m.access with | .key k => TokText env .ident k | .index i => i < 2 ^ env.usizeBits

/-- The names are names. -/
def BaseOk (fl : FloatText) (env : Env) : Base → Prop
  | .var n f ms => TokText env .ident n ∧ f = ⟨.direct, .key n⟩ ∧ ∀ m ∈ ms, MemberOk env m
  | .lit v => LitOk fl env v

/-- The names are names, and arguments are not an empty list. -/
def ExprOk (fl : FloatText) (env : Env) : Expr → Prop
  | .base b => BaseOk fl env b
  | .call n none r => TokText env .ident n ∧ ExprOk fl env r
  | .call n (some as) r => TokText env .ident n ∧ as ≠ [] ∧ (∀ a ∈ as, BaseOk fl env a) ∧ ExprOk fl env r

/-- The expression starts with a number. -/
def LedByNumber : Expr → Prop
  | .base (.lit (.integer _)) => True
  | .base (.lit (.float _)) => True
  | .base _ => False
  | .call _ _ r => LedByNumber r

/-- The names are names. -/
def VarsOk (env : Env) : Vars → Prop
  | .item n => TokText env .ident n
  | .keyValue k v => TokText env .ident k ∧ TokText env .ident v

mutual
/-- The statement can be written. (A loop over a number, which fails anyway, cannot: digits after a name are an index.) -/
def StmtOk (fl : FloatText) (env : Env) : Stmt → Prop
  | .char _ => True
  | .expr e => ExprOk fl env e
  | .include_ _ none => True
  | .include_ _ (some e) => ExprOk fl env e
  | .ifElse _ c t none => ExprOk fl env c ∧ StmtsOk fl env t
  | .ifElse _ c t (some e) => ExprOk fl env c ∧ StmtsOk fl env t ∧ StmtsOk fl env e
  | .forLoop vs e b => VarsOk env vs ∧ ExprOk fl env e ∧ ¬ LedByNumber e ∧ StmtsOk fl env b
  | .with_ e n b => ExprOk fl env e ∧ TokText env .ident n ∧ StmtsOk fl env b
/-- The statements can be written. -/
def StmtsOk (fl : FloatText) (env : Env) : List Stmt → Prop
  | [] => True
  | s :: ss => StmtOk fl env s ∧ StmtsOk fl env ss
end

end Upon.Plain
