import Verif.Model.Lexer
import Verif.Model.Ast
/-
The grammar of templates, as relations between token sequences and syntax trees (C08-C12), and the
values of literals.  Nothing here mentions the parser.
-/
namespace Upon.Spec

abbrev Tok := Token × Span

/-! Literals -/

/-- The value of a digit character. -/
def digitVal (c : Char) : Option Nat :=
  if '0' ≤ c ∧ c ≤ '9' then some (c.toNat - '0'.toNat)
  else if 'a' ≤ c ∧ c ≤ 'z' then some (c.toNat - 'a'.toNat + 10)
  else if 'A' ≤ c ∧ c ≤ 'Z' then some (c.toNat - 'A'.toNat + 10)
  else none

/-- `ds` are digits in base `base` (most significant first, underscores ignored) of the number `n`:
given by what appending one more character does. -/
inductive Digits (base : Nat) : Str → Nat → Prop
  | nil : Digits base [] 0
  | under {ds n} : Digits base ds n → Digits base (ds ++ ['_']) n
  | digit {ds n c d} : Digits base ds n → digitVal c = some d → d < base →
      Digits base (ds ++ [c]) (n * base + d)

/-- The number an integer literal (without its sign) denotes. -/
inductive IntLit : Str → Nat → Prop
  | bin {ds n} : Digits 2 ds n → IntLit ('0' :: 'b' :: ds) n
  | oct {ds n} : Digits 8 ds n → IntLit ('0' :: 'o' :: ds) n
  | hex {ds n} : Digits 16 ds n → IntLit ('0' :: 'x' :: ds) n
  | dec {ds n} : (∀ r, ds ≠ '0' :: 'b' :: r) → (∀ r, ds ≠ '0' :: 'o' :: r) →
      (∀ r, ds ≠ '0' :: 'x' :: r) → Digits 10 ds n → IntLit ds n

/-- `n`, or `-n` after a minus sign. -/
def signed (neg : Bool) (n : Nat) : Int := if neg then -(n : Int) else n

/-- Values of a signed 64-bit integer. -/
def FitsI64 (i : Int) : Prop := -(2 ^ 63 : Int) ≤ i ∧ i < 2 ^ 63

/-- Flip the sign bit of a 64-bit float. -/
def flipSign (neg : Bool) (f : BitVec 64) : BitVec 64 :=
  if neg then f ^^^ (1#64 <<< 63) else f

/-- The value of a number literal with text `raw`: an integer if it can be read as one that fits in
64 bits, and otherwise whatever the float parser makes of it. -/
inductive NumLit (env : Env) (raw : Str) (neg : Bool) : Value → Prop
  | int {n} : IntLit raw n → FitsI64 (signed neg n) → NumLit env raw neg (.integer (signed neg n))
  | float {f} : (∀ n, IntLit raw n → ¬ FitsI64 (signed neg n)) → env.parseF64 raw = some f →
      NumLit env raw neg (.float (flipSign neg f))

/-- Escape sequences. -/
def escape : Char → Option Char
  | 'n' => some '\n'
  | 'r' => some '\r'
  | 't' => some '\t'
  | '\\' => some '\\'
  | '"' => some '"'
  | _ => none

/-- The text a string literal body stands for. A quote that is not part of an escape sequence can
stand in a body only after an escaped backslash (see C11); the code drops it. -/
inductive Unescaped : Str → Str → Prop
  | nil : Unescaped [] []
  | char {c s t} : c ≠ '\\' → c ≠ '"' → Unescaped s t → Unescaped (c :: s) (c :: t)
  | esc {c d s t} : escape c = some d → Unescaped s t → Unescaped ('\\' :: c :: s) (d :: t)
  | stray {s t} : Unescaped s t → Unescaped ('"' :: s) t

/-- The text a string literal stands for. -/
def StrLit (raw s : Str) : Prop := ∃ body, raw = '"' :: (body ++ ['"']) ∧ Unescaped body s

/-- The number written in decimal. -/
def decimal (s : Str) : Nat := s.foldl (fun n c => n * 10 + (c.toNat - '0'.toNat)) 0

/-! Expressions -/

/-- The given word stands at the token. -/
def IsKw (src : Str) (t : Tok) (w : String) : Prop := t.1 = .keyword ∧ t.2.of src = some w.toList

/-- The accesses after the first name of a path. -/
inductive GPath (env : Env) (src : Str) : List Tok → List Member → Prop
  | nil : GPath env src [] []
  | key {op tk sp isp ts ms} : (op = .direct ∧ tk = .dot) ∨ (op = .optional ∧ tk = .questionDot) →
      GPath env src ts ms →
      GPath env src ((tk, sp) :: (.ident, isp) :: ts) (⟨op, .key ⟨isp⟩, sp.combine isp⟩ :: ms)
  | index {op tk sp isp s ts ms} : (op = .direct ∧ tk = .dot) ∨ (op = .optional ∧ tk = .questionDot) →
      isp.of src = some s → decimal s < 2 ^ env.usizeBits → GPath env src ts ms →
      GPath env src ((tk, sp) :: (.index, isp) :: ts) (⟨op, .index ⟨decimal s, isp⟩, sp.combine isp⟩ :: ms)

/-- Names with a path, and literals. -/
inductive GBase (env : Env) (src : Str) : List Tok → BaseExpr → Prop
  | true_ {sp} : IsKw src (.keyword, sp) "true" → GBase env src [(.keyword, sp)] (.lit ⟨.bool true, sp⟩)
  | false_ {sp} : IsKw src (.keyword, sp) "false" → GBase env src [(.keyword, sp)] (.lit ⟨.bool false, sp⟩)
  | number {sp raw v} : sp.of src = some raw → NumLit env raw false v →
      GBase env src [(.number, sp)] (.lit ⟨v, sp⟩)
  | plus {s sp raw v} : sp.of src = some raw → NumLit env raw false v →
      GBase env src [(.plus, s), (.number, sp)] (.lit ⟨v, s.combine sp⟩)
  | minus {s sp raw v} : sp.of src = some raw → NumLit env raw true v →
      GBase env src [(.minus, s), (.number, sp)] (.lit ⟨v, s.combine sp⟩)
  | string {sp raw v} : sp.of src = some raw → StrLit raw v →
      GBase env src [(.string, sp)] (.lit ⟨.string v, sp⟩)
  | var {sp ts ms} : GPath env src ts ms →
      GBase env src ((.ident, sp) :: ts) (.var ⟨⟨.direct, .key ⟨sp⟩, sp⟩, ms⟩)

/-- One or more arguments separated by commas. -/
inductive GArgs (env : Env) (src : Str) : List Tok → List BaseExpr → Prop
  | one {ts e} : GBase env src ts e → GArgs env src ts [e]
  | more {ts e sp us es} : GBase env src ts e → GArgs env src us es →
      GArgs env src (ts ++ (.comma, sp) :: us) (e :: es)

/-- `| name` or `| name: args`, any number of times, applied to `e`: each call takes everything to
its left as its receiver. -/
inductive GCalls (env : Env) (src : Str) : Expr → List Tok → Expr → Prop
  | nil {e} : GCalls env src e [] e
  | call {e e' psp nsp ts} :
      GCalls env src (.call ⟨nsp⟩ none e (e.span.combine nsp)) ts e' →
      GCalls env src e ((.pipe, psp) :: (.ident, nsp) :: ts) e'
  | callArgs {e e' psp nsp csp us es last ts} : GArgs env src us (es ++ [last]) →
      GCalls env src (.call ⟨nsp⟩ (some ⟨es ++ [last], csp.combine last.span⟩) e
        (e.span.combine (csp.combine last.span))) ts e' →
      GCalls env src e ((.pipe, psp) :: (.ident, nsp) :: (.colon, csp) :: (us ++ ts)) e'

/-- Expressions: a name or literal followed by calls. -/
def GExpr (env : Env) (src : Str) (ts : List Tok) (e : Expr) : Prop :=
  ∃ us b vs, ts = us ++ vs ∧ GBase env src us b ∧ GCalls env src (.base b) vs e

/-- The condition of an `if`. -/
inductive GCond (env : Env) (src : Str) : List Tok → Bool → Expr → Prop
  | plain {ts e} : GExpr env src ts e → GCond env src ts false e
  | not {sp ts e} : IsKw src (.keyword, sp) "not" → GExpr env src ts e →
      GCond env src ((.keyword, sp) :: ts) true e

/-- Loop variables. -/
inductive GVars : List Tok → LoopVars → Prop
  | item {sp} : GVars [(.ident, sp)] (.item ⟨sp⟩)
  | keyValue {k c v} : GVars [(.ident, k), (.comma, c), (.ident, v)] (.keyValue ⟨k⟩ ⟨v⟩ (k.combine v))

/-- A block tag: the keyword, what stands after it, between the tag's delimiters. -/
inductive GTag (src : Str) (w : String) : List Tok → List Tok → Prop
  | mk {b k e inner} : IsKw src (.keyword, k) w →
      GTag src w inner ((.beginBlock, b) :: (.keyword, k) :: (inner ++ [(.endBlock, e)]))

mutual
/-- Templates. -/
inductive GStmts (env : Env) (src : Str) : List Tok → List Stmt → Prop
  | nil : GStmts env src [] []
  | raw {sp ts ss} : GStmts env src ts ss → GStmts env src ((.raw, sp) :: ts) (.raw sp :: ss)
  | comment {b r e ts ss} : GStmts env src ts ss →
      GStmts env src ((.beginComment, b) :: (.raw, r) :: (.endComment, e) :: ts) ss
  | expr {b e us x ts ss} : GExpr env src us x → GStmts env src ts ss →
      GStmts env src ((.beginExpr, b) :: (us ++ (.endExpr, e) :: ts))
        (.inlineExpr x (b.combine e) :: ss)
  | include_ {tag nsp raw name ts ss} : GTag src "include" [(.string, nsp)] tag →
      nsp.of src = some raw → StrLit raw name → GStmts env src ts ss →
      GStmts env src (tag ++ ts) (.include_ ⟨name, nsp⟩ none :: ss)
  | includeWith {tag nsp raw name wsp us x ts ss} :
      GTag src "include" ((.string, nsp) :: (.keyword, wsp) :: us) tag →
      nsp.of src = some raw → StrLit raw name → IsKw src (.keyword, wsp) "with" → GExpr env src us x →
      GStmts env src ts ss →
      GStmts env src (tag ++ ts) (.include_ ⟨name, nsp⟩ (some x) :: ss)
  | for_ {tag vs v isp us x body ss' endTag ts ss} :
      GTag src "for" (vs ++ (.keyword, isp) :: us) tag → GVars vs v → IsKw src (.keyword, isp) "in" →
      GExpr env src us x → GStmts env src body ss' → GTag src "endfor" [] endTag →
      GStmts env src ts ss →
      GStmts env src (tag ++ body ++ endTag ++ ts) (.forLoop v x ss' :: ss)
  | with_ {tag us x asp nsp body ss' endTag ts ss} :
      GTag src "with" (us ++ [(.keyword, asp), (.ident, nsp)]) tag → GExpr env src us x →
      IsKw src (.keyword, asp) "as" → GStmts env src body ss' → GTag src "endwith" [] endTag →
      GStmts env src ts ss →
      GStmts env src (tag ++ body ++ endTag ++ ts) (.with_ x ⟨nsp⟩ ss' :: ss)
  | if_ {tag us n x body ss' tail els ts ss} :
      GTag src "if" us tag → GCond env src us n x → GStmts env src body ss' →
      GElse env src tail els → GStmts env src ts ss →
      GStmts env src (tag ++ body ++ tail ++ ts) (.ifElse n x ss' els :: ss)

/-- What follows the body of an `if`: `endif`, or an `else` body, or an `else if`, which is an `if`
nested in the else branch. -/
inductive GElse (env : Env) (src : Str) : List Tok → Option (List Stmt) → Prop
  | endif {tag} : GTag src "endif" [] tag → GElse env src tag none
  | else_ {tag body ss endTag} : GTag src "else" [] tag → GStmts env src body ss →
      GTag src "endif" [] endTag → GElse env src (tag ++ body ++ endTag) (some ss)
  | elseIf {tag isp us n x body ss tail els} : GTag src "else" ((.keyword, isp) :: us) tag →
      IsKw src (.keyword, isp) "if" → GCond env src us n x → GStmts env src body ss →
      GElse env src tail els →
      GElse env src (tag ++ body ++ tail) (some [.ifElse n x ss els])
end

end Upon.Spec
