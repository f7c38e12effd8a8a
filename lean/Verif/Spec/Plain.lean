import Verif.Spec.Words
/-
Trees without byte ranges, and the grammar that relates what a template says to its tree (for C44-C46, C49, C50).
-/
namespace Upon
open Spec

namespace Plain

/-- A name or literal without byte ranges. -/
inductive Base where
  | var (name : Str) (first : ValueMember) (rest : List ValueMember)
  | lit (v : Value)

/-- An expression without byte ranges. -/
inductive Expr where
  | base (b : Base)
  | call (name : Str) (args : Option (List Base)) (recv : Expr)

/-- Loop variables without byte ranges. -/
inductive Vars where
  | item (n : Str)
  | keyValue (k v : Str)

/-- A statement without byte ranges. -/
inductive Stmt where
  | char (c : Char)
  | expr (e : Expr)
  | include_ (n : Str) (g : Option Expr)
  | ifElse (neg : Bool) (c : Expr) (t : List Stmt) (e : Option (List Stmt))
  | forLoop (vs : Vars) (e : Expr) (b : List Stmt)
  | with_ (e : Expr) (n : Str) (b : List Stmt)

/-! Leave out the byte ranges -/

/-- A step of a path: its operator and the key or number. -/
def ofMember (src : Str) (m : Member) : ValueMember :=
  ⟨m.op, match m.access with | .index i => .index i.value | .key k => .key (textAt src k.span)⟩

/-- A name with its path, or the value of a literal. -/
def ofBase (src : Str) : BaseExpr → Base
  | .var v => .var (textAt src v.first.access.span) (ofMember src v.first) (v.rest.map (ofMember src))
  | .lit l => .lit l.value

/-- An expression. -/
def ofExpr (src : Str) : Upon.Expr → Expr
  | .base b => .base (ofBase src b)
  | .call n args recv _ => .call (textAt src n.span) (args.map fun a => a.values.map (ofBase src)) (ofExpr src recv)

/-- The names of loop variables. -/
def ofVars (src : Str) : LoopVars → Vars
  | .item i => .item (textAt src i.span)
  | .keyValue k v _ => .keyValue (textAt src k.span) (textAt src v.span)

mutual
/-- A statement; text is left as single characters. -/
def ofStmt (src : Str) : Upon.Stmt → List Stmt
  | .raw sp => (textAt src sp).map .char
  | .inlineExpr e _ => [.expr (ofExpr src e)]
  | .include_ n none => [.include_ n.name none]
  | .include_ n (some e) => [.include_ n.name (some (ofExpr src e))]
  | .ifElse neg c t none => [.ifElse neg (ofExpr src c) (ofStmts src t) none]
  | .ifElse neg c t (some e) => [.ifElse neg (ofExpr src c) (ofStmts src t) (some (ofStmts src e))]
  | .forLoop vs e b => [.forLoop (ofVars src vs) (ofExpr src e) (ofStmts src b)]
  | .with_ e n b => [.with_ (ofExpr src e) (textAt src n.span) (ofStmts src b)]
/-- Statements. -/
def ofStmts (src : Str) : List Upon.Stmt → List Stmt
  | [] => []
  | s :: ss => ofStmt src s ++ ofStmts src ss
end

/-! The grammar on words -/


/-- A path of member accesses: `.name`, `?.name`, `.0`. -/
inductive WPath (env : Env) : List Item → List ValueMember → Prop
  | nil : WPath env [] []
  | key {op tk s ws ms} : (op = .direct ∧ tk = .dot) ∨ (op = .optional ∧ tk = .questionDot) → WPath env ws ms →
      WPath env (.sign tk :: .word .ident s :: ws) (⟨op, .key s⟩ :: ms)
  | index {op tk s ws ms} : (op = .direct ∧ tk = .dot) ∨ (op = .optional ∧ tk = .questionDot) → decimal s < 2 ^ env.usizeBits →
      WPath env ws ms → WPath env (.sign tk :: .word .index s :: ws) (⟨op, .index (decimal s)⟩ :: ms)

/-- A literal or a variable. -/
inductive WBase (env : Env) : List Item → Base → Prop
  | true_ : WBase env [.word .keyword "true".toList] (.lit (.bool true))
  | false_ : WBase env [.word .keyword "false".toList] (.lit (.bool false))
  | number {s v} : NumLit env s false v → WBase env [.word .number s] (.lit v)
  | plus {s v} : NumLit env s false v → WBase env [.sign .plus, .word .number s] (.lit v)
  | minus {s v} : NumLit env s true v → WBase env [.sign .minus, .word .number s] (.lit v)
  | string {s v} : StrLit s v → WBase env [.word .string s] (.lit (.string v))
  | var {s ws ms} : WPath env ws ms → WBase env (.word .ident s :: ws) (.var s ⟨.direct, .key s⟩ ms)

/-- Arguments, separated by commas. -/
inductive WArgs (env : Env) : List Item → List Base → Prop
  | one {ws b} : WBase env ws b → WArgs env ws [b]
  | more {ws b us bs} : WBase env ws b → WArgs env us bs → WArgs env (ws ++ .sign .comma :: us) (b :: bs)

/-- Calls of filters, the receiver first. -/
inductive WCalls (env : Env) : Expr → List Item → Expr → Prop
  | nil {e} : WCalls env e [] e
  | call {e e' s ws} : WCalls env (.call s none e) ws e' → WCalls env e (.sign .pipe :: .word .ident s :: ws) e'
  | callArgs {e e' s us bs ws} : WArgs env us bs → WCalls env (.call s (some bs) e) ws e' →
      WCalls env e (.sign .pipe :: .word .ident s :: .sign .colon :: (us ++ ws)) e'

/-- An expression: a literal or variable and the calls applied to it. -/
def WExpr (env : Env) (ws : List Item) (e : Expr) : Prop := ∃ us b vs, ws = us ++ vs ∧ WBase env us b ∧ WCalls env (.base b) vs e

/-- A condition, maybe with `not`. -/
inductive WCond (env : Env) : List Item → Bool → Expr → Prop
  | plain {ws e} : WExpr env ws e → WCond env ws false e
  | not {ws e} : WExpr env ws e → WCond env (.word .keyword "not".toList :: ws) true e

/-- The variables of a loop. -/
inductive WVars : List Item → Vars → Prop
  | item {s} : WVars [.word .ident s] (.item s)
  | keyValue {k v} : WVars [.word .ident k, .sign .comma, .word .ident v] (.keyValue k v)

/-- A block tag. -/
def tag (w : String) (inner : List Item) : List Item := .sign .beginBlock :: .word .keyword w.toList :: (inner ++ [.sign .endBlock])

mutual
/-- The text, tags and blocks of a template. -/
inductive WStmts (env : Env) : List Item → List Stmt → Prop
  | nil : WStmts env [] []
  | char {c ws ss} : WStmts env ws ss → WStmts env (.char c :: ws) (.char c :: ss)
  | expr {is e ws ss} : WExpr env is e → WStmts env ws ss →
      WStmts env (.sign .beginExpr :: (is ++ .sign .endExpr :: ws)) (.expr e :: ss)
  | include_ {raw name ws ss} : StrLit raw name → WStmts env ws ss →
      WStmts env (tag "include" [.word .string raw] ++ ws) (.include_ name none :: ss)
  | includeWith {raw name is e ws ss} : StrLit raw name → WExpr env is e → WStmts env ws ss →
      WStmts env (tag "include" (.word .string raw :: .word .keyword "with".toList :: is) ++ ws) (.include_ name (some e) :: ss)
  | for_ {vs v is e body b ws ss} : WVars vs v → WExpr env is e → WStmts env body b → WStmts env ws ss →
      WStmts env (tag "for" (vs ++ .word .keyword "in".toList :: is) ++ (body ++ (tag "endfor" [] ++ ws))) (.forLoop v e b :: ss)
  | with_ {is e s body b ws ss} : WExpr env is e → WStmts env body b → WStmts env ws ss →
      WStmts env (tag "with" (is ++ [.word .keyword "as".toList, .word .ident s]) ++ (body ++ (tag "endwith" [] ++ ws))) (.with_ e s b :: ss)
  | if_ {is n e body b tail els ws ss} : WCond env is n e → WStmts env body b → WElse env tail els → WStmts env ws ss →
      WStmts env (tag "if" is ++ (body ++ (tail ++ ws))) (.ifElse n e b els :: ss)
/-- What follows the first body of an `if` block. -/
inductive WElse (env : Env) : List Item → Option (List Stmt) → Prop
  | endif : WElse env (tag "endif" []) none
  | else_ {body b} : WStmts env body b → WElse env (tag "else" [] ++ (body ++ tag "endif" [])) (some b)
  | elseIf {is n e body b tail els} : WCond env is n e → WStmts env body b → WElse env tail els →
      WElse env (tag "else" (.word .keyword "if".toList :: is) ++ (body ++ tail)) (some [.ifElse n e b els])
end

end Plain
end Upon
