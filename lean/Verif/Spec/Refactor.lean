import Verif.Spec.Plain
import Verif.Spec.Semantics
/-
Vocabulary for C49 (rewriting a template by laws) and C50 (renaming the variables a template binds). Trees are without byte ranges
(Spec/Plain).
-/
namespace Upon.Plain
open Spec

/-! Where a name is used -/

/-- The variable starts with the name. -/
def Base.Uses (n : Str) : Base → Prop
  | .var a _ _ => a = n
  | .lit _ => False

/-- A variable of the expression starts with the name. -/
def Expr.Uses (n : Str) : Expr → Prop
  | .base b => b.Uses n
  | .call _ args recv => (∃ as, args = some as ∧ ∃ b ∈ as, b.Uses n) ∨ recv.Uses n

mutual
/-- A variable in the statement starts with the name, or the statement includes a template that sees all variables. -/
def Stmt.Uses (n : Str) : Stmt → Prop
  | .char _ => False
  | .expr e => e.Uses n
  | .include_ _ none => True
  | .include_ _ (some e) => e.Uses n
  | .ifElse _ c t none => c.Uses n ∨ UsesAny n t
  | .ifElse _ c t (some e) => c.Uses n ∨ UsesAny n t ∨ UsesAny n e
  | .forLoop _ e b => e.Uses n ∨ UsesAny n b
  | .with_ e _ b => e.Uses n ∨ UsesAny n b
/-- One of the statements uses the name. -/
def UsesAny (n : Str) : List Stmt → Prop
  | [] => False
  | s :: ss => s.Uses n ∨ UsesAny n ss
end

/-! C49: laws -/

/-- The variable that is just a name. -/
def justName (n : Str) : Expr := .base (.var n ⟨.direct, .key n⟩ [])

/-- Two ways to write the same. -/
inductive Law : List Stmt → List Stmt → Prop
  /-- `{% if not c %}A{% else %}B{% endif %}` is `{% if c %}B{% else %}A{% endif %}` -/
  | notIf {c a b} : Law [.ifElse true c a (some b)] [.ifElse false c b (some a)]
  /-- an empty `else` can be left out -/
  | noElse {neg c a} : Law [.ifElse neg c a (some [])] [.ifElse neg c a none]
  /-- a condition that is a literal decides right away -/
  | holds {neg v a e} : truthy v ≠ neg → Law [.ifElse neg (.base (.lit v)) a e] a
  | fails {neg v a b} : truthy v = neg → Law [.ifElse neg (.base (.lit v)) a (some b)] b
  /-- two `if` blocks with the same condition, one after the other, can be joined -/
  | join {neg c a b a' b'} : Law [.ifElse neg c a (some b), .ifElse neg c a' (some b')] [.ifElse neg c (a ++ a') (some (b ++ b'))]
  /-- the common end of two branches can be moved out -/
  | tail {neg c a b x} : Law [.ifElse neg c (a ++ x) (some (b ++ x))] (.ifElse neg c a (some b) :: x)
  /-- what was asked need not be asked again -/
  | again {neg c a b x e} : Law [.ifElse neg c (.ifElse neg c a b :: x) e] [.ifElse neg c (a ++ x) e]
  /-- the receiver of a call can be given a name first -/
  | named {e n g args} : (∀ as, args = some as → ∀ b ∈ as, ¬ Base.Uses n b) →
      Law [.expr (.call g args e)] [.with_ e n [.expr (.call g args (justName n))]]
  /-- so can the sequence of a loop -/
  | sequence {vs e b n} : ¬ UsesAny n b → Law [.forLoop vs e b] [.with_ e n [.forLoop vs (justName n) b]]
  /-- so can the condition -/
  | condition {neg e a b n} : ¬ UsesAny n a → ¬ UsesAny n b →
      Law [.ifElse neg e a (some b)] [.with_ e n [.ifElse neg (justName n) a (some b)]]
  /-- so can the globals of an included template -/
  | passed {m e n} : Law [.include_ m (some e)] [.with_ e n [.include_ m (some (justName n))]]
  /-- a name for a literal that is not used can be left out -/
  | unused {v n b} : ¬ UsesAny n b → Law [.with_ (.base (.lit v)) n b] b

/-- Rewriting by the laws, in both directions and anywhere. -/
inductive Refactored : List Stmt → List Stmt → Prop
  | law {a b} : Law a b → Refactored a b
  | refl {a} : Refactored a a
  | symm {a b} : Refactored a b → Refactored b a
  | trans {a b c} : Refactored a b → Refactored b c → Refactored a c
  | append {a a' b b'} : Refactored a a' → Refactored b b' → Refactored (a ++ b) (a' ++ b')
  | then_ {neg c a a' e} : Refactored a a' → Refactored [.ifElse neg c a e] [.ifElse neg c a' e]
  | else_ {neg c a b b'} : Refactored b b' → Refactored [.ifElse neg c a (some b)] [.ifElse neg c a (some b')]
  | for_ {vs e b b'} : Refactored b b' → Refactored [.forLoop vs e b] [.forLoop vs e b']
  | with_ {e n b b'} : Refactored b b' → Refactored [.with_ e n b] [.with_ e n b']

/-! C50: renaming -/

/-- A variable that is bound: its old and its new name, and whether it is the item of a loop. A name may be bound on one side only. -/
structure Bound where
  item : Bool
  old : Option Str
  new : Option Str

/-- A variable `a` with the path `p` in the old template is `a'` with this path in the new one: both are bound at the same place, or both
are not bound (innermost first). There is one exception: an optional access to the item of a loop that finds nothing is looked
up again outside (defect 3), so such a path must mean the same outside, too. -/
inductive Refers : List Bound → Str → Str → List ValueMember → Prop
  | free {a p} : Refers [] a a p
  | bound {x Γ a a' p} : x.old = some a → x.new = some a' → (x.item = true → ∀ m ∈ p, m.op = .direct) → Refers (x :: Γ) a a' p
  | twice {x Γ a a' p} : x.old = some a → x.new = some a' → Refers Γ a a' p → Refers (x :: Γ) a a' p
  | outer {x Γ a a' p} : x.old ≠ some a → x.new ≠ some a' → Refers Γ a a' p → Refers (x :: Γ) a a' p

/-- A variable and its new name, or a literal. -/
inductive RenamedBase (Γ : List Bound) : Base → Base → Prop
  | var {a a' op p} : Refers Γ a a' p → RenamedBase Γ (.var a ⟨op, .key a⟩ p) (.var a' ⟨op, .key a'⟩ p)
  /-- no variable has another name, and those bound on one side are not meant -/
  | same {a f p} : (∀ x ∈ Γ, x.old = x.new ∨ (x.old = none ∧ x.new ≠ some a)) → RenamedBase Γ (.var a f p) (.var a f p)
  | lit {v} : RenamedBase Γ (.lit v) (.lit v)

/-- Arguments with the new names. -/
inductive RenamedArgs (Γ : List Bound) : List Base → List Base → Prop
  | nil : RenamedArgs Γ [] []
  | cons {b b' bs bs'} : RenamedBase Γ b b' → RenamedArgs Γ bs bs' → RenamedArgs Γ (b :: bs) (b' :: bs')

/-- An expression with the new names. -/
inductive RenamedExpr (Γ : List Bound) : Expr → Expr → Prop
  | base {b b'} : RenamedBase Γ b b' → RenamedExpr Γ (.base b) (.base b')
  | call {g e e'} : RenamedExpr Γ e e' → RenamedExpr Γ (.call g none e) (.call g none e')
  | callArgs {g as as' e e'} : RenamedArgs Γ as as' → RenamedExpr Γ e e' → RenamedExpr Γ (.call g (some as) e) (.call g (some as') e')

/-- The variables that a loop binds; `loop` comes before the others. -/
inductive LoopBinds : Vars → Vars → List Bound → Prop
  | item {n n'} : LoopBinds (.item n) (.item n') [⟨false, some "loop".toList, some "loop".toList⟩, ⟨true, some n, some n'⟩]
  | keyValue {k k' v v'} : LoopBinds (.keyValue k v) (.keyValue k' v')
      [⟨false, some "loop".toList, some "loop".toList⟩, ⟨false, some k, some k'⟩, ⟨true, some v, some v'⟩]

mutual
/-- One statement is the other with other names for bound variables. An include that sees all variables is allowed where no variable has
another name. -/
inductive RenamedStmt : List Bound → Stmt → Stmt → Prop
  | char {Γ c} : RenamedStmt Γ (.char c) (.char c)
  | expr {Γ e e'} : RenamedExpr Γ e e' → RenamedStmt Γ (.expr e) (.expr e')
  | include_ {Γ n} : (∀ x ∈ Γ, x.old = x.new) → RenamedStmt Γ (.include_ n none) (.include_ n none)
  | includeWith {Γ n e e'} : RenamedExpr Γ e e' → RenamedStmt Γ (.include_ n (some e)) (.include_ n (some e'))
  | if_ {Γ neg c c' a a'} : RenamedExpr Γ c c' → Renamed Γ a a' → RenamedStmt Γ (.ifElse neg c a none) (.ifElse neg c' a' none)
  | ifElse {Γ neg c c' a a' b b'} : RenamedExpr Γ c c' → Renamed Γ a a' → Renamed Γ b b' →
      RenamedStmt Γ (.ifElse neg c a (some b)) (.ifElse neg c' a' (some b'))
  | for_ {Γ Δ vs vs' e e' b b'} : LoopBinds vs vs' Δ → RenamedExpr Γ e e' → Renamed (Δ ++ Γ) b b' →
      RenamedStmt Γ (.forLoop vs e b) (.forLoop vs' e' b')
  | with_ {Γ e e' n n' b b'} : RenamedExpr Γ e e' → Renamed (⟨false, some n, some n'⟩ :: Γ) b b' →
      RenamedStmt Γ (.with_ e n b) (.with_ e' n' b')
/-- The statements are the others with other names for bound variables. -/
inductive Renamed : List Bound → List Stmt → List Stmt → Prop
  | nil {Γ} : Renamed Γ [] []
  | cons {Γ s s' ss ss'} : RenamedStmt Γ s s' → Renamed Γ ss ss' → Renamed Γ (s :: ss) (s' :: ss')
end

end Upon.Plain
