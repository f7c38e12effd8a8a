import Verif.Spec.Known
/-
Vocabulary for C82: templates rendered ahead, as far as the data are known: blocks that bind variables to what is known disappear. Trees are without byte ranges (Spec/Plain).
-/
namespace Upon.Plain
open Spec

/-- What is known about a variable that the template binds. -/
inductive Local where
  /-- nothing: its block stays -/
  | stays
  /-- its value: its block disappears. `lent`: the value is part of the globals, so that filters can take it as an argument by reference -/
  | is (v : Value) (lent : Bool)

/-- The path leads to the value, nothing is missing on the way. -/
inductive Picks : Value → List ValueMember → Value → Prop
  | here {v} : Picks v [] v
  | key {m k op x p y} : BMap.get m k = some x → Picks x p y → Picks (.map m) (⟨op, .key k⟩ :: p) y
  | index {l i op x p y} : l[i]? = some x → Picks x p y → Picks (.list l) (⟨op, .index i⟩ :: p) y

/-- The value of `n.p` is known, where `ls` are the variables that the template binds, innermost first, and `g` are the globals. -/
inductive AheadVar (g : Value) (ls : List (Str × Local)) (n : Str) (p : List ValueMember) : Value → Bool → Prop
  | global {x} : ls.lookup n = none → GoesTo g (⟨.direct, .key n⟩ :: p) x → AheadVar g ls n p x true
  | local_ {v lent x} : ls.lookup n = some (.is v lent) → Picks v p x → AheadVar g ls n p x lent

/-- The values of the arguments of a filter are known, and those of parameters by reference are literals or lent. -/
inductive AheadArgs (g : Value) (ls : List (Str × Local)) : List ArgTy → List Base → List Value → Prop
  | nil : AheadArgs g ls [] [] []
  | var {t ts n p x lent bs xs} : AheadVar g ls n p x lent → (ByRef t → lent = true) → AheadArgs g ls ts bs xs →
      AheadArgs g ls (t :: ts) (.var n ⟨.direct, .key n⟩ p :: bs) (x :: xs)
  | lit {t ts x bs xs} : AheadArgs g ls ts bs xs → AheadArgs g ls (t :: ts) (.lit x :: bs) (x :: xs)

/-- The value of the expression is known: all its variables are, and so are the answers of the filters it calls. -/
inductive AheadExpr (env : Env) (fs : List (Str × EngFn)) (g : Value) (ls : List (Str × Local)) : Expr → Value → Bool → Prop
  | var {n p x lent} : AheadVar g ls n p x lent → AheadExpr env fs g ls (.base (.var n ⟨.direct, .key n⟩ p)) x lent
  | lit {x} : AheadExpr env fs g ls (.base (.lit x)) x false
  | call {n args e v lent f xs x} : AheadExpr env fs g ls e v lent → IsFilter fs n f → AheadArgs g ls f.args (args.getD []) xs → answers env f xs v = .value x →
      AheadExpr env fs g ls (.call n args e) x false

/-- The text that a tag writes is known. -/
inductive AheadTag (env : Env) (fs : List (Str × EngFn)) (f : Formatter) (g : Value) (ls : List (Str × Local)) : Expr → Str → Prop
  | value {e x lent t} : AheadExpr env fs g ls e x lent → Appends f x t → AheadTag env fs f g ls e t
  | formatter {n e x lent h t} : AheadExpr env fs g ls e x lent → BMap.get fs n = some (.formatter h) → Appends h x t → AheadTag env fs f g ls (.call n none e) t

/-- `n.p` can stay: no block that binds `n` disappears, or a block within these that binds `n` stays and the path has no `?.`. -/
inductive LeftVar (ls : List (Str × Local)) (n : Str) (p : List ValueMember) : Prop
  | never : (∀ v lent, (n, .is v lent) ∉ ls) → LeftVar ls n p
  | inside : ls.lookup n = some .stays → (∀ m ∈ p, m.op = .direct) → LeftVar ls n p

/-- All variables of an operand can stay. -/
inductive LeftBase (ls : List (Str × Local)) : Base → Prop
  | var {n p} : LeftVar ls n p → LeftBase ls (.var n ⟨.direct, .key n⟩ p)
  | lit {x} : LeftBase ls (.lit x)

/-- All variables of an expression can stay. -/
inductive LeftVars (ls : List (Str × Local)) : Expr → Prop
  | base {b} : LeftBase ls b → LeftVars ls (.base b)
  | call {n args e} : LeftVars ls e → (∀ b ∈ args.getD [], LeftBase ls b) → LeftVars ls (.call n args e)

/-- No block disappears around here. -/
def AllStay (ls : List (Str × Local)) : Prop := ∀ x ∈ ls, x.2 = .stays

/-- The expression can stay. -/
def Left (ls : List (Str × Local)) (e : Expr) : Prop := AllStay ls ∨ LeftVars ls e

/-- The variables of round `i` of a loop with `total` rounds. -/
def loopLocal (i total : Nat) : Str × Local :=
  ("loop".toList, .is (.map [("first".toList, .bool (i == 0)), ("index".toList, .integer i), ("last".toList, .bool (i + 1 == total))]) false)

/-- The second template is the first one rendered ahead, with the globals `g`, where `fs` are the functions and `f` is the default formatter. `ls` are the variables that
the template binds around here. -/
inductive Ahead (env : Env) (fs : List (Str × EngFn)) (f : Formatter) (g : Value) : List (Str × Local) → List Stmt → List Stmt → Prop
  | nil {ls} : Ahead env fs f g ls [] []
  /-- a tag is replaced by the text it writes -/
  | shown {ls e t ss ss'} : AheadTag env fs f g ls e t → Ahead env fs f g ls ss ss' → Ahead env fs f g ls (.expr e :: ss) (t.map .char ++ ss')
  /-- a condition holds -/
  | holds {ls neg c x lent a a' e ss ss'} : AheadExpr env fs g ls c x lent → truthy x ≠ neg → Ahead env fs f g ls a a' → Ahead env fs f g ls ss ss' →
      Ahead env fs f g ls (.ifElse neg c a e :: ss) (a' ++ ss')
  /-- a condition does not hold -/
  | fails {ls neg c x lent a b b' ss ss'} : AheadExpr env fs g ls c x lent → truthy x = neg → Ahead env fs f g ls b b' → Ahead env fs f g ls ss ss' →
      Ahead env fs f g ls (.ifElse neg c a (some b) :: ss) (b' ++ ss')
  | skipped {ls neg c x lent a ss ss'} : AheadExpr env fs g ls c x lent → truthy x = neg → Ahead env fs f g ls ss ss' →
      Ahead env fs f g ls (.ifElse neg c a none :: ss) ss'
  /-- the rounds of a loop over a list are written out -/
  | items {ls n e l lent body ss ss'} {rounds : Nat → List Stmt} : AheadExpr env fs g ls e (.list l) lent →
      (∀ i x, l[i]? = some x → Ahead env fs f g (loopLocal i l.length :: (n, .is x lent) :: ls) body (rounds i)) → Ahead env fs f g ls ss ss' →
      Ahead env fs f g ls (.forLoop (.item n) e body :: ss) ((List.range l.length).flatMap rounds ++ ss')
  /-- the rounds of a loop over a map are written out -/
  | entries {ls k v e m lent body ss ss'} {rounds : Nat → List Stmt} : AheadExpr env fs g ls e (.map m) lent →
      (∀ i key x, m[i]? = some (key, x) → Ahead env fs f g (loopLocal i m.length :: (k, .is (.string key) false) :: (v, .is x lent) :: ls) body (rounds i)) →
      Ahead env fs f g ls ss ss' → Ahead env fs f g ls (.forLoop (.keyValue k v) e body :: ss) ((List.range m.length).flatMap rounds ++ ss')
  /-- a name for a known value -/
  | named {ls e x lent n b b' ss ss'} : AheadExpr env fs g ls e x lent → Ahead env fs f g ((n, .is x lent) :: ls) b b' → Ahead env fs f g ls ss ss' →
      Ahead env fs f g ls (.with_ e n b :: ss) (b' ++ ss')
  /-- the rest stays, and may be rendered ahead inside -/
  | char {ls c ss ss'} : Ahead env fs f g ls ss ss' → Ahead env fs f g ls (.char c :: ss) (.char c :: ss')
  | expr {ls e ss ss'} : Left ls e → Ahead env fs f g ls ss ss' → Ahead env fs f g ls (.expr e :: ss) (.expr e :: ss')
  | include_ {ls n ss ss'} : AllStay ls → Ahead env fs f g ls ss ss' → Ahead env fs f g ls (.include_ n none :: ss) (.include_ n none :: ss')
  | includeWith {ls n e ss ss'} : Left ls e → Ahead env fs f g ls ss ss' → Ahead env fs f g ls (.include_ n (some e) :: ss) (.include_ n (some e) :: ss')
  | ifThen {ls neg c a a' ss ss'} : Left ls c → Ahead env fs f g ls a a' → Ahead env fs f g ls ss ss' →
      Ahead env fs f g ls (.ifElse neg c a none :: ss) (.ifElse neg c a' none :: ss')
  | ifElse {ls neg c a a' b b' ss ss'} : Left ls c → Ahead env fs f g ls a a' → Ahead env fs f g ls b b' → Ahead env fs f g ls ss ss' →
      Ahead env fs f g ls (.ifElse neg c a (some b) :: ss) (.ifElse neg c a' (some b') :: ss')
  | for_ {ls vs e b b' ss ss'} : Left ls e → Ahead env fs f g (vs.names.map (·, .stays) ++ ls) b b' → Ahead env fs f g ls ss ss' →
      Ahead env fs f g ls (.forLoop vs e b :: ss) (.forLoop vs e b' :: ss')
  | with_ {ls e n b b' ss ss'} : Left ls e → Ahead env fs f g ((n, .stays) :: ls) b b' → Ahead env fs f g ls ss ss' →
      Ahead env fs f g ls (.with_ e n b :: ss) (.with_ e n b' :: ss')

end Upon.Plain
