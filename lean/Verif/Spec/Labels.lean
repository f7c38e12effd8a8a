import Verif.Spec.Plain
/-
Vocabulary for C70: other names for filters, formatters, templates and variables.
-/
namespace Upon
open Spec

/-- New names. The name `loop` has a meaning of its own, so it is kept. -/
structure Spec.Labels where
  /-- for filters and formatters -/
  function : Str → Str
  /-- for templates -/
  template : Str → Str
  /-- for variables -/
  variable_ : Str → Str
  distinct : ∀ a b, variable_ a = variable_ b → a = b
  loop : variable_ "loop".toList = "loop".toList

namespace Plain

/-- The first step of a path is the name of the variable. -/
def newFirst (L : Labels) (m : ValueMember) : ValueMember :=
  ⟨m.op, match m.access with | .index i => .index i | .key k => .key (L.variable_ k)⟩

/-- A variable gets its new name; the keys after it are keys of values and stay. -/
def newBase (L : Labels) : Base → Base
  | .var n first rest => .var (L.variable_ n) (newFirst L first) rest
  | .lit v => .lit v

/-- A call gets the new name of the filter or formatter. -/
def newExpr (L : Labels) : Expr → Expr
  | .base b => .base (newBase L b)
  | .call n args recv => .call (L.function n) (args.map fun a => a.map (newBase L)) (newExpr L recv)

/-- New names for the variables of a loop. -/
def newVars (L : Labels) : Vars → Vars
  | .item n => .item (L.variable_ n)
  | .keyValue k v => .keyValue (L.variable_ k) (L.variable_ v)

mutual
/-- A statement with the new names. -/
def newStmt (L : Labels) : Stmt → Stmt
  | .char c => .char c
  | .expr e => .expr (newExpr L e)
  | .include_ n none => .include_ (L.template n) none
  | .include_ n (some e) => .include_ (L.template n) (some (newExpr L e))
  | .ifElse neg c t none => .ifElse neg (newExpr L c) (newStmts L t) none
  | .ifElse neg c t (some e) => .ifElse neg (newExpr L c) (newStmts L t) (some (newStmts L e))
  | .forLoop vs e b => .forLoop (newVars L vs) (newExpr L e) (newStmts L b)
  | .with_ e n b => .with_ (newExpr L e) (L.variable_ n) (newStmts L b)
/-- Statements with the new names. -/
def newStmts (L : Labels) : List Stmt → List Stmt
  | [] => []
  | s :: ss => newStmt L s :: newStmts L ss
end

mutual
/-- No `include … with` (which makes the keys of a value the variables of a template). -/
def Stmt.NoScope : Stmt → Prop
  | .include_ _ (some _) => False
  | .ifElse _ _ t none => NoScopes t
  | .ifElse _ _ t (some e) => NoScopes t ∧ NoScopes e
  | .forLoop _ _ b => NoScopes b
  | .with_ _ _ b => NoScopes b
  | _ => True
/-- … in any of the statements. -/
def NoScopes : List Stmt → Prop
  | [] => True
  | s :: ss => s.NoScope ∧ NoScopes ss
end

end Plain

/-- The globals, with their top-level names changed. -/
inductive Spec.NewGlobals (L : Labels) : Globals → Globals → Prop
  | borrowed {m m'} : (∀ n, BMap.get m' (L.variable_ n) = BMap.get m n) → NewGlobals L (.borrowed (.map m)) (.borrowed (.map m'))
  | owned {m m'} : (∀ n, BMap.get m' (L.variable_ n) = BMap.get m n) → NewGlobals L (.owned (.ok (.map m))) (.owned (.ok (.map m')))
  | fn {f f' : ValueFn} : (∀ first rest, f' (Plain.newFirst L first :: rest) = f (first :: rest)) → NewGlobals L (.fn f) (.fn f')
  /-- values that are not maps, if variables keep their names -/
  | borrowedSame {v} : (∀ n, L.variable_ n = n) → NewGlobals L (.borrowed v) (.borrowed v)
  | ownedSame {v} : (∀ n, L.variable_ n = n) → NewGlobals L (.owned (.ok v)) (.owned (.ok v))

/-- The error names the template by its new name. -/
def Spec.newError (L : Labels) (e : Err) : Err := { e with name := e.name.map L.template }

/-- The result, with the new name in an error. -/
def Spec.NewName {α : Type} (L : Labels) : Res α → Res α
  | .ok a => .ok a
  | .err e => .err (newError L e)
  | .crash => .crash

end Upon
