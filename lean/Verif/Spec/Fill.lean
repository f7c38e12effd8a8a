import Verif.Spec.Plain
import Verif.Spec.Globals
/-
Vocabulary for C79: variables replaced by literals with their values. Trees are without byte ranges (Spec/Plain).
-/
namespace Upon.Plain
open Spec

/-- Values that can be written as a literal. -/
inductive Writable : Value → Prop
  | bool {b} : Writable (.bool b)
  | integer {i} : Writable (.integer i)
  | float {f} : Writable (.float f)
  | string {s} : Writable (.string s)

/-- `n.path` and the literal with its value in the globals `g`, where `n` is not a variable that the template itself binds here. -/
inductive FilledBase (g : Value) (bound : List Str) : Base → Base → Prop
  | var {n p x} : n ∉ bound → GoesTo g (⟨.direct, .key n⟩ :: p) x → Writable x → FilledBase g bound (.var n ⟨.direct, .key n⟩ p) (.lit x)
  | same {b} : FilledBase g bound b b

/-- The arguments of a call. -/
inductive FilledArgs (g : Value) (bound : List Str) : List Base → List Base → Prop
  | nil : FilledArgs g bound [] []
  | cons {a a' as as'} : FilledBase g bound a a' → FilledArgs g bound as as' → FilledArgs g bound (a :: as) (a' :: as')

/-- An expression, some variables of which are replaced by literals. -/
inductive FilledExpr (g : Value) (bound : List Str) : Expr → Expr → Prop
  | base {b b'} : FilledBase g bound b b' → FilledExpr g bound (.base b) (.base b')
  | call {n r r'} : FilledExpr g bound r r' → FilledExpr g bound (.call n none r) (.call n none r')
  | callWith {n as as' r r'} : FilledArgs g bound as as' → FilledExpr g bound r r' → FilledExpr g bound (.call n (some as) r) (.call n (some as') r')

/-- The same for an expression whose value gets a name or is handed to an included template: there a variable that stands alone stays. -/
inductive FilledHanded (g : Value) (bound : List Str) : Expr → Expr → Prop
  | alone {b} : FilledHanded g bound (.base b) (.base b)
  | call {n as as' r r'} : FilledExpr g bound (.call n as r) (.call n as' r') → FilledHanded g bound (.call n as r) (.call n as' r')

/-- The names that a loop binds. -/
def Vars.names : Vars → List Str
  | .item n => ["loop".toList, n]
  | .keyValue k v => ["loop".toList, k, v]

/-- The same template, but some variables are replaced by literals with their values in the globals `g`. -/
inductive Filled (g : Value) : List Str → List Stmt → List Stmt → Prop
  | nil {bound} : Filled g bound [] []
  | char {bound c ss ss'} : Filled g bound ss ss' → Filled g bound (.char c :: ss) (.char c :: ss')
  | expr {bound e e' ss ss'} : FilledExpr g bound e e' → Filled g bound ss ss' → Filled g bound (.expr e :: ss) (.expr e' :: ss')
  | include_ {bound n ss ss'} : Filled g bound ss ss' → Filled g bound (.include_ n none :: ss) (.include_ n none :: ss')
  | includeWith {bound n e e' ss ss'} : FilledHanded g bound e e' → Filled g bound ss ss' →
      Filled g bound (.include_ n (some e) :: ss) (.include_ n (some e') :: ss')
  | ifThen {bound neg c c' a a' ss ss'} : FilledExpr g bound c c' → Filled g bound a a' → Filled g bound ss ss' →
      Filled g bound (.ifElse neg c a none :: ss) (.ifElse neg c' a' none :: ss')
  | ifElse {bound neg c c' a a' b b' ss ss'} : FilledExpr g bound c c' → Filled g bound a a' → Filled g bound b b' → Filled g bound ss ss' →
      Filled g bound (.ifElse neg c a (some b) :: ss) (.ifElse neg c' a' (some b') :: ss')
  | for_ {bound vs e e' b b' ss ss'} : FilledExpr g bound e e' → Filled g (vs.names ++ bound) b b' → Filled g bound ss ss' →
      Filled g bound (.forLoop vs e b :: ss) (.forLoop vs e' b' :: ss')
  | with_ {bound e e' n b b' ss ss'} : FilledHanded g bound e e' → Filled g (n :: bound) b b' → Filled g bound ss ss' →
      Filled g bound (.with_ e n b :: ss) (.with_ e' n b' :: ss')

/-- The same template, but some variables with names outside `taken` are replaced by literals with their values in the globals `g`. The template binds only names
in `taken`, and includes no template with globals of its own. -/
inductive FilledAlong (g : Value) (taken : List Str) : List Stmt → List Stmt → Prop
  | nil : FilledAlong g taken [] []
  | char {c ss ss'} : FilledAlong g taken ss ss' → FilledAlong g taken (.char c :: ss) (.char c :: ss')
  | expr {e e' ss ss'} : FilledExpr g taken e e' → FilledAlong g taken ss ss' → FilledAlong g taken (.expr e :: ss) (.expr e' :: ss')
  | include_ {n ss ss'} : FilledAlong g taken ss ss' → FilledAlong g taken (.include_ n none :: ss) (.include_ n none :: ss')
  | ifThen {neg c c' a a' ss ss'} : FilledExpr g taken c c' → FilledAlong g taken a a' → FilledAlong g taken ss ss' →
      FilledAlong g taken (.ifElse neg c a none :: ss) (.ifElse neg c' a' none :: ss')
  | ifElse {neg c c' a a' b b' ss ss'} : FilledExpr g taken c c' → FilledAlong g taken a a' → FilledAlong g taken b b' → FilledAlong g taken ss ss' →
      FilledAlong g taken (.ifElse neg c a (some b) :: ss) (.ifElse neg c' a' (some b') :: ss')
  | for_ {vs e e' b b' ss ss'} : (∀ n ∈ vs.names, n ∈ taken) → FilledExpr g taken e e' → FilledAlong g taken b b' → FilledAlong g taken ss ss' →
      FilledAlong g taken (.forLoop vs e b :: ss) (.forLoop vs e' b' :: ss')
  | with_ {e e' n b b' ss ss'} : n ∈ taken → FilledHanded g taken e e' → FilledAlong g taken b b' → FilledAlong g taken ss ss' →
      FilledAlong g taken (.with_ e n b :: ss) (.with_ e' n b' :: ss')

end Upon.Plain
