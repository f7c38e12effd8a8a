import Verif.Spec.Fill
import Verif.Spec.Related
import Verif.Spec.Simplify
/-
Vocabulary for C81: templates specialised to data that are known. Trees are without byte ranges (Spec/Plain).
-/
namespace Upon.Plain
open Spec

/-- The value is known: it is that of a literal, or of a variable that the template does not bind itself here and that leads to it in the globals `g`. -/
inductive KnownBase (g : Value) (bound : List Str) : Base → Value → Prop
  | var {n p x} : n ∉ bound → GoesTo g (⟨.direct, .key n⟩ :: p) x → KnownBase g bound (.var n ⟨.direct, .key n⟩ p) x
  | lit {x} : KnownBase g bound (.lit x) x

/-- The values of the arguments are known. -/
inductive KnownArgs (g : Value) (bound : List Str) : List Base → List Value → Prop
  | nil : KnownArgs g bound [] []
  | cons {b x bs xs} : KnownBase g bound b x → KnownArgs g bound bs xs → KnownArgs g bound (b :: bs) (x :: xs)

/-- The value of the expression is known: all its variables are, and so are the answers of the filters it calls. -/
inductive KnownExpr (env : Env) (fs : List (Str × EngFn)) (g : Value) (bound : List Str) : Expr → Value → Prop
  | base {b x} : KnownBase g bound b x → KnownExpr env fs g bound (.base b) x
  | call {n args e v f xs x} : KnownExpr env fs g bound e v → IsFilter fs n f → KnownArgs g bound (args.getD []) xs → answers env f xs v = .value x →
      KnownExpr env fs g bound (.call n args e) x

/-- The text that a tag writes is known: its value is, and the formatter (the default formatter `f`, or the one that the tag names) writes this text for it. -/
inductive KnownTag (env : Env) (fs : List (Str × EngFn)) (f : Formatter) (g : Value) (bound : List Str) : Expr → Str → Prop
  | value {e x t} : KnownExpr env fs g bound e x → Appends f x t → KnownTag env fs f g bound e t
  | formatter {n e x h t} : KnownExpr env fs g bound e x → BMap.get fs n = some (.formatter h) → Appends h x t → KnownTag env fs f g bound (.call n none e) t

/-- The second template is the first one specialised to the globals `g`, where `fs` are the functions and `f` is the default formatter: tags with known values may be replaced by their
text, conditions with known values may be decided, loops over what is known to be empty may be left out. What is left out may be anything. -/
inductive Specialised (env : Env) (fs : List (Str × EngFn)) (f : Formatter) (g : Value) : List Str → List Stmt → List Stmt → Prop
  | nil {bound} : Specialised env fs f g bound [] []
  /-- a tag is replaced by the text it writes -/
  | shown {bound e t ss ss'} : KnownTag env fs f g bound e t → Specialised env fs f g bound ss ss' →
      Specialised env fs f g bound (.expr e :: ss) (t.map .char ++ ss')
  /-- a condition holds -/
  | holds {bound neg c x a a' e ss ss'} : KnownExpr env fs g bound c x → truthy x ≠ neg → Specialised env fs f g bound a a' → Specialised env fs f g bound ss ss' →
      Specialised env fs f g bound (.ifElse neg c a e :: ss) (a' ++ ss')
  /-- a condition does not hold -/
  | fails {bound neg c x a b b' ss ss'} : KnownExpr env fs g bound c x → truthy x = neg → Specialised env fs f g bound b b' → Specialised env fs f g bound ss ss' →
      Specialised env fs f g bound (.ifElse neg c a (some b) :: ss) (b' ++ ss')
  | skipped {bound neg c x a ss ss'} : KnownExpr env fs g bound c x → truthy x = neg → Specialised env fs f g bound ss ss' →
      Specialised env fs f g bound (.ifElse neg c a none :: ss) ss'
  /-- there is nothing to visit -/
  | noItems {bound n e body ss ss'} : KnownExpr env fs g bound e (.list []) → Specialised env fs f g bound ss ss' → Specialised env fs f g bound (.forLoop (.item n) e body :: ss) ss'
  | noEntries {bound k v e body ss ss'} : KnownExpr env fs g bound e (.map []) → Specialised env fs f g bound ss ss' →
      Specialised env fs f g bound (.forLoop (.keyValue k v) e body :: ss) ss'
  /-- the rest stays, and may be specialised inside -/
  | char {bound c ss ss'} : Specialised env fs f g bound ss ss' → Specialised env fs f g bound (.char c :: ss) (.char c :: ss')
  | expr {bound e ss ss'} : Specialised env fs f g bound ss ss' → Specialised env fs f g bound (.expr e :: ss) (.expr e :: ss')
  | include_ {bound n e ss ss'} : Specialised env fs f g bound ss ss' → Specialised env fs f g bound (.include_ n e :: ss) (.include_ n e :: ss')
  | ifThen {bound neg c a a' ss ss'} : Specialised env fs f g bound a a' → Specialised env fs f g bound ss ss' →
      Specialised env fs f g bound (.ifElse neg c a none :: ss) (.ifElse neg c a' none :: ss')
  | ifElse {bound neg c a a' b b' ss ss'} : Specialised env fs f g bound a a' → Specialised env fs f g bound b b' → Specialised env fs f g bound ss ss' →
      Specialised env fs f g bound (.ifElse neg c a (some b) :: ss) (.ifElse neg c a' (some b') :: ss')
  | for_ {bound vs e b b' ss ss'} : Specialised env fs f g (vs.names ++ bound) b b' → Specialised env fs f g bound ss ss' →
      Specialised env fs f g bound (.forLoop vs e b :: ss) (.forLoop vs e b' :: ss')
  | with_ {bound e n b b' ss ss'} : Specialised env fs f g (n :: bound) b b' → Specialised env fs f g bound ss ss' →
      Specialised env fs f g bound (.with_ e n b :: ss) (.with_ e n b' :: ss')

end Upon.Plain
