import Verif.Model.Engine
import Verif.Spec.Search
import Verif.Spec.Lexing
/-
Histories of an engine (C28, C29, C35, C40).
-/
namespace Upon.Spec

/-- A call that may change an engine. -/
inductive Op where
  | addTemplate (name source : Str)
  | removeTemplate (name : Str)
  | addFilter (name : Str) (f : Filter)
  | addFormatter (name : Str) (f : Formatter)
  | removeFunction (name : Str)
  | setDefaultFormatter (f : Formatter)
  | setMaxIncludeDepth (d : Nat)

/-- The engine after a call. -/
def Op.apply (env : Env) (e : Engine) : Op → Engine
  | .addTemplate name src => (e.addTemplate env name src).1
  | .removeTemplate name => (e.removeTemplate name).1
  | .addFilter name f => (e.addFilter name f).1
  | .addFormatter name f => (e.addFormatter name f).1
  | .removeFunction name => (e.removeFunction name).1
  | .setDefaultFormatter f => e.setDefaultFormatter f
  | .setMaxIncludeDepth d => e.setMaxIncludeDepth d

/-- The engine after a history of calls, the most recent call first. -/
def after (env : Env) (e : Engine) : List Op → Engine
  | [] => e
  | op :: older => op.apply env (after env e older)

/-- A fresh engine, made with the syntax the builder describes. -/
structure Fresh (env : Env) (b : SyntaxBuilder) (e : Engine) : Prop where
  built : Built b
  made : Engine.withSyntax env b.build = some e

end Upon.Spec
