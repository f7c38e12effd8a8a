import Verif.Model.Engine
import Verif.Spec.Errors
import Verif.Spec.History
/-
Vocabulary for C67: engines with more functions and templates.
-/
namespace Upon.Spec

/-- The second render is the first in an engine with more functions, more templates (if they are those of the engine) and a higher limit. -/
structure Richer (r r' : Renderer) : Prop where
  template : r'.template = r.template
  name : r'.name = r.name
  globals : r'.globals = r.globals
  templateFn : r'.templateFn = r.templateFn
  formatter : r'.engine.defaultFormatter = r.engine.defaultFormatter
  functions : ∀ n f, BMap.get r.engine.functions n = some f → BMap.get r'.engine.functions n = some f
  templates : r.templateFn = none → ∀ n t, BMap.get r.engine.templates n = some t → BMap.get r'.engine.templates n = some t
  depth : r.maxIncludeDepth.getD r.engine.maxIncludeDepth ≤ r'.maxIncludeDepth.getD r'.engine.maxIncludeDepth

/-- The error says that a function or template is missing, or that the limit is too low. -/
inductive Lacking : Err → Prop
  | missing {n s p} : s ∈ ["unknown filter", "unknown filter or formatter", "unknown template"] → Lacking ⟨.render, n, some s, p⟩
  | limit {d} : Lacking (depthErr d)

/-- The call adds a function or a template under a name that is not taken, or raises the limit. -/
def Op.Adds (e : Engine) : Op → Prop
  | .addTemplate n _ => BMap.get e.templates n = none
  | .addFilter n _ => BMap.get e.functions n = none
  | .addFormatter n _ => BMap.get e.functions n = none
  | .setMaxIncludeDepth d => e.maxIncludeDepth ≤ d
  | _ => False

/-- Each of the calls (the last one first) adds something. -/
def OnlyAdds (env : Env) (e : Engine) : List Op → Prop
  | [] => True
  | op :: older => OnlyAdds env e older ∧ op.Adds (after env e older)

end Upon.Spec
