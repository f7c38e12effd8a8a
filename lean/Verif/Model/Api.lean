import Verif.Model.Engine
import Verif.Model.Ser
/-
The ways to render a template: `Template` and `TemplateRef` (src/lib.rs).
-/
namespace Upon

namespace Template

/-- Models `Template::render`, src/lib.rs:571-576, with `Renderer::with_serde`, src/render/mod.rs:95-110: the context is
serialised at once, and an error is kept until the render starts. -/
def render (t : Template) (env : Env) (engine : Engine) (ctx : SV) : Renderer := .new engine t none (.owned (ctx.toValue env))

/-- Models `Template::render_from`, src/lib.rs:584-590, with `Renderer::with_value`, src/render/mod.rs:112-119. -/
def renderFrom (t : Template) (engine : Engine) (ctx : Value) : Renderer := .new engine t none (.borrowed ctx)

/-- Models `Template::render_from_fn`, src/lib.rs:598-603, with `Renderer::with_value_fn`, src/render/mod.rs:121-128. -/
def renderFromFn (t : Template) (engine : Engine) (f : ValueFn) : Renderer := .new engine t none (.fn f)

end Template

/-- Models `struct TemplateRef`, src/lib.rs:329-334. -/
structure TemplateRef where
  engine : Engine
  name : Str
  template : Template

namespace TemplateRef

/-- Models `TemplateRef::render`, src/lib.rs:630-635. -/
def render (t : TemplateRef) (env : Env) (ctx : SV) : Renderer := .new t.engine t.template (some t.name) (.owned (ctx.toValue env))

/-- Models `TemplateRef::render_from`, src/lib.rs:643-645. -/
def renderFrom (t : TemplateRef) (ctx : Value) : Renderer := .new t.engine t.template (some t.name) (.borrowed ctx)

/-- Models `TemplateRef::render_from_fn`, src/lib.rs:653-663. -/
def renderFromFn (t : TemplateRef) (f : ValueFn) : Renderer := .new t.engine t.template (some t.name) (.fn f)

/-- Models `TemplateRef::source`, src/lib.rs:667-669. (`Template::source`, src/lib.rs:607-609, is the field.) -/
def source (t : TemplateRef) : Str := t.template.source

end TemplateRef

/-- Models the `TemplateRef` that `Engine::get_template` makes, src/lib.rs:495-503. -/
def Engine.templateRef (e : Engine) (name : Str) : Option TemplateRef := (e.getTemplate name).map fun t => ⟨e, name, t⟩

end Upon
