import Verif.Model.Render
import Verif.Model.Compiler
import Verif.Model.Parser
/-
The engine and its registries (src/lib.rs), the compile entry point (src/compile/mod.rs:22-28) and
the public rendering functions (src/render/mod.rs).
-/
namespace Upon

/-- Models `compile::template`, src/compile/mod.rs:22-28. -/
def compileSource (cx : LexCx) : Res Template := do
  let ast ← Parser.parseTemplate cx
  Res.ofOption (Compiler.compileTemplate cx.source ast)

/-- Models `struct Engine`, src/lib.rs:258-264. -/
structure Engine where
  searcher : AC.Auto
  defaultFormatter : Formatter
  functions : BMap EngFn
  templates : BMap Template
  maxIncludeDepth : Nat

/-- Models `enum EngineFn`, src/lib.rs:267-276. -/
inductive EngineFn where
  | formatter
  | filter
deriving DecidableEq, Repr

/-- Models `EngineBoxFn::discriminant`, src/lib.rs:541-549. -/
def EngFn.discriminant : EngFn → EngineFn
  | .filter _ => .filter
  | .formatter _ => .formatter

namespace Engine

/-- Models `Engine::with_syntax`, src/lib.rs:361-369; `none` is a panic in `Searcher::new`. -/
def withSyntax (env : Env) (syn : Syn) : Option Engine := do
  let a ← AC.new syn
  some ⟨a, fmtDefault env, [], [], 64⟩

/-- Models `Engine::new`, src/lib.rs:336-348 (`default` is the same). -/
def new (env : Env) : Option Engine := withSyntax env Syn.default

/-- Models `Engine::set_max_include_depth`, src/lib.rs:378-380. -/
def setMaxIncludeDepth (e : Engine) (d : Nat) : Engine := { e with maxIncludeDepth := d }

/-- Models `Engine::set_default_formatter`, src/lib.rs:389-394. -/
def setDefaultFormatter (e : Engine) (f : Formatter) : Engine := { e with defaultFormatter := f }

/-- Models `Engine::add_formatter`, src/lib.rs:407-415. -/
def addFormatter (e : Engine) (name : Str) (f : Formatter) : Engine × Option EngineFn :=
  ({ e with functions := BMap.insert e.functions name (.formatter f) },
    (BMap.get e.functions name).map EngFn.discriminant)

/-- Models `Engine::add_filter`, src/lib.rs:431-441. -/
def addFilter (e : Engine) (name : Str) (f : Filter) : Engine × Option EngineFn :=
  ({ e with functions := BMap.insert e.functions name (.filter f) },
    (BMap.get e.functions name).map EngFn.discriminant)

/-- Models `Engine::remove_function`, src/lib.rs:451-453. -/
def removeFunction (e : Engine) (name : Str) : Engine × Option EngineFn :=
  ({ e with functions := BMap.remove e.functions name },
    (BMap.get e.functions name).map EngFn.discriminant)

/-- Models `Engine::compile`, src/lib.rs:520-526. -/
def compile (e : Engine) (env : Env) (source : Str) : Res Template :=
  compileSource ⟨env, e.searcher, source⟩

/-- Models `Engine::add_template`, src/lib.rs:464-476: the engine afterwards and the result. -/
def addTemplate (e : Engine) (env : Env) (name source : Str) : Engine × Res Unit :=
  match e.compile env source with
  | .ok t => ({ e with templates := BMap.insert e.templates name t }, .ok ())
  | .err err => (e, .err (err.withTemplateName name))
  | .crash => (e, .crash)

/-- Models `Engine::get_template`, src/lib.rs:495-503. -/
def getTemplate (e : Engine) (name : Str) : Option Template := BMap.get e.templates name

/-- Models `Engine::template`, src/lib.rs:486-491: panics if there is none. -/
def template (e : Engine) (name : Str) : Res Template := Res.ofOption (e.getTemplate name)

/-- Models `Engine::remove_template`, src/lib.rs:510-512. -/
def removeTemplate (e : Engine) (name : Str) : Engine × Bool :=
  ({ e with templates := BMap.remove e.templates name }, (BMap.get e.templates name).isSome)

end Engine

/-- Models `struct Renderer` and `RendererInner`, src/render/mod.rs:46-62. -/
structure Renderer where
  globals : Globals
  engine : Engine
  template : Template
  name : Option Str
  maxIncludeDepth : Option Nat
  templateFn : Option TemplateFn

namespace Renderer

/-- Models `Renderer::new`, src/render/mod.rs:76-92, as called by `Renderer::with_serde`, `with_value` and
`with_value_fn` (src/render/mod.rs:95-128); see `Model/Api` for their callers. -/
def new (engine : Engine) (template : Template) (name : Option Str) (globals : Globals) : Renderer :=
  ⟨globals, engine, template, name, none, none⟩

/-- Models `Renderer::with_template_fn`, src/render/mod.rs:136-142. -/
def withTemplateFn (r : Renderer) (f : TemplateFn) : Renderer := { r with templateFn := some f }

/-- Models `Renderer::with_max_include_depth`, src/render/mod.rs:150-153. -/
def withMaxIncludeDepth (r : Renderer) (d : Nat) : Renderer := { r with maxIncludeDepth := some d }

/-- The fixed part of a render (src/render/core.rs:47-50 for the depth). -/
def cfg {σ : Type} (r : Renderer) (env : Env) (sink : Sink σ) : RenderCfg σ :=
  ⟨env, r.engine.defaultFormatter, r.engine.functions, r.engine.templates, r.templateFn,
    r.maxIncludeDepth.getD r.engine.maxIncludeDepth, sink⟩

/-- The bottom of the value stack: src/render/mod.rs:156-175, 182-198. -/
def base (r : Renderer) : Res SState :=
  match r.globals with
  | .owned res => do
    let v ← res
    .ok (.scope (.borrowed v))
  | .borrowed v => .ok (.scope (.borrowed v))
  | .fn f => .ok (.valueFn f)

/-- Models `to_string`, src/render/mod.rs:18-23 and 156-175: `r.ToString env res` says that the
call returns `res` (or panics, when `res` is `crash`). -/
inductive ToString (env : Env) (r : Renderer) : Res Str → Prop
  | globalsErr (e) : r.base = .err e → ToString env r (.err e)
  | globalsCrash : r.base = .crash → ToString env r .crash
  | ok (b w) : r.base = .ok b →
      Halts (r.cfg env stringSink) (initVM r.template r.name b []) (.ok w) →
      ToString env r (.ok w.out)
  | err (b e w) : r.base = .ok b →
      Halts (r.cfg env stringSink) (initVM r.template r.name b []) (.err e w) →
      ToString env r (.err e)
  | crash (b) : r.base = .ok b →
      Halts (r.cfg env stringSink) (initVM r.template r.name b []) .crash →
      ToString env r .crash

/-- Models `to_writer`, src/render/mod.rs:25-34 and 178-198: the result of the call and the final
state of the writer. An error is replaced by the stored I/O error if there is one. -/
inductive ToWriter {ω : Type} (env : Env) (r : Renderer) (io : IoWriter ω) (w₀ : ω) :
    Res Unit → ω → Prop
  | globalsErr (e) : r.base = .err e → ToWriter env r io w₀ (.err e) w₀
  | globalsCrash : r.base = .crash → ToWriter env r io w₀ .crash w₀
  | ok (b w) : r.base = .ok b →
      Halts (r.cfg env (writerSink io)) (initVM r.template r.name b (w₀, none)) (.ok w) →
      ToWriter env r io w₀ (.ok ()) w.out.1
  | err (b e w) : r.base = .ok b →
      Halts (r.cfg env (writerSink io)) (initVM r.template r.name b (w₀, none)) (.err e w) →
      ToWriter env r io w₀ (.err ((w.out.2.map Err.ofIo).getD e)) w.out.1
  | crash (b w) : r.base = .ok b →
      Halts (r.cfg env (writerSink io)) (initVM r.template r.name b (w₀, none)) .crash →
      ToWriter env r io w₀ .crash w

end Renderer
end Upon
