import Verif.Model.Engine
/-
Filters, formatters and value functions that are not pure: `Fn` closures with interior mutability (counters, caches, clocks, random
numbers) may answer the same call differently each time (src/filters/mod.rs:98, src/fmt.rs:83, src/lib.rs:284).
-/
namespace Upon
variable {σ : Type}

/-- What the user's functions would do at one moment: the filters and formatters of the engine (src/lib.rs:261, with the bodies
they have at that moment), its default formatter (src/lib.rs:260), and the value function of `render_from_fn` (src/lib.rs:284). -/
structure Behaviour where
  functions : BMap EngFn
  defaultFormatter : Formatter
  valueFn : ValueFn

/-- A render at a moment when the functions behave like this. -/
def RenderCfg.acting (cfg : RenderCfg σ) (b : Behaviour) : RenderCfg σ :=
  { cfg with functions := b.functions, defaultFormatter := b.defaultFormatter }

/-- The value function is the one that is on the render stack, src/render/stack.rs:49-53. -/
def SState.acting (b : Behaviour) : SState → SState
  | .valueFn _ => .valueFn b.valueFn
  | s => s

/-- The same for the render stack. -/
def VM.acting (b : Behaviour) (vm : VM σ) : VM σ := { vm with stack := vm.stack.map (SState.acting b) }

/-- Run the machine from moment `a` for at most `fuel` moments, one for each instruction (src/render/core.rs:106-265); at moment `i`
the functions do what `bs i` says. Whatever their answers depend on, in each run they are some sequence `bs`. (Simplified: if one
instruction looks up the same path twice in a value function, which only the arguments of a filter call can do, it gets the same answer.) -/
def runActing (cfg : RenderCfg σ) (bs : Nat → Behaviour) : Nat → Nat → VM σ → Option (RunRes σ)
  | 0, _, _ => none
  | fuel + 1, a, vm =>
    match step (cfg.acting (bs a)) (vm.acting (bs a)) with
    | .halt r => some r
    | .next vm' => runActing cfg bs fuel (a + 1) vm'

/-- The machine halts with the given result. -/
def HaltsActing (cfg : RenderCfg σ) (bs : Nat → Behaviour) (vm : VM σ) (r : RunRes σ) : Prop :=
  ∃ n, runActing cfg bs n 0 vm = some r

/-- Models `to_string`, src/render/mod.rs:18-23 and 156-175, with functions that act like this while it runs. -/
inductive Renderer.ToStringActing (env : Env) (r : Renderer) (bs : Nat → Behaviour) : Res Str → Prop
  | globalsErr (e) : r.base = .err e → ToStringActing env r bs (.err e)
  | globalsCrash : r.base = .crash → ToStringActing env r bs .crash
  | ok (b w) : r.base = .ok b →
      HaltsActing (r.cfg env stringSink) bs (initVM r.template r.name b []) (.ok w) → ToStringActing env r bs (.ok w.out)
  | err (b e w) : r.base = .ok b →
      HaltsActing (r.cfg env stringSink) bs (initVM r.template r.name b []) (.err e w) → ToStringActing env r bs (.err e)
  | crash (b) : r.base = .ok b →
      HaltsActing (r.cfg env stringSink) bs (initVM r.template r.name b []) .crash → ToStringActing env r bs .crash

/-- Models `to_writer`, src/render/mod.rs:25-34 and 178-198, with functions that act like this while it runs. -/
inductive Renderer.ToWriterActing {ω : Type} (env : Env) (r : Renderer) (bs : Nat → Behaviour) (io : IoWriter ω) (w₀ : ω) :
    Res Unit → ω → Prop
  | globalsErr (e) : r.base = .err e → ToWriterActing env r bs io w₀ (.err e) w₀
  | globalsCrash : r.base = .crash → ToWriterActing env r bs io w₀ .crash w₀
  | ok (b w) : r.base = .ok b →
      HaltsActing (r.cfg env (writerSink io)) bs (initVM r.template r.name b (w₀, none)) (.ok w) →
      ToWriterActing env r bs io w₀ (.ok ()) w.out.1
  | err (b e w) : r.base = .ok b →
      HaltsActing (r.cfg env (writerSink io)) bs (initVM r.template r.name b (w₀, none)) (.err e w) →
      ToWriterActing env r bs io w₀ (.err ((w.out.2.map Err.ofIo).getD e)) w.out.1
  | crash (b w) : r.base = .ok b →
      HaltsActing (r.cfg env (writerSink io)) bs (initVM r.template r.name b (w₀, none)) .crash →
      ToWriterActing env r bs io w₀ .crash w

end Upon
