import Verif.Model.Engine
/-
Several renders at once, in threads. An `Engine` can be shared by threads: its functions are `Send + Sync`
(src/fmt.rs:83, src/filters/mod.rs:98, src/lib.rs:391,410,434) and a `Renderer` only borrows it (src/render/mod.rs:48-62).
-/
namespace Upon
variable {σ ω : Type}

/-- A render that goes on, is inside a formatter, which has still to do `p`, or has ended. -/
inductive Job (σ : Type) where
  | running (cfg : RenderCfg σ) (vm : VM σ)
  | writing (cfg : RenderCfg σ) (vm : VM σ) (p : FmtProg) (span : Span)
  | done (r : RunRes σ)

/-- If the next instruction calls a formatter, src/render/core.rs:127-131 and 140-166: what the formatter does with the value, and
the span to report if it fails. -/
def printing (cfg : RenderCfg σ) (vm : VM σ) : Option (FmtProg × Span) :=
  match vm.frames with
  | [] => none
  | fr :: _ =>
    match fr.tmpl.instrs[fr.pc]?, vm.expr with
    | some (.emit span), some v => some (cfg.defaultFormatter v.val, span)
    | some (.emitWith name span), some v =>
      match name.span.of fr.tmpl.source with
      | none => none
      | some nameRaw =>
        match BMap.get cfg.functions nameRaw with
        | some (.filter f) =>
          match enrich cfg.env fr.tmpl.source name.span (callFilter cfg.env f fr.tmpl.source vm.stack name v []) with
          | .ok r => some (cfg.defaultFormatter r, span)
          | _ => none
        | some (.formatter f) => some (f v.val, name.span)
        | none => none
    | _, _ => none

namespace Job

/-- A call of `to_string` or `to_writer` that is about to start, src/render/mod.rs:154-198. -/
def start (env : Env) (sink : Sink σ) (r : Renderer) (out : σ) : Job σ :=
  match r.base with
  | .ok b => .running (r.cfg env sink) (initVM r.template r.name b out)
  | .err e => .done (.err e ⟨out, []⟩)
  | .crash => .done .crash

/-- The formatter has returned, src/render/core.rs:129-130, 157-158, 164-165, and the loop goes on, src/render/core.rs:264. -/
def returns (s : σ) (cfg : RenderCfg σ) (vm : VM σ) (span : Span) (r : Except (Option String) Unit) : Job σ :=
  match vm.frames with
  | [] => .done .crash
  | fr :: frames =>
    match r with
    | .ok () => .running cfg ⟨{ fr with pc := fr.pc + 1 } :: frames, vm.stack, none, { vm.w with out := s }⟩
    | .error reason =>
      match (throwAt cfg.env .format reason fr.tmpl.source span : Res Unit) with
      | .err e => .done (.err (e.attachName fr.name) { vm.w with out := s })
      | _ => .done .crash

/-- The render takes a turn, at a time when the outputs are in state `s`: it calls a formatter, or the formatter that it has called
writes once or returns, or it executes an instruction that calls no formatter, src/render/core.rs:106-265, and so writes at most once.
(Simplified: one `write_str` happens at once.) -/
def turn (s : σ) : Job σ → σ × Job σ
  | .done r => (s, .done r)
  | .writing cfg vm (.write t k) span => ((cfg.sink.write s t).1, .writing cfg vm (k (cfg.sink.write s t).2) span)
  | .writing cfg vm (.done r) span => (s, returns s cfg vm span r)
  | .running cfg vm =>
    match printing cfg vm with
    | some (p, span) => (s, .writing cfg vm p span)
    | none =>
      match step cfg { vm with w := { vm.w with out := s } } with
      | .next vm => (vm.w.out, .running cfg vm)
      | .halt (.ok w) => (w.out, .done (.ok w))
      | .halt (.err e w) => (w.out, .done (.err e w))
      | .halt .crash => (s, .done .crash)

end Job

/-- Renders in threads, and the outputs they write to. -/
structure Threads (σ : Type) where
  out : σ
  jobs : List (Job σ)

namespace Threads

/-- Start a render in each thread: thread `i` writes to the outputs by `sink i`. -/
def start (env : Env) (sink : Nat → Sink σ) (rs : List Renderer) (out : σ) : Threads σ :=
  ⟨out, rs.mapIdx fun i r => .start env (sink i) r out⟩

/-- Thread `i` takes a turn. -/
def turn (t : Threads σ) (i : Nat) : Threads σ :=
  match t.jobs[i]? with
  | none => t
  | some j => ⟨(j.turn t.out).1, t.jobs.set i (j.turn t.out).2⟩

/-- The threads take turns. -/
def run (t : Threads σ) (schedule : List Nat) : Threads σ := schedule.foldl turn t

end Threads

/-- Replace one of the outputs. -/
def setAt {τ : Type} (f : Nat → τ) (i : Nat) (x : τ) : Nat → τ := fun j => if j = i then x else f j

/-- Each thread has an output of its own: its string (src/render/mod.rs:18-23) or its writer (src/render/mod.rs:25-34). -/
def ownSink {τ : Type} (s : Nat → Sink τ) (i : Nat) : Sink (Nat → τ) where
  write f t := (setAt f i ((s i).write (f i) t).1, ((s i).write (f i) t).2)

/-- The state of a writer that the threads share: the writer, who wrote what, and the error that each thread's `Writer` has
stored (src/fmt.rs:97-100). -/
structure Shared (ω : Type) where
  writer : ω
  wrote : List (Nat × List UInt8)
  err : Nat → Option Nat

/-- All threads write to the same writer (such as `&File` or `Stdout`), each through a `Writer` of its own, src/fmt.rs:180-201. -/
def sharedSink (io : IoWriter ω) (i : Nat) : Sink (Shared ω) where
  write s t :=
    match io.writeAll s.writer (utf8 t) with
    | (w, none) => (⟨w, s.wrote ++ [(i, utf8 t)], s.err⟩, true)
    | (w, some e) => (⟨w, s.wrote ++ [(i, utf8 t)], setAt s.err i (some e)⟩, false)

end Upon
