import Verif.Model.Filter
import Verif.Model.Fmt
/-
The renderer: src/render/core.rs and src/render/mod.rs.

The two nested loops `render` (core.rs:44-95) and `render_one` (core.rs:97-269) are modelled as
one machine whose state contains the template stack, the value stack, the expression being
built, and the outside world (the output sink and the calls made to a custom template function).
-/
namespace Upon

/-- Models `enum EngineBoxFn`, src/lib.rs:278-282. -/
inductive EngFn where
  | formatter (f : Formatter)
  | filter (f : Filter)

/-- Models `TemplateFn`, src/render/mod.rs:36: a `FnMut`, i.e. its answer may depend on the names it
was asked for before (given most recent first). -/
abbrev TemplateFn := List Str → Str → Except String Template

/-- What the renderer reads: the parts of the engine (src/lib.rs:258-264) and of `RendererInner`
(src/render/mod.rs:56-62) that stay fixed during a render. -/
structure RenderCfg (σ : Type) where
  env : Env
  defaultFormatter : Formatter
  functions : BMap EngFn
  templates : BMap Template
  templateFn : Option TemplateFn
  maxIncludeDepth : Nat
  sink : Sink σ

/-- The outside world: the sink and the names passed to the template function so far (most recent
first). -/
structure World (σ : Type) where
  out : σ
  asked : List Str

/-- One entry of `templates`, src/render/core.rs:45. -/
structure Frame where
  tmpl : Template
  name : Option Str
  pc : Nat
  hasScope : Bool

/-- The machine state. -/
structure VM (σ : Type) where
  frames : List Frame
  stack : Stack
  expr : Option Cow
  w : World σ

/-- How a whole render ends. `crash` is a panic. -/
inductive RunRes (σ : Type) where
  | ok (w : World σ)
  | err (e : Err) (w : World σ)
  | crash

/-- The effect of one instruction, i.e. of one iteration of the loop of `render_one`,
src/render/core.rs:106-265. -/
inductive OneStep (σ : Type) where
  | next (pc : Nat) (stack : Stack) (expr : Option Cow) (w : World σ)
  | include_ (pc : Nat) (name : AstString)
  | includeWith (pc : Nat) (name : AstString) (globals : Cow)
  | err (e : Err) (w : World σ)
  | crash

variable {σ : Type}

/-- Lift a result of an instruction that does not touch the world. -/
def OneStep.ofRes {α : Type} (w : World σ) (r : Res α) (k : α → OneStep σ) : OneStep σ :=
  match r with
  | .ok a => k a
  | .err e => .err e w
  | .crash => .crash

/-- Apply a formatter to a value; on failure the error `Error::format(err, source, span)`
(src/error.rs:117-124) is returned. Models src/render/core.rs:129-130, 157-158, 164-165. -/
def emit (cfg : RenderCfg σ) (f : Formatter) (v : Value) (source : Str) (span : Span)
    (w : World σ) (k : World σ → OneStep σ) : OneStep σ :=
  match (f v).run cfg.sink w.out with
  | (out, .ok ()) => k { w with out }
  | (out, .error reason) =>
    OneStep.ofRes (α := Unit) { w with out } (throwAt cfg.env .format reason source span)
      (fun _ => .crash)

/-- Models the loop body of `render_one`, src/render/core.rs:106-265; `expr.take().unwrap()` on
`None` is a panic. -/
def execInstr (cfg : RenderCfg σ) (source : Str) (pc : Nat) (stack : Stack) (expr : Option Cow)
    (w : World σ) : Instr → OneStep σ
  | .jump j => .next j stack expr w
  | .jumpIfTrue j =>
    match expr with
    | none => .crash
    | some v => if v.val.asBool then .next j stack none w else .next (pc + 1) stack none w
  | .jumpIfFalse j =>
    match expr with
    | none => .crash
    | some v => if !v.val.asBool then .next j stack none w else .next (pc + 1) stack none w
  | .emit span =>
    match expr with
    | none => .crash
    | some v => emit cfg cfg.defaultFormatter v.val source span w
        (fun w => .next (pc + 1) stack none w)
  | .emitRaw span =>
    OneStep.ofRes w (Res.ofOption (span.of source)) fun raw =>
      match cfg.sink.write w.out raw with
      | (out, true) => .next (pc + 1) stack expr { w with out }
      | (out, false) => .err Err.ofFmt { w with out }
  | .emitWith name span =>
    OneStep.ofRes w (Res.ofOption (name.span.of source)) fun nameRaw =>
      match BMap.get cfg.functions nameRaw with
      | some (.filter f) =>
        match expr with
        | none => .crash
        | some v =>
          OneStep.ofRes w
            (enrich cfg.env source name.span (callFilter cfg.env f source stack name v []))
            fun r => emit cfg cfg.defaultFormatter r source span w
              (fun w => .next (pc + 1) stack none w)
      | some (.formatter f) =>
        match expr with
        | none => .crash
        | some v => emit cfg f v.val source name.span w (fun w => .next (pc + 1) stack none w)
      | none =>
        OneStep.ofRes (α := Unit) w (errRender cfg.env "unknown filter or formatter" source name.span)
          (fun _ => .crash)
  | .loopStart vars span =>
    match expr with
    | none => .crash
    | some v =>
      OneStep.ofRes w (LoopState.new cfg.env source vars v span) fun ls =>
        .next (pc + 1) (.loop ls :: stack) none w
  | .loopNext j =>
    -- `last_loop_state_mut` (stack.rs:114-119) and `pop_loop_state` (stack.rs:135-140)
    match stack with
    | .loop ls :: rest =>
      match ls.iterate with
      | some ls' => .next (pc + 1) (.loop ls' :: rest) expr w
      | none => .next j rest expr w
    | _ => .crash
  | .withStart name =>
    match expr with
    | none => .crash
    | some v => .next (pc + 1) (.var name v :: stack) none w
  | .withEnd =>
    -- `pop_var` (stack.rs:128-133)
    match stack with
    | .var _ _ :: rest => .next (pc + 1) rest expr w
    | _ => .crash
  | .include_ name => .include_ (pc + 1) name
  | .includeWith name =>
    match expr with
    | none => .crash
    | some g => .includeWith (pc + 1) name g
  | .exprStart v =>
    -- `debug_assert!(prev.is_none())`, core.rs:219: counted as a panic although only debug builds check it
    OneStep.ofRes w (lookupVar cfg.env source stack v) fun x =>
      match expr with
      | none => .next (pc + 1) stack (some x) w
      | some _ => .crash
  | .exprStartLit v =>
    -- the same at core.rs:224
    match expr with
    | none => .next (pc + 1) stack (some (.owned v)) w
    | some _ => .crash
  | .apply name _ args =>
    OneStep.ofRes w (Res.ofOption (name.span.of source)) fun nameRaw =>
      match BMap.get cfg.functions nameRaw with
      | some (.filter f) =>
        match expr with
        | none => .crash
        | some v =>
          OneStep.ofRes w
            (enrich cfg.env source name.span
              (callFilter cfg.env f source stack name v ((args.map Args.values).getD [])))
            fun r => .next (pc + 1) stack (some (.owned r)) w
      | some (.formatter _) =>
        OneStep.ofRes (α := Unit) w
          (errRender cfg.env "expected filter, found formatter" source name.span) (fun _ => .crash)
      | none =>
        OneStep.ofRes (α := Unit) w (errRender cfg.env "unknown filter" source name.span)
          (fun _ => .crash)

/-- Models `get_template`, src/render/core.rs:271-287: the answer and the new world. -/
def getTemplate (cfg : RenderCfg σ) (source : Str) (name : AstString) (w : World σ) :
    World σ × Res Template :=
  match cfg.templateFn with
  | some f =>
    ({ w with asked := name.name :: w.asked },
      match f w.asked name.name with
      | .ok t => .ok t
      | .error e => errRender cfg.env e source name.span)
  | none =>
    (w,
      match BMap.get cfg.templates name.name with
      | some t => .ok t
      | none => errRender cfg.env "unknown template" source name.span)

/-- What one machine step leads to. -/
inductive StepRes (σ : Type) where
  | next (vm : VM σ)
  | halt (r : RunRes σ)

/-- The check after each `render_one`, src/render/core.rs:89-91, and back to the loop head. A new
`render_one` starts with no expression (core.rs:104). -/
def checkDepth (cfg : RenderCfg σ) (vm : VM σ) : StepRes σ :=
  if vm.frames.length > cfg.maxIncludeDepth then
    .halt (.err (Err.maxIncludeDepth cfg.maxIncludeDepth) vm.w)
  else .next vm

/-- One step: an iteration of `render_one`, or its return and what `render` does with it,
src/render/core.rs:52-95. -/
def step (cfg : RenderCfg σ) (vm : VM σ) : StepRes σ :=
  match vm.frames with
  | [] => .halt (.ok vm.w)
  | fr :: frames =>
    match fr.tmpl.instrs[fr.pc]? with
    | none =>
      -- the loop ends; `assert!(*pc == t.instrs.len())`, core.rs:267
      if fr.pc = fr.tmpl.instrs.length then
        if fr.hasScope then
          -- `pop_scope`, `pop_boundary` (stack.rs:121-126, 142-147)
          match vm.stack with
          | .scope _ :: .boundary :: stack => checkDepth cfg ⟨frames, stack, none, vm.w⟩
          | _ => .halt .crash
        else checkDepth cfg ⟨frames, vm.stack, none, vm.w⟩
      else .halt .crash
    | some instr =>
      match execInstr cfg fr.tmpl.source fr.pc vm.stack vm.expr vm.w instr with
      | .next pc stack expr w => .next ⟨{ fr with pc } :: frames, stack, expr, w⟩
      | .err e w => .halt (.err (e.attachName fr.name) w)
      | .crash => .halt .crash
      | .include_ pc name =>
        match getTemplate cfg fr.tmpl.source name vm.w with
        | (w, .ok t) =>
          checkDepth cfg
            ⟨⟨t, some name.name, 0, false⟩ :: { fr with pc } :: frames, vm.stack, none, w⟩
        | (w, .err e) => .halt (.err (e.attachName fr.name) w)
        | (_, .crash) => .halt .crash
      | .includeWith pc name globals =>
        match getTemplate cfg fr.tmpl.source name vm.w with
        | (w, .ok t) =>
          checkDepth cfg
            ⟨⟨t, some name.name, 0, true⟩ :: { fr with pc } :: frames,
              .scope globals :: .boundary :: vm.stack, none, w⟩
        | (w, .err e) => .halt (.err (e.attachName fr.name) w)
        | (_, .crash) => .halt .crash

/-- Run the machine for at most `fuel` steps; `none` means it has not halted yet. -/
def run (cfg : RenderCfg σ) : Nat → VM σ → Option (RunRes σ)
  | 0, _ => none
  | fuel + 1, vm =>
    match step cfg vm with
    | .halt r => some r
    | .next vm' => run cfg fuel vm'

/-- The machine halts with the given result, after some number of steps. -/
def Halts (cfg : RenderCfg σ) (vm : VM σ) (r : RunRes σ) : Prop := ∃ n, run cfg n vm = some r

/-- Models `enum Globals`, src/render/mod.rs:51-55. -/
inductive Globals where
  | owned (r : Res Value)
  | borrowed (v : Value)
  | fn (f : ValueFn)

/-- The initial state of `RendererImpl::render`, src/render/core.rs:45, with the stack made by
`Stack::new` / `Stack::with_value_fn` (src/render/stack.rs:43-53). -/
def initVM (tmpl : Template) (name : Option Str) (base : SState) (out : σ) : VM σ :=
  ⟨[⟨tmpl, name, 0, false⟩], [base], none, ⟨out, []⟩⟩

end Upon
