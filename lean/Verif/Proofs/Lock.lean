import Verif.Model.Engine
import Verif.Proofs.SimStmt
/-
Two renders that differ only in their sinks.
-/
namespace Upon
open Spec
variable {σ τ : Type}

/-- The same configuration with another sink. -/
def RenderCfg.on (cfg : RenderCfg σ) (sink : Sink τ) : RenderCfg τ :=
  ⟨cfg.env, cfg.defaultFormatter, cfg.functions, cfg.templates, cfg.templateFn, cfg.maxIncludeDepth, sink⟩

/-- The formatters a render may use. -/
def Used (cfg : RenderCfg σ) (f : Formatter) : Prop :=
  f = cfg.defaultFormatter ∨ ∃ n, BMap.get cfg.functions n = some (.formatter f)

/-- `R` relates the sinks as long as both work; `B` once the second has failed. -/
structure Lock (cfg : RenderCfg σ) (sink : Sink τ) (R B : σ → τ → Prop) : Prop where
  raw : ∀ a b t, R a b →
    ((cfg.sink.write a t).2 = (sink.write b t).2 ∧ R (cfg.sink.write a t).1 (sink.write b t).1) ∨
    ((sink.write b t).2 = false ∧ B (cfg.sink.write a t).1 (sink.write b t).1)
  fmt : ∀ f v a b, Used cfg f → R a b →
    (((f v).run cfg.sink a).2 = ((f v).run sink b).2 ∧ R ((f v).run cfg.sink a).1 ((f v).run sink b).1) ∨
    ((∃ e, ((f v).run sink b).2 = .error e) ∧ B ((f v).run cfg.sink a).1 ((f v).run sink b).1)
  mono : ∀ a b t, B a b → B (cfg.sink.write a t).1 b

/-- Related worlds. -/
structure WRel (R : σ → τ → Prop) (w : World σ) (w' : World τ) : Prop where
  out : R w.out w'.out
  asked : w.asked = w'.asked

/-- Related results of an instruction. -/
inductive OneRel (R B : σ → τ → Prop) : OneStep σ → OneStep τ → Prop
  | next {pc st x w w'} : WRel R w w' → OneRel R B (.next pc st x w) (.next pc st x w')
  | include_ {pc n} : OneRel R B (.include_ pc n) (.include_ pc n)
  | includeWith {pc n c} : OneRel R B (.includeWith pc n c) (.includeWith pc n c)
  | err {e w w'} : WRel R w w' → OneRel R B (.err e w) (.err e w')
  | crash : OneRel R B .crash .crash
  | brokenNext {pc st x w e w'} : B w.out w'.out → OneRel R B (.next pc st x w) (.err e w')
  | brokenErr {e0 w e w'} : B w.out w'.out → OneRel R B (.err e0 w) (.err e w')

theorem oneRel_ofRes {α : Type} {R B : σ → τ → Prop} {w : World σ} {w' : World τ} (h : WRel R w w') (r : Res α)
    {k : α → OneStep σ} {k' : α → OneStep τ} (hk : ∀ a, OneRel R B (k a) (k' a)) :
    OneRel R B (OneStep.ofRes w r k) (OneStep.ofRes w' r k') := by
  cases r with
  | ok a => exact hk a
  | err e => exact .err h
  | crash => exact .crash

/-- The spans at which the renderer reports formatting failures can be shown. Needed because building
the report is done only by the render that fails. -/
def Showable (env : Env) (src : Str) (sp : Span) : Prop := (Pretty.build env src sp).isSome = true

theorem oneRel_emit {cfg : RenderCfg σ} {sink : Sink τ} {R B : σ → τ → Prop} (L : Lock cfg sink R B) {f : Formatter}
    (hf : Used cfg f) (v : Value) (src : Str) (sp : Span)
    (hs : (∃ a b, B a b) → Showable cfg.env src sp) {w : World σ} {w' : World τ}
    (h : WRel R w w') {pc : Nat} {st : Stack} {x : Option Cow} :
    OneRel R B (emit cfg f v src sp w (fun w => .next pc st x w))
      (emit (cfg.on sink) f v src sp w' (fun w => .next pc st x w)) := by
  unfold emit
  have key := L.fmt f v w.out w'.out hf h.out
  show OneRel R B (match (f v).run cfg.sink w.out with
    | (out, .ok ()) => _
    | (out, .error reason) => _) (match (f v).run sink w'.out with
    | (out, .ok ()) => _
    | (out, .error reason) => _)
  generalize (f v).run cfg.sink w.out = p at key
  generalize (f v).run sink w'.out = p' at key
  obtain ⟨a, r⟩ := p
  obtain ⟨b, r'⟩ := p'
  dsimp only at key
  rcases key with ⟨rfl, hR⟩ | ⟨⟨e, rfl⟩, hB⟩
  · cases r with
    | ok u => exact .next ⟨hR, h.asked⟩
    | error e => exact oneRel_ofRes (w := { w with out := a }) (w' := { w' with out := b }) ⟨hR, h.asked⟩ _ fun _ => .crash
  · obtain ⟨pr, hp⟩ := Option.isSome_iff_exists.mp (hs ⟨_, _, hB⟩)
    dsimp only
    have h1 : (throwAt (cfg.on sink).env .format e src sp : Res Unit) = .err ⟨.format, none, e, some pr⟩ := by
      rw [show (cfg.on sink).env = cfg.env from rfl, throwAt, hp]
    rw [h1]
    cases r with
    | ok u => exact .brokenNext hB
    | error e0 =>
      dsimp only
      have h2 : (throwAt cfg.env .format e0 src sp : Res Unit) = .err ⟨.format, none, e0, some pr⟩ := by rw [throwAt, hp]
      rw [h2]
      exact .brokenErr hB

/-- The places an instruction may report a formatting failure at can be shown. -/
def InstrShow (env : Env) (src : Str) : Instr → Prop
  | .emit sp => Showable env src sp
  | .emitWith name sp => Showable env src name.span ∧ Showable env src sp
  | _ => True

/-- The same for a template. -/
def TemplateShow (env : Env) (t : Template) : Prop := ∀ i ∈ t.instrs, InstrShow env t.source i

theorem oneRel_exec {cfg : RenderCfg σ} {sink : Sink τ} {R B : σ → τ → Prop} (L : Lock cfg sink R B) (src : Str) (pc : Nat)
    (st : Stack) (x : Option Cow) {w : World σ} {w' : World τ} (h : WRel R w w') (i : Instr)
    (hs : (∃ a b, B a b) → InstrShow cfg.env src i) :
    OneRel R B (execInstr cfg src pc st x w i) (execInstr (cfg.on sink) src pc st x w' i) := by
  cases i with
  | jump j => exact .next h
  | jumpIfTrue j =>
    cases x with
    | none => exact .crash
    | some v => dsimp only [execInstr]; split <;> exact .next h
  | jumpIfFalse j =>
    cases x with
    | none => exact .crash
    | some v => dsimp only [execInstr]; split <;> exact .next h
  | emit sp =>
    cases x with
    | none => exact .crash
    | some v => exact oneRel_emit L (.inl rfl) v.val src sp hs h
  | emitRaw sp =>
    refine oneRel_ofRes h _ fun t => ?_
    have key := L.raw w.out w'.out t h.out
    show OneRel R B (match cfg.sink.write w.out t with
      | (out, true) => _
      | (out, false) => _) (match sink.write w'.out t with
      | (out, true) => _
      | (out, false) => _)
    generalize cfg.sink.write w.out t = p at key
    generalize sink.write w'.out t = p' at key
    obtain ⟨a, r⟩ := p
    obtain ⟨b, r'⟩ := p'
    dsimp only at key
    rcases key with ⟨rfl, hR⟩ | ⟨rfl, hB⟩
    · cases r with
      | true => exact OneRel.next (w := { w with out := a }) (w' := { w' with out := b }) ⟨hR, h.asked⟩
      | false => exact OneRel.err (w := { w with out := a }) (w' := { w' with out := b }) ⟨hR, h.asked⟩
    · cases r with
      | true => exact .brokenNext hB
      | false => exact .brokenErr hB
  | emitWith name sp =>
    refine oneRel_ofRes h _ fun n => ?_
    show OneRel R B (match BMap.get cfg.functions n with
      | some (.filter f) => _
      | some (.formatter f) => _
      | none => _) (match BMap.get cfg.functions n with
      | some (.filter f) => _
      | some (.formatter f) => _
      | none => _)
    cases hg : BMap.get cfg.functions n with
    | none => exact oneRel_ofRes h _ fun _ => .crash
    | some f =>
      cases f with
      | filter f =>
        cases x with
        | none => exact .crash
        | some v =>
          exact oneRel_ofRes h _ fun r => oneRel_emit L (.inl rfl) r src sp (fun hb => (hs hb).2) h
      | formatter f =>
        cases x with
        | none => exact .crash
        | some v => exact oneRel_emit L (.inr ⟨n, hg⟩) v.val src name.span (fun hb => (hs hb).1) h
  | loopStart vars sp =>
    cases x with
    | none => exact .crash
    | some v => exact oneRel_ofRes h _ fun _ => .next h
  | loopNext j =>
    cases st with
    | nil => exact .crash
    | cons s st =>
      cases s with
      | loop ls =>
        dsimp only [execInstr]
        cases ls.iterate <;> exact .next h
      | _ => exact .crash
  | withStart name =>
    cases x with
    | none => exact .crash
    | some v => exact .next h
  | withEnd =>
    cases st with
    | nil => exact .crash
    | cons s st =>
      cases s with
      | var _ _ => exact .next h
      | _ => exact .crash
  | include_ n => exact .include_
  | includeWith n =>
    cases x with
    | none => exact .crash
    | some v => exact .includeWith
  | exprStart v =>
    refine oneRel_ofRes h _ fun c => ?_
    cases x with
    | none => exact .next h
    | some v => exact .crash
  | exprStartLit v =>
    cases x with
    | none => exact .next h
    | some v => exact .crash
  | apply name sp args =>
    refine oneRel_ofRes h _ fun n => ?_
    show OneRel R B (match BMap.get cfg.functions n with
      | some (.filter f) => _
      | some (.formatter f) => _
      | none => _) (match BMap.get cfg.functions n with
      | some (.filter f) => _
      | some (.formatter f) => _
      | none => _)
    cases hg : BMap.get cfg.functions n with
    | none => exact oneRel_ofRes h _ fun _ => .crash
    | some f =>
      cases f with
      | filter f =>
        cases x with
        | none => exact .crash
        | some v => exact oneRel_ofRes h _ fun r => .next h
      | formatter f => exact oneRel_ofRes h _ fun _ => .crash

/-- Related machine states. -/
structure VRel (R : σ → τ → Prop) (vm : VM σ) (vm' : VM τ) : Prop where
  frames : vm.frames = vm'.frames
  stack : vm.stack = vm'.stack
  expr : vm.expr = vm'.expr
  w : WRel R vm.w vm'.w

/-- Related results of a render. -/
inductive RunRel (R B : σ → τ → Prop) : RunRes σ → RunRes τ → Prop
  | ok {w w'} : WRel R w w' → RunRel R B (.ok w) (.ok w')
  | err {e w w'} : WRel R w w' → RunRel R B (.err e w) (.err e w')
  | crash : RunRel R B .crash .crash
  | broken {r e w'} : (∃ a, B a w'.out) → (∀ w, r = .ok w ∨ (∃ e, r = .err e w) → B w.out w'.out) → RunRel R B r (.err e w')

/-- Related results of a step. -/
inductive SRel (R B : σ → τ → Prop) : StepRes σ → StepRes τ → Prop
  | next {vm vm'} : VRel R vm vm' → SRel R B (.next vm) (.next vm')
  | halt {r r'} : RunRel R B r r' → SRel R B (.halt r) (.halt r')
  | broken {vm e w'} : B vm.w.out w'.out → SRel R B (.next vm) (.halt (.err e w'))

theorem srel_check {cfg : RenderCfg σ} {sink : Sink τ} {R B : σ → τ → Prop} {vm : VM σ} {vm' : VM τ} (h : VRel R vm vm') :
    SRel R B (checkDepth cfg vm) (checkDepth (cfg.on sink) vm') := by
  unfold checkDepth
  rw [show (cfg.on sink).maxIncludeDepth = cfg.maxIncludeDepth from rfl, h.frames]
  split
  · exact .halt (.err h.w)
  · exact .next h

theorem getTemplate_rel {cfg : RenderCfg σ} (sink : Sink τ) (src : Str) (n : AstString) {R : σ → τ → Prop} {w : World σ}
    {w' : World τ} (h : WRel R w w') :
    (getTemplate cfg src n w).2 = (getTemplate (cfg.on sink) src n w').2 ∧
      WRel R (getTemplate cfg src n w).1 (getTemplate (cfg.on sink) src n w').1 := by
  unfold getTemplate
  dsimp only [RenderCfg.on]
  cases cfg.templateFn with
  | none => exact ⟨rfl, h⟩
  | some f => dsimp only; rw [h.asked]; exact ⟨rfl, h.out, by dsimp only⟩

/-- The frames can report formatting failures. -/
def FramesShow (env : Env) (fs : List Frame) : Prop := ∀ f ∈ fs, TemplateShow env f.tmpl

theorem step_rel {cfg : RenderCfg σ} {sink : Sink τ} {R B : σ → τ → Prop} (L : Lock cfg sink R B) {vm : VM σ} {vm' : VM τ}
    (h : VRel R vm vm') (hs : (∃ a b, B a b) → FramesShow cfg.env vm.frames) :
    SRel R B (step cfg vm) (step (cfg.on sink) vm') := by
  obtain ⟨frames, stack, expr, w⟩ := vm
  obtain ⟨frames', stack', expr', w'⟩ := vm'
  obtain ⟨h1, h2, h3, hw⟩ := h
  dsimp only at h1 h2 h3 hw hs
  subst h1 h2 h3
  unfold step
  cases frames with
  | nil => exact .halt (.ok hw)
  | cons fr frames =>
    dsimp only
    cases hi : fr.tmpl.instrs[fr.pc]? with
    | none =>
      dsimp only
      split
      · split
        · split
          · exact srel_check ⟨rfl, rfl, rfl, hw⟩
          · exact .halt .crash
        · exact srel_check ⟨rfl, rfl, rfl, hw⟩
      · exact .halt .crash
    | some i =>
      have key := oneRel_exec L fr.tmpl.source fr.pc stack expr hw i fun hb =>
        hs hb fr List.mem_cons_self i (List.mem_of_getElem? hi)
      dsimp only
      generalize execInstr cfg fr.tmpl.source fr.pc stack expr w i = a at key
      generalize execInstr (cfg.on sink) fr.tmpl.source fr.pc stack expr w' i = b at key
      cases key with
      | next hw' => exact .next ⟨rfl, rfl, rfl, hw'⟩
      | err hw' => exact .halt (.err hw')
      | crash => exact .halt .crash
      | brokenNext hb => exact .broken hb
      | brokenErr hb =>
        refine .halt (.broken ⟨_, hb⟩ fun w h => ?_)
        rcases h with h | ⟨e, h⟩
        · cases h
        · cases h; exact hb
      | @include_ pc n =>
        have g := getTemplate_rel (cfg := cfg) sink fr.tmpl.source n hw
        dsimp only
        generalize getTemplate cfg fr.tmpl.source n w = p at g
        generalize getTemplate (cfg.on sink) fr.tmpl.source n w' = p' at g
        obtain ⟨a, r⟩ := p
        obtain ⟨b, r'⟩ := p'
        obtain ⟨g1, g2⟩ := g
        dsimp only at g1 g2
        subst g1
        cases r with
        | ok t => exact srel_check ⟨rfl, rfl, rfl, g2⟩
        | err e => exact .halt (.err g2)
        | crash => exact .halt .crash
      | @includeWith pc n c =>
        have g := getTemplate_rel (cfg := cfg) sink fr.tmpl.source n hw
        dsimp only
        generalize getTemplate cfg fr.tmpl.source n w = p at g
        generalize getTemplate (cfg.on sink) fr.tmpl.source n w' = p' at g
        obtain ⟨a, r⟩ := p
        obtain ⟨b, r'⟩ := p'
        obtain ⟨g1, g2⟩ := g
        dsimp only at g1 g2
        subst g1
        cases r with
        | ok t => exact srel_check ⟨rfl, rfl, rfl, g2⟩
        | err e => exact .halt (.err g2)
        | crash => exact .halt .crash


/-! Whole runs -/

theorem fmt_mono {cfg : RenderCfg σ} {P : σ → Prop} (hP : ∀ a t, P a → P (cfg.sink.write a t).1) (p : FmtProg) (a : σ)
    (h : P a) : P (p.run cfg.sink a).1 := by
  induction p generalizing a with
  | done r => exact h
  | write s k ih => exact ih _ _ (hP a s h)

/-- A property of the sink that writes keep is kept by a step. -/
def StepHas (P : σ → Prop) : StepRes σ → Prop
  | .next vm => P vm.w.out
  | .halt r => ∀ w, r = .ok w ∨ (∃ e, r = .err e w) → P w.out

/-- The same for an instruction. -/
def OneHas (P : σ → Prop) : OneStep σ → Prop
  | .next _ _ _ w => P w.out
  | .err _ w => P w.out
  | _ => True

theorem oneHas_ofRes {α : Type} {P : σ → Prop} {w : World σ} (h : P w.out) (r : Res α) {k : α → OneStep σ}
    (hk : ∀ a, OneHas P (k a)) : OneHas P (OneStep.ofRes w r k) := by
  cases r with
  | ok a => exact hk a
  | err e => exact h
  | crash => trivial

theorem oneHas_emit {cfg : RenderCfg σ} {P : σ → Prop} (hP : ∀ a t, P a → P (cfg.sink.write a t).1) (f : Formatter)
    (v : Value) (src : Str) (sp : Span) {w : World σ} (h : P w.out) {pc : Nat} {st : Stack} {x : Option Cow} :
    OneHas P (emit cfg f v src sp w (fun w => .next pc st x w)) := by
  unfold emit
  have key := fmt_mono hP (f v) w.out h
  generalize (f v).run cfg.sink w.out = p at key
  obtain ⟨a, r⟩ := p
  cases r with
  | ok u => exact key
  | error e => exact oneHas_ofRes (w := { w with out := a }) key _ fun _ => trivial

theorem exec_has {cfg : RenderCfg σ} {P : σ → Prop} (hP : ∀ a t, P a → P (cfg.sink.write a t).1) (src : Str) (pc : Nat)
    (st : Stack) (x : Option Cow) {w : World σ} (h : P w.out) (i : Instr) :
    OneHas P (execInstr cfg src pc st x w i) := by
  cases i with
  | jump j => exact h
  | jumpIfTrue j =>
    cases x with
    | none => trivial
    | some v => dsimp only [execInstr]; split <;> exact h
  | jumpIfFalse j =>
    cases x with
    | none => trivial
    | some v => dsimp only [execInstr]; split <;> exact h
  | emit sp =>
    cases x with
    | none => trivial
    | some v => exact oneHas_emit hP _ v.val src sp h
  | emitRaw sp =>
    refine oneHas_ofRes h _ fun t => ?_
    have key := hP w.out t h
    generalize cfg.sink.write w.out t = p at key
    obtain ⟨a, r⟩ := p
    cases r <;> exact key
  | emitWith name sp =>
    refine oneHas_ofRes h _ fun n => ?_
    cases hg : BMap.get cfg.functions n with
    | none => exact oneHas_ofRes h _ fun _ => trivial
    | some f =>
      cases f with
      | filter f =>
        cases x with
        | none => trivial
        | some v => exact oneHas_ofRes h _ fun r => oneHas_emit hP _ r src sp h
      | formatter f =>
        cases x with
        | none => trivial
        | some v => exact oneHas_emit hP _ v.val src name.span h
  | loopStart vars sp =>
    cases x with
    | none => trivial
    | some v => exact oneHas_ofRes h _ fun _ => h
  | loopNext j =>
    cases st with
    | nil => trivial
    | cons s st =>
      cases s with
      | loop ls =>
        dsimp only [execInstr]
        cases ls.iterate <;> exact h
      | _ => trivial
  | withStart name =>
    cases x with
    | none => trivial
    | some v => exact h
  | withEnd =>
    cases st with
    | nil => trivial
    | cons s st =>
      cases s with
      | var _ _ => exact h
      | _ => trivial
  | include_ n => trivial
  | includeWith n =>
    cases x with
    | none => trivial
    | some v => trivial
  | exprStart v =>
    refine oneHas_ofRes h _ fun c => ?_
    cases x with
    | none => exact h
    | some v => trivial
  | exprStartLit v =>
    cases x with
    | none => exact h
    | some v => trivial
  | apply name sp args =>
    refine oneHas_ofRes h _ fun n => ?_
    cases hg : BMap.get cfg.functions n with
    | none => exact oneHas_ofRes h _ fun _ => trivial
    | some f =>
      cases f with
      | filter f =>
        cases x with
        | none => trivial
        | some v => exact oneHas_ofRes h _ fun r => h
      | formatter f => exact oneHas_ofRes h _ fun _ => trivial

theorem check_has {cfg : RenderCfg σ} {P : σ → Prop} {vm : VM σ} (h : P vm.w.out) : StepHas P (checkDepth cfg vm) := by
  unfold checkDepth
  split
  · intro w hw
    rcases hw with hw | ⟨e, hw⟩
    · cases hw
    · cases hw; exact h
  · exact h

theorem getTemplate_out (cfg : RenderCfg σ) (src : Str) (n : AstString) (w : World σ) :
    (getTemplate cfg src n w).1.out = w.out := by
  unfold getTemplate; split <;> rfl

theorem halt_err_has {P : σ → Prop} {e : Err} {w : World σ} (h : P w.out) : StepHas P (.halt (.err e w)) := by
  intro w' hw
  rcases hw with hw | ⟨e, hw⟩
  · cases hw
  · cases hw; exact h

theorem halt_crash_has {P : σ → Prop} : StepHas P (.halt .crash) := by
  intro w' hw
  rcases hw with hw | ⟨e, hw⟩ <;> cases hw

theorem step_has {cfg : RenderCfg σ} {P : σ → Prop} (hP : ∀ a t, P a → P (cfg.sink.write a t).1) {vm : VM σ}
    (h : P vm.w.out) : StepHas P (step cfg vm) := by
  obtain ⟨frames, stack, expr, w⟩ := vm
  dsimp only at h
  unfold step
  cases frames with
  | nil =>
    intro w' hw
    rcases hw with hw | ⟨e, hw⟩
    · cases hw; exact h
    · cases hw
  | cons fr frames =>
    dsimp only
    cases hi : fr.tmpl.instrs[fr.pc]? with
    | none =>
      dsimp only
      split
      · split
        · split
          · exact check_has h
          · exact halt_crash_has
        · exact check_has h
      · exact halt_crash_has
    | some i =>
      have key := exec_has hP fr.tmpl.source fr.pc stack expr h i
      dsimp only
      generalize execInstr cfg fr.tmpl.source fr.pc stack expr w i = a at key
      cases a with
      | next => exact key
      | err => exact halt_err_has key
      | crash => exact halt_crash_has
      | include_ pc n =>
        have g := getTemplate_out cfg fr.tmpl.source n w
        dsimp only
        generalize getTemplate cfg fr.tmpl.source n w = p at g
        obtain ⟨b, r⟩ := p
        dsimp only at g
        rw [← g] at h
        cases r with
        | ok t => exact check_has h
        | err e => exact halt_err_has h
        | crash => exact halt_crash_has
      | includeWith pc n c =>
        have g := getTemplate_out cfg fr.tmpl.source n w
        dsimp only
        generalize getTemplate cfg fr.tmpl.source n w = p at g
        obtain ⟨b, r⟩ := p
        dsimp only at g
        rw [← g] at h
        cases r with
        | ok t => exact check_has h
        | err e => exact halt_err_has h
        | crash => exact halt_crash_has

/-- A property of the sink that writes keep holds at the end of a run if it holds at the start. -/
theorem halts_has {cfg : RenderCfg σ} {P : σ → Prop} (hP : ∀ a t, P a → P (cfg.sink.write a t).1) {vm : VM σ}
    (h : P vm.w.out) {r : RunRes σ} (hr : Halts cfg vm r) : ∀ w, r = .ok w ∨ (∃ e, r = .err e w) → P w.out := by
  obtain ⟨n, hr⟩ := hr
  induction n generalizing vm with
  | zero => cases hr
  | succ n ih =>
    rw [run] at hr
    have key := step_has (cfg := cfg) hP h
    cases hst : step cfg vm with
    | next vm' => rw [hst] at hr key; exact ih key hr
    | halt r' => rw [hst] at hr key; cases hr; exact key

theorem step_frames {cfg : RenderCfg σ} {P : Template → Prop} (hi : ∀ t, Includable cfg t → P t) {vm vm' : VM σ}
    (h : ∀ f ∈ vm.frames, P f.tmpl) (hst : step cfg vm = .next vm') : ∀ f ∈ vm'.frames, P f.tmpl := by
  obtain ⟨frames, stack, expr, w⟩ := vm
  dsimp only at h
  have chk : ∀ v : VM σ, checkDepth cfg v = .next vm' → v = vm' := by
    intro v hv
    unfold checkDepth at hv
    split at hv
    · cases hv
    · cases hv; rfl
  unfold step at hst
  cases frames with
  | nil => cases hst
  | cons fr frames =>
    have h0 := h fr List.mem_cons_self
    have h1 : ∀ f ∈ frames, P f.tmpl := fun f hf => h f (List.mem_cons_of_mem _ hf)
    dsimp only at hst
    cases hi' : fr.tmpl.instrs[fr.pc]? with
    | none =>
      rw [hi'] at hst
      dsimp only at hst
      split at hst
      · split at hst
        · split at hst
          · rw [← chk _ hst]; exact h1
          · cases hst
        · rw [← chk _ hst]; exact h1
      · cases hst
    | some i =>
      rw [hi'] at hst
      dsimp only at hst
      have inc : ∀ n b t, getTemplate cfg fr.tmpl.source n w = (b, .ok t) → P t := by
        intro n b t g
        apply hi
        unfold getTemplate at g
        unfold Includable
        cases ht : cfg.templateFn with
        | some f =>
          rw [ht] at g
          dsimp only at g ⊢
          cases hf : f w.asked n.name with
          | ok t' => rw [hf] at g; cases g; exact ⟨_, _, hf⟩
          | error e =>
            rw [hf] at g
            have := congrArg Prod.snd g
            dsimp only [errRender, throwAt] at this
            split at this <;> cases this
        | none =>
          rw [ht] at g
          dsimp only at g ⊢
          cases hf : BMap.get cfg.templates n.name with
          | some t' => rw [hf] at g; cases g; exact ⟨_, hf⟩
          | none =>
            rw [hf] at g
            have := congrArg Prod.snd g
            dsimp only [errRender, throwAt] at this
            split at this <;> cases this
      generalize execInstr cfg fr.tmpl.source fr.pc stack expr w i = a at hst
      cases a with
      | next pc st x w' =>
        cases hst
        intro f hf
        rcases List.mem_cons.mp hf with rfl | hf
        · exact h0
        · exact h1 f hf
      | err => cases hst
      | crash => cases hst
      | include_ pc n =>
        have g := inc n
        dsimp only at hst
        generalize getTemplate cfg fr.tmpl.source n w = p at g hst
        obtain ⟨b, r⟩ := p
        cases r with
        | ok t =>
          rw [← chk _ hst]
          intro f hf
          rcases List.mem_cons.mp hf with rfl | hf
          · exact g b t rfl
          · rcases List.mem_cons.mp hf with rfl | hf
            · exact h0
            · exact h1 f hf
        | err e => cases hst
        | crash => cases hst
      | includeWith pc n c =>
        have g := inc n
        dsimp only at hst
        generalize getTemplate cfg fr.tmpl.source n w = p at g hst
        obtain ⟨b, r⟩ := p
        cases r with
        | ok t =>
          rw [← chk _ hst]
          intro f hf
          rcases List.mem_cons.mp hf with rfl | hf
          · exact g b t rfl
          · rcases List.mem_cons.mp hf with rfl | hf
            · exact h0
            · exact h1 f hf
        | err e => cases hst
        | crash => cases hst

/-- Renders that differ in their sinks end in a related way. -/
theorem halts_rel {cfg : RenderCfg σ} {sink : Sink τ} {R B : σ → τ → Prop} (L : Lock cfg sink R B) {vm : VM σ} {vm' : VM τ}
    (h : VRel R vm vm')
    (hs : (∃ a b, B a b) → FramesShow cfg.env vm.frames ∧ ∀ t, Includable cfg t → TemplateShow cfg.env t)
    {r : RunRes σ} (hr : Halts cfg vm r) : ∃ r', Halts (cfg.on sink) vm' r' ∧ RunRel R B r r' := by
  obtain ⟨n, hr⟩ := hr
  induction n generalizing vm vm' with
  | zero => cases hr
  | succ n ih =>
    rw [run] at hr
    have key := step_rel L h fun hb => (hs hb).1
    cases hst : step cfg vm with
    | next vm1 =>
      rw [hst] at hr key
      generalize hst' : step (cfg.on sink) vm' = x at key
      cases key with
      | @next _ vm1' hv =>
        obtain ⟨r', ⟨k, hk⟩, hrel⟩ := ih hv (fun hb => ⟨step_frames (hs hb).2 (hs hb).1 hst, (hs hb).2⟩) hr
        exact ⟨r', ⟨k + 1, by rw [run, hst']; exact hk⟩, hrel⟩
      | broken hb =>
        refine ⟨_, ⟨1, by rw [run, hst']⟩, .broken ⟨_, hb⟩ ?_⟩
        exact halts_has (cfg := cfg) (P := fun a => B a _) (fun a t h => L.mono a _ t h) hb ⟨n, hr⟩
    | halt r0 =>
      rw [hst] at hr key
      cases hr
      generalize hst' : step (cfg.on sink) vm' = x at key
      cases key with
      | halt hrel => exact ⟨_, ⟨1, by rw [run, hst']⟩, hrel⟩

end Upon
