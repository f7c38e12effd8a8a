import Verif.Model.Engine
import Verif.Props.Registry
/-
A template function that answers from a registry (for C78).
-/
namespace Upon

namespace FromFn
variable {σ : Type}

/-- The same, with other requests so far. -/
def other (l : List Str) : OneStep σ → OneStep σ
  | .next pc st ex w => .next pc st ex ⟨w.out, l⟩
  | .err e w => .err e ⟨w.out, l⟩
  | s => s

theorem ofRes_other {α : Type} {o : σ} {l l' : List Str} (r : Res α) {k k' : α → OneStep σ} (h : ∀ a, k' a = other l' (k a)) :
    OneStep.ofRes ⟨o, l'⟩ r k' = other l' (OneStep.ofRes ⟨o, l⟩ r k) := by
  cases r with
  | ok a => exact h a
  | err e => rfl
  | crash => rfl

/-- Without the registry, with the function. -/
def asking (cfg : RenderCfg σ) (f : TemplateFn) : RenderCfg σ := { cfg with templateFn := some f }

variable {cfg : RenderCfg σ} {f : TemplateFn}

theorem emit_other (g : Formatter) (v : Value) (src : Str) (sp : Span) (o : σ) (l l' : List Str) {k k' : World σ → OneStep σ}
    (h : ∀ o, k' ⟨o, l'⟩ = other l' (k ⟨o, l⟩)) : emit (asking cfg f) g v src sp ⟨o, l'⟩ k' = other l' (emit cfg g v src sp ⟨o, l⟩ k) := by
  unfold emit
  show (match (g v).run cfg.sink o with | (out, .ok ()) => _ | (out, .error reason) => _) = _
  split <;> rename_i e <;> dsimp only <;> rw [e]
  · exact h _
  · exact ofRes_other _ fun _ => rfl

theorem exec_other (src : Str) (pc : Nat) (st : Stack) (ex : Option Cow) (o : σ) (l l' : List Str) (i : Instr) :
    execInstr (asking cfg f) src pc st ex ⟨o, l'⟩ i = other l' (execInstr cfg src pc st ex ⟨o, l⟩ i) := by
  cases i with
  | jump => rfl
  | jumpIfTrue =>
    cases ex with
    | none => rfl
    | some v => simp only [execInstr]; split <;> rfl
  | jumpIfFalse =>
    cases ex with
    | none => rfl
    | some v => simp only [execInstr]; split <;> rfl
  | emit =>
    cases ex with
    | none => rfl
    | some v => simp only [execInstr]; exact emit_other _ _ _ _ _ _ _ fun _ => rfl
  | emitRaw =>
    simp only [execInstr]
    refine ofRes_other _ fun raw => ?_
    show (match cfg.sink.write o raw with | (out, true) => _ | (out, false) => _) = _
    split <;> rename_i e <;> rw [e] <;> rfl
  | emitWith =>
    simp only [execInstr]
    refine ofRes_other _ fun raw => ?_
    rw [show (asking cfg f).functions = cfg.functions from rfl]
    cases BMap.get cfg.functions raw with
    | none => exact ofRes_other _ fun _ => rfl
    | some g =>
      cases g with
      | filter g =>
        cases ex with
        | none => rfl
        | some v => exact ofRes_other _ fun r => emit_other _ _ _ _ _ l l' fun _ => rfl
      | formatter g =>
        cases ex with
        | none => rfl
        | some v => exact emit_other _ _ _ _ _ l l' fun _ => rfl
  | loopStart =>
    cases ex with
    | none => rfl
    | some v => simp only [execInstr]; exact ofRes_other _ fun _ => rfl
  | loopNext =>
    simp only [execInstr]
    split
    · split <;> rfl
    · rfl
  | withStart => cases ex <;> rfl
  | withEnd => simp only [execInstr]; split <;> rfl
  | include_ => rfl
  | includeWith => cases ex <;> rfl
  | exprStart => simp only [execInstr]; exact ofRes_other _ fun _ => by cases ex <;> rfl
  | exprStartLit => cases ex <;> rfl
  | apply =>
    simp only [execInstr]
    refine ofRes_other _ fun raw => ?_
    rw [show (asking cfg f).functions = cfg.functions from rfl]
    cases BMap.get cfg.functions raw with
    | none => exact ofRes_other _ fun _ => rfl
    | some g =>
      cases g with
      | filter g =>
        cases ex with
        | none => rfl
        | some v => exact ofRes_other _ fun r => rfl
      | formatter g => exact ofRes_other _ fun _ => rfl

/-- The same state but for the requests so far. -/
def SameVM (a b : VM σ) : Prop := a.frames = b.frames ∧ a.stack = b.stack ∧ a.expr = b.expr ∧ a.w.out = b.w.out

/-- The same end but for the requests. -/
inductive SameRun : RunRes σ → RunRes σ → Prop
  | ok {o l l'} : SameRun (.ok ⟨o, l⟩) (.ok ⟨o, l'⟩)
  | err {e o l l'} : SameRun (.err e ⟨o, l⟩) (.err e ⟨o, l'⟩)
  | crash : SameRun .crash .crash

/-- The same step but for the requests. -/
inductive SameStep : StepRes σ → StepRes σ → Prop
  | next {a b} : SameVM a b → SameStep (.next a) (.next b)
  | halt {a b} : SameRun a b → SameStep (.halt a) (.halt b)

theorem depth_same {a b : VM σ} (h : SameVM a b) : SameStep (checkDepth cfg a) (checkDepth (asking cfg f) b) := by
  obtain ⟨fr, st, ex, ⟨o, l⟩⟩ := a
  obtain ⟨fr', st', ex', ⟨o', l'⟩⟩ := b
  obtain ⟨rfl, rfl, rfl, h⟩ := h
  dsimp only at h
  subst h
  unfold checkDepth
  show SameStep (if fr.length > cfg.maxIncludeDepth then _ else _) (if fr.length > cfg.maxIncludeDepth then _ else _)
  split
  · exact .halt .err
  · exact .next ⟨rfl, rfl, rfl, rfl⟩

/-- The answers are those of the registry. -/
def Reads (f : TemplateFn) (templates : BMap Template) : Prop :=
  ∀ asked n, f asked n = match BMap.get templates n with
    | some t => .ok t
    | none => .error "unknown template"

theorem template_same (hn : cfg.templateFn = none) (hf : Reads f cfg.templates) (src : Str) (n : AstString) (o : σ) (l l' : List Str) :
    getTemplate (asking cfg f) src n ⟨o, l'⟩ = (⟨o, n.name :: l'⟩, (getTemplate cfg src n ⟨o, l⟩).2) ∧ (getTemplate cfg src n ⟨o, l⟩).1 = ⟨o, l⟩ := by
  unfold getTemplate
  rw [hn]
  refine ⟨?_, rfl⟩
  show ((⟨o, n.name :: l'⟩ : World σ), _) = _
  congr 1
  dsimp only
  rw [hf]
  cases BMap.get cfg.templates n.name <;> rfl

theorem step_same (hn : cfg.templateFn = none) (hf : Reads f cfg.templates) {a b : VM σ} (h : SameVM a b) : SameStep (step cfg a) (step (asking cfg f) b) := by
  obtain ⟨frs, st, ex, ⟨o, l⟩⟩ := a
  obtain ⟨frs', st', ex', ⟨o', l'⟩⟩ := b
  obtain ⟨rfl, rfl, rfl, h⟩ := h
  dsimp only at h
  subst h
  unfold step
  dsimp only
  cases frs with
  | nil => exact .halt .ok
  | cons fr frs =>
    dsimp only
    cases fr.tmpl.instrs[fr.pc]? with
    | none =>
      dsimp only
      split
      · split
        · split
          · exact depth_same ⟨rfl, rfl, rfl, rfl⟩
          · exact .halt .crash
        · exact depth_same ⟨rfl, rfl, rfl, rfl⟩
      · exact .halt .crash
    | some i =>
      dsimp only
      rw [exec_other (l := l)]
      cases execInstr cfg fr.tmpl.source fr.pc st ex ⟨o, l⟩ i with
      | next pc st ex w => exact .next ⟨rfl, rfl, rfl, rfl⟩
      | err e w => exact .halt .err
      | crash => exact .halt .crash
      | include_ pc name =>
        obtain ⟨h1, h2⟩ := template_same hn hf fr.tmpl.source name o l l'
        dsimp only [other]
        rw [h1]
        generalize getTemplate cfg fr.tmpl.source name ⟨o, l⟩ = p at h2
        obtain ⟨w, r⟩ := p
        dsimp only at h2
        subst h2
        cases r with
        | ok t => exact depth_same ⟨rfl, rfl, rfl, rfl⟩
        | err e => exact .halt .err
        | crash => exact .halt .crash
      | includeWith pc name g =>
        obtain ⟨h1, h2⟩ := template_same hn hf fr.tmpl.source name o l l'
        dsimp only [other]
        rw [h1]
        generalize getTemplate cfg fr.tmpl.source name ⟨o, l⟩ = p at h2
        obtain ⟨w, r⟩ := p
        dsimp only at h2
        subst h2
        cases r with
        | ok t => exact depth_same ⟨rfl, rfl, rfl, rfl⟩
        | err e => exact .halt .err
        | crash => exact .halt .crash

theorem run_same (hn : cfg.templateFn = none) (hf : Reads f cfg.templates) {a b : VM σ} (h : SameVM a b) (n : Nat) :
    (run cfg n a = none ∧ run (asking cfg f) n b = none) ∨ ∃ x y, run cfg n a = some x ∧ run (asking cfg f) n b = some y ∧ SameRun x y := by
  induction n generalizing a b with
  | zero => exact .inl ⟨rfl, rfl⟩
  | succ n ih =>
    rw [run, run]
    have := step_same hn hf h
    generalize step cfg a = p, step (asking cfg f) b = q at this
    cases this with
    | next h => exact ih h
    | halt h => exact .inr ⟨_, _, rfl, rfl, h⟩

theorem halts_same (hn : cfg.templateFn = none) (hf : Reads f cfg.templates) {a b : VM σ} (h : SameVM a b) {x : RunRes σ} (hx : Halts cfg a x) :
    ∃ y, Halts (asking cfg f) b y ∧ SameRun x y := by
  obtain ⟨n, hx⟩ := hx
  rcases run_same hn hf h n with ⟨h1, h2⟩ | ⟨x', y, h1, h2, h3⟩
  · rw [hx] at h1; cases h1
  · rw [hx] at h1; cases h1
    exact ⟨y, ⟨n, h2⟩, h3⟩

theorem halts_same' (hn : cfg.templateFn = none) (hf : Reads f cfg.templates) {a b : VM σ} (h : SameVM a b) {y : RunRes σ} (hy : Halts (asking cfg f) b y) :
    ∃ x, Halts cfg a x ∧ SameRun x y := by
  obtain ⟨n, hy⟩ := hy
  rcases run_same hn hf h n with ⟨h1, h2⟩ | ⟨x, y', h1, h2, h3⟩
  · rw [hy] at h2; cases h2
  · rw [hy] at h2; cases h2
    exact ⟨x, ⟨n, h1⟩, h3⟩

end FromFn
end Upon
