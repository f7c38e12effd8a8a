import Verif.Spec.Steps
import Verif.Proofs.OwnErr
/-
One step, with regard to includes.
-/
namespace Upon
open Spec
variable {σ : Type} {cfg : RenderCfg σ}

/-- A step that executes no include. -/
inductive PlainStep (vm : VM σ) : StepRes σ → Prop
  | next {vm'} : vm'.w.asked = vm.w.asked → vm'.frames.length ≤ vm.frames.length → PlainStep vm (.next vm')
  | ok {w} : w.asked = vm.w.asked → PlainStep vm (.halt (.ok w))
  | err {e w} : w.asked = vm.w.asked → e.pretty ≠ none ∨ e.kind = .format → PlainStep vm (.halt (.err e w))
  | crash : PlainStep vm (.halt .crash)

/-- An instruction that executes no include. -/
inductive PlainOne (w : World σ) : OneStep σ → Prop
  | next {pc st ex w'} : w'.asked = w.asked → PlainOne w (.next pc st ex w')
  | err {e w'} : w'.asked = w.asked → e.pretty ≠ none ∨ e.kind = .format → PlainOne w (.err e w')
  | crash : PlainOne w .crash

theorem plain_ofRes {α : Type} {src : Str} {w w1 : World σ} (hw : w1.asked = w.asked) {r : Res α} (hr : Own cfg.env src r)
    {k : α → OneStep σ} (hk : ∀ a, r = .ok a → PlainOne w (k a)) : PlainOne w (OneStep.ofRes w1 r k) := by
  cases r with
  | ok a => exact hk a rfl
  | err e =>
    obtain ⟨_, _, _, p, _, _, hp⟩ := hr e rfl
    exact .err hw (.inl (by rw [hp]; simp))
  | crash => exact .crash

theorem plain_emit {f : Formatter} {v : Value} {src : Str} {sp : Span} {w : World σ} {k : World σ → OneStep σ}
    (hk : ∀ w', w'.asked = w.asked → PlainOne w (k w')) : PlainOne w (emit cfg f v src sp w k) := by
  rw [emit.eq_def]
  split
  · exact hk _ rfl
  · refine plain_ofRes (cfg := cfg) (src := src) ?_ (.throwAt _ _ _) (fun _ _ => .crash)
    rfl

theorem plain_exec {src : Str} {pc : Nat} {st : Stack} {ex : Option Cow} {w : World σ} {i : Instr}
    (h : ∀ n, i ≠ .include_ n) (h' : ∀ n, i = .includeWith n → ex = none) : PlainOne w (execInstr cfg src pc st ex w i) := by
  rw [execInstr.eq_def]
  cases i with
  | include_ n => exact absurd rfl (h n)
  | includeWith n => rw [h' n rfl]; exact .crash
  | jump j => exact .next rfl
  | jumpIfTrue j => cases ex with
    | none => exact .crash
    | some v => dsimp only; split <;> exact .next rfl
  | jumpIfFalse j => cases ex with
    | none => exact .crash
    | some v => dsimp only; split <;> exact .next rfl
  | emit sp => cases ex with
    | none => exact .crash
    | some v => exact plain_emit fun w hw => .next hw
  | emitRaw sp =>
    refine plain_ofRes (cfg := cfg) (src := src) rfl (.ofOption _) fun raw _ => ?_
    split
    · exact .next rfl
    · exact .err rfl (.inr rfl)
  | emitWith name sp =>
    refine plain_ofRes (cfg := cfg) (src := src) rfl (.ofOption _) fun n _ => ?_
    cases BMap.get cfg.functions n with
    | none => exact plain_ofRes (cfg := cfg) rfl (.err _ _) fun _ _ => .crash
    | some g =>
      cases g with
      | formatter f =>
        cases ex with
        | none => exact .crash
        | some v => exact plain_emit fun w hw => .next hw
      | filter f =>
        cases ex with
        | none => exact .crash
        | some v => exact plain_ofRes (cfg := cfg) rfl (own_call _ _ _ _ _) fun r _ => plain_emit fun w hw => .next hw
  | loopStart vars sp =>
    cases ex with
    | none => exact .crash
    | some v => exact plain_ofRes (cfg := cfg) rfl (own_loopNew _ _ _) fun _ _ => .next rfl
  | loopNext j =>
    dsimp only
    split
    · split <;> exact .next rfl
    · exact .crash
  | withStart name =>
    cases ex with
    | none => exact .crash
    | some v => exact .next rfl
  | withEnd =>
    dsimp only
    split
    · exact .next rfl
    · exact .crash
  | exprStart v =>
    refine plain_ofRes (cfg := cfg) rfl (own_lookupVar _ _) fun x _ => ?_
    cases ex with
    | none => exact .next rfl
    | some v => exact .crash
  | exprStartLit v =>
    cases ex with
    | none => exact .next rfl
    | some v => exact .crash
  | apply name sp args =>
    refine plain_ofRes (cfg := cfg) (src := src) rfl (.ofOption _) fun n _ => ?_
    cases BMap.get cfg.functions n with
    | none => exact plain_ofRes (cfg := cfg) rfl (.err _ _) fun _ _ => .crash
    | some g =>
      cases g with
      | formatter f => exact plain_ofRes (cfg := cfg) rfl (.err _ _) fun _ _ => .crash
      | filter f =>
        cases ex with
        | none => exact .crash
        | some v => exact plain_ofRes (cfg := cfg) rfl (own_call _ _ _ _ _) fun _ _ => .next rfl

theorem attach_pretty (e : Err) (n : Option Str) : (e.attachName n).pretty = e.pretty ∧ (e.attachName n).kind = e.kind := by
  cases n <;> exact ⟨rfl, rfl⟩

theorem plain_step {vm : VM σ} (hlen : vm.frames.length ≤ max 1 cfg.maxIncludeDepth) (h : including vm = none) :
    PlainStep vm (step cfg vm) := by
  obtain ⟨frames, st, ex, w⟩ := vm
  cases frames with
  | nil => exact .ok rfl
  | cons fr frames =>
    have hle : ¬ frames.length > cfg.maxIncludeDepth := by
      simp only [List.length_cons] at hlen
      omega
    rw [step]
    dsimp only
    cases hi : fr.tmpl.instrs[fr.pc]? with
    | none =>
      dsimp only
      split
      · split
        · split
          · rw [checkDepth, if_neg hle]; exact .next rfl (by simp)
          · exact .crash
        · rw [checkDepth, if_neg hle]; exact .next rfl (by simp)
      · exact .crash
    | some i =>
      dsimp only
      have := plain_exec (cfg := cfg) (src := fr.tmpl.source) (pc := fr.pc) (st := st) (ex := ex) (w := w) (i := i)
        (fun n e => by subst e; simp [including, hi] at h)
        (fun n e => by
          subst e
          cases ex with
          | none => rfl
          | some v => simp [including, hi] at h)
      generalize execInstr cfg fr.tmpl.source fr.pc st ex w i = o at this
      cases this with
      | next hw => exact .next hw (by simp)
      | err hw he => exact .err hw (by rw [(attach_pretty _ _).1, (attach_pretty _ _).2]; exact he)
      | crash => exact .crash

/-- The state in which the included template starts. -/
def entered (vm : VM σ) (n : AstString) (t : Template) (w : World σ) : VM σ :=
  match vm.frames with
  | [] => vm
  | fr :: frames =>
    match fr.tmpl.instrs[fr.pc]?, vm.expr with
    | some (.includeWith _), some g =>
      ⟨⟨t, some n.name, 0, true⟩ :: { fr with pc := fr.pc + 1 } :: frames, .scope g :: .boundary :: vm.stack, none, w⟩
    | _, _ => ⟨⟨t, some n.name, 0, false⟩ :: { fr with pc := fr.pc + 1 } :: frames, vm.stack, none, w⟩

theorem including_frames {vm : VM σ} {n : AstString} {src : Str} (h : including vm = some (n, src)) :
    ∃ fr frames, vm.frames = fr :: frames ∧ fr.tmpl.source = src := by
  obtain ⟨frames, st, ex, w⟩ := vm
  cases frames with
  | nil => cases h
  | cons fr frames =>
    refine ⟨fr, frames, rfl, ?_⟩
    rw [including] at h
    dsimp only at h
    split at h <;> cases h <;> rfl

theorem entered_length {vm : VM σ} {n : AstString} {src : Str} (h : including vm = some (n, src)) (t : Template) (w : World σ) :
    (entered vm n t w).frames.length = vm.frames.length + 1 ∧ (entered vm n t w).w = w := by
  obtain ⟨fr, frames, hf, _⟩ := including_frames h
  rw [entered, hf]
  dsimp only
  split <;> exact ⟨rfl, rfl⟩

/-- A step that executes an include. -/
theorem include_step {vm : VM σ} {n : AstString} {src : Str} (h : including vm = some (n, src)) (cfg : RenderCfg σ) :
    (∀ w t, getTemplate cfg src n vm.w = (w, .ok t) → step cfg vm = checkDepth cfg (entered vm n t w)) ∧
    (∀ w e, getTemplate cfg src n vm.w = (w, .err e) →
      step cfg vm = .halt (.err (e.attachName (vm.frames.head?.bind Frame.name)) w)) ∧
    (∀ w, getTemplate cfg src n vm.w = (w, .crash) → step cfg vm = .halt .crash) := by
  obtain ⟨frames, st, ex, w⟩ := vm
  cases frames with
  | nil => cases h
  | cons fr frames =>
    rw [including] at h
    dsimp only at h
    split at h
    · next i hi =>
      cases h
      refine ⟨fun w t hg => ?_, fun w e hg => ?_, fun w hg => ?_⟩
      · rw [step]; simp only [hi, execInstr, hg, entered]
      · rw [step]; simp only [hi, execInstr, hg]; rfl
      · rw [step]; simp only [hi, execInstr, hg]
    · next i g hi =>
      cases h
      refine ⟨fun w t hg => ?_, fun w e hg => ?_, fun w hg => ?_⟩
      · rw [step]; simp only [hi, execInstr, hg, entered]
      · rw [step]; simp only [hi, execInstr, hg]; rfl
      · rw [step]; simp only [hi, execInstr, hg]
    · cases h

end Upon
