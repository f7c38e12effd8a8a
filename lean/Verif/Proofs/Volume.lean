import Verif.Spec.Cost
import Verif.Proofs.SameOn
/-
How much a render writes (for C60).
-/
namespace Upon
open Spec Compiler
variable {σ : Type} {env : Env} {src : Str} {P : Value → Prop} {cfg : RenderCfg σ} {μ : σ → Nat}

namespace Vals

/-- A measure of what was written to a sink: a write adds at most its length. -/
def Meters (sink : Sink σ) (μ : σ → Nat) : Prop := ∀ s t, μ (sink.write s t).1 ≤ μ s + blen t

theorem fmt_volume {sink : Sink σ} (hμ : Meters sink μ) {L : Nat} {p : FmtProg} (h : WritesAtMost L p) : ∀ s, μ (p.run sink s).1 ≤ μ s + L := by
  induction h with
  | done r => intro s; exact Nat.le_add_right _ _
  | @write L t k _ ih =>
    intro s
    rw [FmtProg.run]
    exact Nat.le_trans (ih _ _) (by have := hμ s t; omega)

/-- What an instruction leaves behind is at most `B`. -/
def OneBy (μ : σ → Nat) (B : Nat) : OneStep σ → Prop
  | .next _ _ _ w => μ w.out ≤ B
  | .err _ w => μ w.out ≤ B
  | _ => True

theorem by_ofRes {α : Type} {B : Nat} {w : World σ} (hw : μ w.out ≤ B) {r : Res α} {k : α → OneStep σ} (h : ∀ a, r = .ok a → OneBy μ B (k a)) :
    OneBy μ B (OneStep.ofRes w r k) := by
  cases r with
  | ok a => exact h a rfl
  | err e => exact hw
  | crash => trivial

theorem by_emit (hμ : Meters cfg.sink μ) {L B : Nat} {f : Formatter} {v : Value} (hf : WritesAtMost L (f v)) {sp : Span} {w : World σ} (hB : μ w.out + L ≤ B)
    {pc : Nat} {st : Stack} : OneBy μ B (emit cfg f v src sp w (fun w => .next pc st none w)) := by
  have := fmt_volume hμ hf w.out
  rw [emit.eq_def]
  split
  · rename_i out h
    rw [h] at this
    exact Nat.le_trans this hB
  · rename_i out _ h
    rw [h] at this
    exact by_ofRes (Nat.le_trans this hB) fun _ _ => trivial

theorem of_volume {sp : Span} {t : Str} (h : sp.of src = some t) : blen t ≤ blen src := by
  obtain ⟨a, b, rfl, _⟩ := slice_eq_some.mp h
  simp only [blen_append]
  omega

theorem exec_volume (hP : Hereditary P) (hμ : Meters cfg.sink μ) {L K : Nat} (hd : ∀ v, P v → WritesAtMost L (cfg.defaultFormatter v))
    (hn : ∀ n f, BMap.get cfg.functions n = some (.formatter f) → ∀ v, P v → WritesAtMost L (f v)) (hLK : L ≤ K) (hsrc : blen src ≤ K)
    (hfs : FiltersKeep P cfg.functions) {st : Stack} (h : StackOf P st) {ex : Option Cow} (hex : ∀ c, ex = some c → P c.val) (pc : Nat) (w : World σ)
    (i : Instr) : OneBy μ (μ w.out + K) (execInstr cfg src pc st ex w i) := by
  have h0 : μ w.out ≤ μ w.out + K := Nat.le_add_right _ _
  have hL : μ w.out + L ≤ μ w.out + K := Nat.add_le_add_left hLK _
  rw [execInstr.eq_def]
  cases i with
  | jump j => exact h0
  | jumpIfTrue j => cases ex with
    | none => trivial
    | some v => dsimp only; split <;> exact h0
  | jumpIfFalse j => cases ex with
    | none => trivial
    | some v => dsimp only; split <;> exact h0
  | emit sp => cases ex with
    | none => trivial
    | some v => exact by_emit hμ (hd _ (hex v rfl)) hL
  | emitRaw sp =>
    refine by_ofRes h0 fun raw hr => ?_
    have hs := of_volume (src := src) (sp := sp) (t := raw) (by cases hx : sp.of src <;> rw [hx] at hr <;> cases hr; rfl)
    have hw := hμ w.out raw
    split
    · rename_i out e; rw [e] at hw; show μ out ≤ _; dsimp only at hw; omega
    · rename_i out e; rw [e] at hw; show μ out ≤ _; dsimp only at hw; omega
  | emitWith name sp =>
    refine by_ofRes h0 fun n _ => ?_
    cases hf : BMap.get cfg.functions n with
    | none => exact by_ofRes h0 fun _ _ => trivial
    | some g =>
      cases g with
      | formatter f =>
        cases ex with
        | none => trivial
        | some v => exact by_emit hμ (hn n f hf _ (hex v rfl)) hL
      | filter f =>
        cases ex with
        | none => trivial
        | some v =>
          exact by_ofRes h0 fun r hr => by_emit hμ (hd _ (keep_call hP hfs hf h (hex v rfl) (fun x hx => by cases hx) hr)) hL
  | loopStart vars sp =>
    cases ex with
    | none => trivial
    | some v => exact by_ofRes h0 fun ls hl => h0
  | loopNext j =>
    dsimp only
    split
    · next ls rest => cases ls.iterate <;> exact h0
    · trivial
  | withStart name =>
    cases ex with
    | none => trivial
    | some v => exact h0
  | withEnd =>
    dsimp only
    split
    · exact h0
    · trivial
  | include_ name => trivial
  | includeWith name =>
    cases ex with
    | none => trivial
    | some v => trivial
  | exprStart v =>
    refine by_ofRes h0 fun x hx => ?_
    cases ex with
    | none => exact h0
    | some v => trivial
  | exprStartLit v =>
    cases ex with
    | none => exact h0
    | some v => trivial
  | apply name sp args =>
    refine by_ofRes h0 fun n _ => ?_
    cases hf : BMap.get cfg.functions n with
    | none => exact by_ofRes h0 fun _ _ => trivial
    | some g =>
      cases g with
      | formatter f => exact by_ofRes h0 fun _ _ => trivial
      | filter f =>
        cases ex with
        | none => trivial
        | some v => exact by_ofRes h0 fun r hr => h0

/-- A result of a render. -/
def ResBy (μ : σ → Nat) (B : Nat) : RunRes σ → Prop
  | .ok w => μ w.out ≤ B
  | .err _ w => μ w.out ≤ B
  | .crash => True

/-- No template that is being rendered is longer than `M`. -/
def Short (M : Nat) (fs : List Frame) : Prop := ∀ fr ∈ fs, blen fr.tmpl.source ≤ M

def StepBy (μ : σ → Nat) (B M : Nat) : StepRes σ → Prop
  | .next vm => μ vm.w.out ≤ B ∧ Short M vm.frames
  | .halt r => ResBy μ B r

theorem checkDepth_by {B M : Nat} {vm : VM σ} (h : μ vm.w.out ≤ B) (hs : Short M vm.frames) : StepBy μ B M (checkDepth cfg vm) := by
  rw [checkDepth]
  split
  · exact h
  · exact ⟨h, hs⟩

theorem find_out {n : AstString} {w w' : World σ} {r : Res Template} (h : getTemplate cfg src n w = (w', r)) : w'.out = w.out := by
  rw [getTemplate] at h
  split at h <;> (cases h; rfl)

theorem step_volume (hP : Hereditary P) (hμ : Meters cfg.sink μ) {L M : Nat} (hd : ∀ v, P v → WritesAtMost L (cfg.defaultFormatter v))
    (hn : ∀ n f, BMap.get cfg.functions n = some (.formatter f) → ∀ v, P v → WritesAtMost L (f v))
    (hfs : FiltersKeep P cfg.functions) (hts : ∀ t, Includable cfg t → blen t.source ≤ M) {vm : VM σ} (h : VMOf P vm) (hs : Short M vm.frames) :
    StepBy μ (μ vm.w.out + max M L) M (step cfg vm) := by
  obtain ⟨frames, st, ex, w⟩ := vm
  obtain ⟨hc, hst, hex⟩ := h
  dsimp only at hc hst hex hs ⊢
  have h0 : μ w.out ≤ μ w.out + max M L := Nat.le_add_right _ _
  cases frames with
  | nil => exact h0
  | cons fr frames =>
    have hrest : Short M frames := fun f hf => hs f (List.mem_cons_of_mem _ hf)
    have hfr := hs fr List.mem_cons_self
    have hpc : ∀ pc, Short M ({ fr with pc := pc } :: frames) := by
      intro pc f hf
      rcases List.mem_cons.mp hf with rfl | hf
      · exact hfr
      · exact hrest f hf
    rw [step]
    dsimp only
    cases hi : fr.tmpl.instrs[fr.pc]? with
    | none =>
      dsimp only
      split
      · split
        · split
          · exact checkDepth_by h0 hrest
          · trivial
        · exact checkDepth_by h0 hrest
      · trivial
    | some i =>
      dsimp only
      have key := exec_volume hP hμ hd hn (Nat.le_max_right M L) (Nat.le_trans hfr (Nat.le_max_left M L)) hfs hst hex fr.pc w i
      cases he : execInstr cfg fr.tmpl.source fr.pc st ex w i with
      | next pc st' ex' w' => rw [he] at key; exact ⟨key, hpc pc⟩
      | err e w' => rw [he] at key; exact key
      | crash => trivial
      | include_ pc n =>
        dsimp only
        rcases hg : getTemplate cfg fr.tmpl.source n w with ⟨w', r⟩
        have hw := find_out hg
        cases r with
        | err e => show μ w'.out ≤ _; rw [hw]; exact h0
        | crash => trivial
        | ok t =>
          refine checkDepth_by (by show μ w'.out ≤ _; rw [hw]; exact h0) fun f hf => ?_
          rcases List.mem_cons.mp hf with rfl | hf
          · exact hts t (find_includable (by rw [← find_eq]; exact hg))
          · exact hpc pc f hf
      | includeWith pc n g =>
        dsimp only
        rcases hg : getTemplate cfg fr.tmpl.source n w with ⟨w', r⟩
        have hw := find_out hg
        cases r with
        | err e => show μ w'.out ≤ _; rw [hw]; exact h0
        | crash => trivial
        | ok t =>
          refine checkDepth_by (by show μ w'.out ≤ _; rw [hw]; exact h0) fun f hf => ?_
          rcases List.mem_cons.mp hf with rfl | hf
          · exact hts t (find_includable (by rw [← find_eq]; exact hg))
          · exact hpc pc f hf

theorem run_volume (hP : Hereditary P) (hμ : Meters cfg.sink μ) {L M : Nat} (hd : ∀ v, P v → WritesAtMost L (cfg.defaultFormatter v))
    (hn : ∀ n f, BMap.get cfg.functions n = some (.formatter f) → ∀ v, P v → WritesAtMost L (f v))
    (hfs : FiltersKeep P cfg.functions) (hcode : ∀ t, Includable cfg t → CodeOf P t.instrs) (hts : ∀ t, Includable cfg t → blen t.source ≤ M) :
    ∀ (k : Nat) {vm : VM σ}, VMOf P vm → Short M vm.frames → ∀ res, run cfg k vm = some res → ResBy μ (μ vm.w.out + k * max M L) res
  | 0, _, _, _, _, h => by cases h
  | k + 1, vm, hv, hs, res, h => by
    have key := step_volume hP hμ hd hn hfs hts hv hs
    rw [run] at h
    cases hst : step cfg vm with
    | halt r =>
      rw [hst] at h key
      have h := Option.some.inj h
      subst h
      have e : μ vm.w.out + max M L ≤ μ vm.w.out + (k + 1) * max M L := by rw [Nat.add_mul]; omega
      cases r with
      | ok w => exact Nat.le_trans key e
      | err _ w => exact Nat.le_trans key e
      | crash => trivial
    | next vm' =>
      rw [hst] at h key
      have ih := run_volume hP hμ hd hn hfs hcode hts k (keep_step hP hfs hcode hv hst) key.2 res h
      have e : μ vm'.w.out + k * max M L ≤ μ vm.w.out + (k + 1) * max M L := by rw [Nat.add_mul]; have := key.1; omega
      cases res with
      | ok w => exact Nat.le_trans ih e
      | err _ w => exact Nat.le_trans ih e
      | crash => trivial

end Vals
end Upon
