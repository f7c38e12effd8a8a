import Verif.Proofs.Values
/-
Functions that do the same on the values that a render has make no difference to it (for C63).
-/
namespace Upon
open Spec Compiler
variable {σ : Type} {env : Env} {src : Str} {P : Value → Prop}

namespace Vals

theorem render_not_ok {α : Type} {m : String} {sp : Span} {a : α} : errRender env m src sp ≠ .ok a := by
  rw [errRender, throwAt]; split <;> simp

theorem fromState_args (hP : Hereditary P) {st : Stack} (h : StackOf P st) {f : Filter} {name : Ident} {v : Cow} (hv : P v.val) {args : List BaseExpr}
    (hx : ∀ x ∈ args, BaseOf P x) {a : ArgVal} {as : List ArgVal} (hr : fromState env f src st name v args = .ok (a, as)) :
    ArgOf P a ∧ ∀ x ∈ as, ArgOf P x := by
  rw [fromState.eq_def] at hr
  by_cases hlen : args.length = f.args.length
  · rw [if_pos hlen] at hr
    cases hc2 : f.val.fromCowMut env v with
    | error e =>
      rw [hc2] at hr
      dsimp only at hr
      split at hr
      · exact absurd hr render_not_ok
      · cases hr
    | ok b =>
      rw [hc2] at hr
      dsimp only at hr
      obtain ⟨bs, hbs, hr⟩ := bind_ok.mp hr
      cases hr
      exact ⟨keep_ref hP hv hc2, keep_args hP h f.args hx hbs⟩
  · rw [if_neg hlen] at hr
    exact absurd hr render_not_ok

theorem call_same (hP : Hereditary P) {st : Stack} (h : StackOf P st) {f f' : Filter} (h1 : f.val = f'.val) (h2 : f.args = f'.args)
    (h3 : ∀ a as, ArgOf P a → (∀ x ∈ as, ArgOf P x) → f.call a as = f'.call a as) {name : Ident} {v : Cow} (hv : P v.val) {args : List BaseExpr}
    (hx : ∀ x ∈ args, BaseOf P x) : callFilter env f src st name v args = callFilter env f' src st name v args := by
  have e : fromState env f src st name v args = fromState env f' src st name v args := by rw [fromState, fromState, h1, h2]
  rw [callFilter, callFilter, ← e]
  cases hs : fromState env f src st name v args with
  | err e => rfl
  | crash => rfl
  | ok p =>
    obtain ⟨a, as⟩ := p
    have := fromState_args hP h hv hx hs
    simp only [Res.ok_bind]
    rw [h3 a as this.1 this.2]

/-- A render whose functions are replaced. -/
structure CfgSame (P : Value → Prop) (cfg cfg' : RenderCfg σ) : Prop where
  shown : ∀ v, P v → cfg.defaultFormatter v = cfg'.defaultFormatter v
  named : ∀ n, FnAlikeOn P (BMap.get cfg.functions n) (BMap.get cfg'.functions n)
  rest : cfg' = { cfg with defaultFormatter := cfg'.defaultFormatter, functions := cfg'.functions }

variable {cfg cfg' : RenderCfg σ}

theorem CfgSame.sameEnv (h : CfgSame P cfg cfg') : cfg'.env = cfg.env := by rw [h.rest]
theorem CfgSame.sink (h : CfgSame P cfg cfg') : cfg'.sink = cfg.sink := by rw [h.rest]
theorem CfgSame.depth (h : CfgSame P cfg cfg') : cfg'.maxIncludeDepth = cfg.maxIncludeDepth := by rw [h.rest]
theorem CfgSame.find (h : CfgSame P cfg cfg') (src : Str) (n : AstString) (w : World σ) : getTemplate cfg' src n w = getTemplate cfg src n w := by
  rw [h.rest]; rfl

theorem emit_same (h : CfgSame P cfg cfg') {f f' : Formatter} {v : Value} (hf : f v = f' v) (sp : Span) (w : World σ) (k : World σ → OneStep σ) :
    emit cfg f v src sp w k = emit cfg' f' v src sp w k := by
  rw [emit, emit, hf, h.sink, h.sameEnv]

theorem ofRes_same {α : Type} {w : World σ} {r : Res α} {k k' : α → OneStep σ} (h : ∀ a, r = .ok a → k a = k' a) :
    OneStep.ofRes w r k = OneStep.ofRes w r k' := by
  cases r with
  | ok a => exact h a rfl
  | err e => rfl
  | crash => rfl

theorem exec_same (hP : Hereditary P) (hc : CfgSame P cfg cfg') (hfs : FiltersKeep P cfg.functions) {st : Stack} (h : StackOf P st) {ex : Option Cow}
    (hex : ∀ c, ex = some c → P c.val) {i : Instr} (hi : InstrOf P i) (pc : Nat) (w : World σ) :
    execInstr cfg src pc st ex w i = execInstr cfg' src pc st ex w i := by
  cases i with
  | emit sp =>
    cases ex with
    | none => rfl
    | some v => exact emit_same hc (hc.shown _ (hex v rfl)) sp w _
  | emitRaw sp => rw [execInstr.eq_def, execInstr.eq_def, hc.sink]
  | emitWith name sp =>
    rw [execInstr.eq_def, execInstr.eq_def]
    dsimp only
    refine ofRes_same fun n _ => ?_
    have hn := hc.named n
    generalize hg : BMap.get cfg.functions n = g at hn
    generalize BMap.get cfg'.functions n = g' at hn
    cases hn with
    | none => rw [hc.sameEnv]
    | formatter hf =>
      cases ex with
      | none => rfl
      | some v => exact emit_same hc (hf _ (hex v rfl)) _ w _
    | filter h1 h2 h3 =>
      cases ex with
      | none => rfl
      | some v =>
        dsimp only
        rw [hc.sameEnv, ← call_same hP h h1 h2 h3 (hex v rfl) (args := []) (fun x hx => by cases hx)]
        exact ofRes_same fun r hr => emit_same hc (hc.shown _ (keep_call hP hfs hg h (hex v rfl) (fun x hx => by cases hx) hr)) _ w _
  | loopStart vars sp => rw [execInstr.eq_def, execInstr.eq_def, hc.sameEnv]
  | exprStart v => rw [execInstr.eq_def, execInstr.eq_def, hc.sameEnv]
  | apply name sp args =>
    rw [execInstr.eq_def, execInstr.eq_def]
    dsimp only
    refine ofRes_same fun n _ => ?_
    have hn := hc.named n
    generalize hg : BMap.get cfg.functions n = g at hn
    generalize BMap.get cfg'.functions n = g' at hn
    cases hn with
    | none => rw [hc.sameEnv]
    | formatter hf => rw [hc.sameEnv]
    | filter h1 h2 h3 =>
      cases ex with
      | none => rfl
      | some v =>
        dsimp only
        rw [hc.sameEnv, ← call_same hP h h1 h2 h3 (hex v rfl) hi]
  | _ => rfl

theorem step_same (hP : Hereditary P) (hc : CfgSame P cfg cfg') (hfs : FiltersKeep P cfg.functions) {vm : VM σ} (h : VMOf P vm) :
    step cfg vm = step cfg' vm := by
  obtain ⟨frames, st, ex, w⟩ := vm
  obtain ⟨hcode, hst, hex⟩ := h
  have hd : ∀ vm, checkDepth cfg vm = checkDepth cfg' vm := fun vm => by rw [checkDepth, checkDepth, hc.depth]
  cases frames with
  | nil => rfl
  | cons fr frames =>
    have hfr := hcode fr List.mem_cons_self
    rw [step, step]
    dsimp only
    cases hi : fr.tmpl.instrs[fr.pc]? with
    | none => simp only [hd]
    | some i =>
      dsimp only
      rw [← exec_same hP (src := fr.tmpl.source) hc hfs hst hex (hfr i (List.mem_of_getElem? hi)) fr.pc w]
      simp only [hc.find, hd]

theorem run_same (hP : Hereditary P) (hc : CfgSame P cfg cfg') (hfs : FiltersKeep P cfg.functions) (hts : ∀ t, Includable cfg t → CodeOf P t.instrs) :
    ∀ (n : Nat) {vm : VM σ}, VMOf P vm → run cfg n vm = run cfg' n vm
  | 0, _, _ => rfl
  | n + 1, vm, h => by
    rw [run, run, ← step_same hP hc hfs h]
    cases hs : step cfg vm with
    | halt r => rfl
    | next vm' => exact run_same hP hc hfs hts n (keep_step hP hfs hts h hs)

theorem halts_same (hP : Hereditary P) (hc : CfgSame P cfg cfg') (hfs : FiltersKeep P cfg.functions) (hts : ∀ t, Includable cfg t → CodeOf P t.instrs)
    {vm : VM σ} (h : VMOf P vm) (res : RunRes σ) : Halts cfg vm res ↔ Halts cfg' vm res := by
  unfold Halts
  simp only [run_same hP hc hfs hts _ h]

/-- A render starts with values that have the property. -/
theorem init_of {r : Renderer} (hP : CodeOf P r.template.instrs) (hg : GlobalsOf P r.globals) {b : SState} (hb : r.base = .ok b) (out : σ) :
    VMOf P (initVM r.template r.name b out) := by
  refine ⟨fun fr hfr => ?_, fun s hs => ?_, fun c hc => by cases hc⟩
  · cases List.mem_singleton.mp hfr
    exact hP
  · cases List.mem_singleton.mp hs
    rw [Renderer.base.eq_def] at hb
    split at hb
    · rename_i g hx
      rw [hx] at hg
      obtain ⟨x, hx, hb⟩ := bind_ok.mp hb
      cases hb
      exact hg x hx
    · rename_i g hx
      rw [hx] at hg
      cases hb
      exact hg
    · rename_i g hx
      rw [hx] at hg
      cases hb
      exact hg

end Vals
end Upon
