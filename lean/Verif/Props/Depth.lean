import Verif.Proofs.Steps
import Verif.Proofs.Demo
/-
The limit on active templates (C23).
-/
namespace Upon
open Spec
variable {σ : Type} {cfg : RenderCfg σ}

theorem Spec.Reachable.head {vm vm' vm'' : VM σ} (h : Upon.step cfg vm = .next vm') (h' : Reachable cfg vm' vm'') :
    Reachable cfg vm vm'' := by
  induction h' with
  | refl => exact .step .refl h
  | step _ hs ih => exact .step ih hs

theorem Spec.Reachable.steps {vm vm' : VM σ} (h : Reachable cfg vm vm') : Steps cfg vm vm' := by
  induction h with
  | refl => exact .refl _ _
  | step _ hs ih => exact ih.trans (.one hs)

theorem bound_step {vm vm' : VM σ} (hl : vm.frames.length ≤ max 1 cfg.maxIncludeDepth) (h : step cfg vm = .next vm') :
    vm'.frames.length ≤ max 1 cfg.maxIncludeDepth := by
  cases hi : including vm with
  | none =>
    have := plain_step hl hi
    rw [h] at this
    cases this with
    | next _ h => exact Nat.le_trans h hl
  | some p =>
    obtain ⟨n, src⟩ := p
    obtain ⟨h1, h2, h3⟩ := include_step hi cfg
    rcases hg : getTemplate cfg src n vm.w with ⟨w, r⟩
    cases r with
    | ok t =>
      rw [h1 w t hg, checkDepth] at h
      split at h
      · cases h
      · cases h; omega
    | err e => rw [h2 w e hg] at h; cases h
    | crash => rw [h3 w hg] at h; cases h

/-- **C23** There are never more active templates than the limit allows (but always the first one). -/
theorem C23_bound {vm vm' : VM σ} (hl : vm.frames.length ≤ max 1 cfg.maxIncludeDepth) (h : Reachable cfg vm vm') :
    vm'.frames.length ≤ max 1 cfg.maxIncludeDepth := by
  induction h with
  | refl => exact hl
  | step _ hs ih => exact bound_step ih hs

/-- **C23** A render ends with the depth error exactly if at some point an `include` finds a template that
would be one more than the limit. -/
theorem C23_exact {vm : VM σ} (hl : vm.frames.length ≤ max 1 cfg.maxIncludeDepth) :
    (∃ w, Halts cfg vm (.err (depthErr cfg.maxIncludeDepth) w)) ↔ WouldExceed cfg vm cfg.maxIncludeDepth := by
  constructor
  · rintro ⟨w, n, h⟩
    induction n generalizing vm with
    | zero => cases h
    | succ n ih =>
      rw [run] at h
      cases hs : step cfg vm with
      | next vm' =>
        rw [hs] at h
        obtain ⟨v, a, b, c, d, hr, hx⟩ := ih (bound_step hl hs) h
        exact ⟨v, a, b, c, d, hr.head hs, hx⟩
      | halt r =>
        rw [hs] at h
        cases h
        cases hi : including vm with
        | none =>
          have := plain_step hl hi
          rw [hs] at this
          cases this with
          | err _ h => rcases h with h | h <;> simp [depthErr] at h
        | some p =>
          obtain ⟨n, src⟩ := p
          obtain ⟨h1, h2, h3⟩ := include_step hi cfg
          rcases hg : getTemplate cfg src n vm.w with ⟨w', r⟩
          cases r with
          | ok t =>
            rw [h1 w' t hg, checkDepth] at hs
            split at hs
            · next hd =>
              rw [(entered_length hi t w').1] at hd
              exact ⟨vm, n, src, w', t, .refl, hi, hg, hd⟩
            · cases hs
          | err e =>
            rw [h2 w' e hg] at hs
            obtain ⟨_, _, _, p, _, _, hp⟩ := own_getTemplate (src := src) cfg n vm.w e (by rw [hg])
            have : (e.attachName (vm.frames.head?.bind Frame.name)).pretty = none := by
              injection hs with hs; injection hs with hs; rw [hs]; rfl
            rw [(attach_pretty _ _).1, hp] at this
            cases this
          | crash => rw [h3 w' hg] at hs; cases hs
  · rintro ⟨vm', n, src, w, t, hr, hi, hg, hd⟩
    refine ⟨w, hr.steps.halts (.one ?_)⟩
    rw [(include_step hi cfg).1 w t hg, checkDepth, (entered_length hi t w).1, if_pos hd, (entered_length hi t w).2, maxIncludeDepth_eq]

/-- The same, but with another limit. -/
def Spec.limited (cfg : RenderCfg σ) (d : Nat) : RenderCfg σ := { cfg with maxIncludeDepth := d }

theorem limited_step {vm : VM σ} {d : Nat} (hd : cfg.maxIncludeDepth ≤ d) (hl : vm.frames.length ≤ max 1 cfg.maxIncludeDepth)
    (hx : ∀ n src w t, including vm = some (n, src) → getTemplate cfg src n vm.w = (w, .ok t) →
      ¬ cfg.maxIncludeDepth < vm.frames.length + 1) : step (limited cfg d) vm = step cfg vm := by
  have hck : ∀ vm : VM σ, ¬ vm.frames.length > cfg.maxIncludeDepth → checkDepth (limited cfg d) vm = checkDepth cfg vm := by
    intro vm h
    rw [checkDepth, checkDepth, if_neg h, if_neg]
    have : (limited cfg d).maxIncludeDepth = d := rfl
    omega
  have hgt : ∀ src n w, getTemplate (limited cfg d) src n w = getTemplate cfg src n w := fun _ _ _ => rfl
  cases hi : including vm with
  | some p =>
    obtain ⟨n, src⟩ := p
    obtain ⟨h1, h2, h3⟩ := include_step hi cfg
    obtain ⟨h1', h2', h3'⟩ := include_step hi (limited cfg d)
    rcases hg : getTemplate cfg src n vm.w with ⟨w', r⟩
    cases r with
    | ok t =>
      have := hx n src w' t hi hg
      rw [h1 w' t hg, h1' w' t hg, hck]
      rw [(entered_length hi t w').1]
      exact this
    | err e => rw [h2 w' e hg, h2' w' e hg]
    | crash => rw [h3 w' hg, h3' w' hg]
  | none =>
    obtain ⟨frames, st, ex, w⟩ := vm
    cases frames with
    | nil => rfl
    | cons fr frames =>
      have hle : ¬ frames.length > cfg.maxIncludeDepth := by
        simp only [List.length_cons] at hl
        omega
      rw [step, step]
      dsimp only
      cases hin : fr.tmpl.instrs[fr.pc]? with
      | none =>
        dsimp only
        split
        · split
          · split
            · exact hck _ hle
            · rfl
          · exact hck _ hle
        · rfl
      | some i =>
        dsimp only
        have he : execInstr (limited cfg d) fr.tmpl.source fr.pc st ex w i = execInstr cfg fr.tmpl.source fr.pc st ex w i := by
          cases i <;> rfl
        rw [he]
        have := plain_exec (cfg := cfg) (src := fr.tmpl.source) (pc := fr.pc) (st := st) (ex := ex) (w := w) (i := i)
          (fun n e => by subst e; simp [including, hin] at hi)
          (fun n e => by
            subst e
            cases ex with
            | none => rfl
            | some v => simp [including, hin] at hi)
        generalize execInstr cfg fr.tmpl.source fr.pc st ex w i = o at this
        cases this <;> rfl

/-- **C23** A render in which the limit is not exceeded is not affected by it: with any higher limit it does
the same. -/
theorem C23_unaffected {vm : VM σ} (hl : vm.frames.length ≤ max 1 cfg.maxIncludeDepth)
    (h : ¬ WouldExceed cfg vm cfg.maxIncludeDepth) {d : Nat} (hd : cfg.maxIncludeDepth ≤ d) (res : RunRes σ) :
    Halts (limited cfg d) vm res ↔ Halts cfg vm res := by
  have key : ∀ n, run (limited cfg d) n vm = run cfg n vm := by
    intro n
    induction n generalizing vm with
    | zero => rfl
    | succ n ih =>
      have hs : step (limited cfg d) vm = step cfg vm :=
        limited_step hd hl fun n src w t hi hg hlt => h ⟨vm, n, src, w, t, .refl, hi, hg, hlt⟩
      rw [run, run, hs]
      cases hn : step cfg vm with
      | halt r => rfl
      | next vm' =>
        exact ih (bound_step hl hn) fun ⟨v, a, b, c, t, hr, hx⟩ => h ⟨v, a, b, c, t, hr.head hn, hx⟩
  exact ⟨fun ⟨n, h⟩ => ⟨n, by rw [← key]; exact h⟩, fun ⟨n, h⟩ => ⟨n, by rw [key]; exact h⟩⟩

/-- **C23** … in other words: a result that is not the depth error remains the same when the limit is raised. -/
theorem C23_raise {vm : VM σ} (hl : vm.frames.length ≤ max 1 cfg.maxIncludeDepth) {res : RunRes σ} (h : Halts cfg vm res)
    (hne : ∀ w, res ≠ .err (depthErr cfg.maxIncludeDepth) w) {d : Nat} (hd : cfg.maxIncludeDepth ≤ d) :
    Halts (limited cfg d) vm res := by
  refine (C23_unaffected hl (fun hx => ?_) hd res).mpr h
  obtain ⟨w, hw⟩ := (C23_exact hl).mpr hx
  exact hne w (h.unique hw)

/-- **C23** The same for `to_string`: the depth error is returned exactly if the limit would be exceeded. -/
theorem C23_to_string {env : Env} {r : Renderer} {b : SState} (hb : r.base = .ok b) :
    r.ToString env (.err (depthErr (r.cfg env stringSink).maxIncludeDepth)) ↔
      WouldExceed (r.cfg env stringSink) (initVM r.template r.name b []) (r.cfg env stringSink).maxIncludeDepth := by
  rw [← C23_exact (vm := initVM r.template r.name b []) (Nat.le_max_left _ _)]
  constructor
  · intro h
    generalize hr : (Res.err (depthErr (r.cfg env stringSink).maxIncludeDepth) : Res Str) = x at h
    cases h with
    | globalsErr e h => rw [hb] at h; cases h
    | globalsCrash h => cases hr
    | ok b' w h1 h2 => cases hr
    | err b' e w h1 h2 => rw [hb] at h1; cases h1; cases hr; exact ⟨w, h2⟩
    | crash b' h1 h2 => cases hr
  · rintro ⟨w, h⟩
    exact .err b _ w hb h

/-- **C23** The limit set on the renderer replaces the one of the engine … -/
theorem C23_override {env : Env} (r : Renderer) (d d' : Nat) (res : Res Str) :
    (r.withMaxIncludeDepth d).ToString env res ↔
      { r with engine := { r.engine with maxIncludeDepth := d' }, maxIncludeDepth := some d }.ToString env res := by
  constructor <;> intro h <;> cases h
  all_goals first
    | exact .globalsErr _ (by assumption) | exact .globalsCrash (by assumption)
    | exact .ok _ _ (by assumption) (by assumption) | exact .err _ _ _ (by assumption) (by assumption)
    | exact .crash _ (by assumption) (by assumption)

/-- **C23** … and without one the limit of the engine counts. -/
theorem C23_default {env : Env} (r : Renderer) (hr : r.maxIncludeDepth = none) (res : Res Str) :
    r.ToString env res ↔ (r.withMaxIncludeDepth r.engine.maxIncludeDepth).ToString env res := by
  have hc : (r.withMaxIncludeDepth r.engine.maxIncludeDepth).cfg env stringSink = r.cfg env stringSink := by
    simp [Renderer.cfg, Renderer.withMaxIncludeDepth, hr]
  constructor <;> intro h <;> cases h
  all_goals first
    | exact .globalsErr _ (by assumption) | exact .globalsCrash (by assumption)
    | exact .ok _ _ (by assumption) (by rw [hc] at *; assumption) | exact .err _ _ _ (by assumption) (by rw [hc] at *; assumption)
    | exact .crash _ (by assumption) (by rw [hc] at *; assumption)

/-- A template that includes itself, with the limit 3: three are active, the fourth is refused. -/
example : Demo.run 3 Demo.h none .none 50 = some (.err (depthErr 3) ⟨"xxx".toList, []⟩) := by decide +kernel

/-- One include needs the limit 2. -/
example : Demo.run 2 Demo.i none (Demo.globals [("a", Demo.globals [("a", Demo.globals [])])]) 50 = some (.ok ⟨"[]".toList, []⟩) ∧
    Demo.run 1 Demo.i none (Demo.globals [("a", Demo.globals [("a", Demo.globals [])])]) 50 = some (.err (depthErr 1) ⟨[], []⟩) := by
  decide +kernel

end Upon
