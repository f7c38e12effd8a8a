import Verif.Spec.Richer
import Verif.Spec.Data
import Verif.Proofs.OwnErr
/-
The machine with more functions and templates does the same, until one is missing.
-/
namespace Upon.Rich
open Spec
variable {σ : Type}

/-- The second configuration has all that the first has. -/
structure More (c c' : RenderCfg σ) : Prop where
  env : c'.env = c.env
  formatter : c'.defaultFormatter = c.defaultFormatter
  templateFn : c'.templateFn = c.templateFn
  sink : c'.sink = c.sink
  functions : ∀ n f, BMap.get c.functions n = some f → BMap.get c'.functions n = some f
  templates : c.templateFn = none → ∀ n t, BMap.get c.templates n = some t → BMap.get c'.templates n = some t
  depth : c.maxIncludeDepth ≤ c'.maxIncludeDepth

variable {c c' : RenderCfg σ}

theorem lacking_attach {e : Err} (h : Lacking e) (n : Option Str) (hp : e.pretty ≠ none) : Lacking (e.attachName n) := by
  cases h with
  | missing hs => cases n <;> exact .missing hs
  | limit => exact absurd rfl hp

/-- An error that says that something is missing. -/
theorem missing_err {α : Type} {env : Env} {s : String} {src : Str} {sp : Span} (hs : s ∈ ["unknown filter", "unknown filter or formatter", "unknown template"]) :
    (errRender env s src sp : Res α) = .crash ∨ ∃ e, (errRender env s src sp : Res α) = .err e ∧ Lacking e ∧ e.pretty ≠ none := by
  unfold errRender throwAt
  cases Pretty.build env src sp with
  | none => exact .inl rfl
  | some p => exact .inr ⟨_, rfl, .missing hs, by simp⟩

/-- One instruction. -/
theorem more_exec (h : More c c') (src : Str) (pc : Nat) (st : Stack) (ex : Option Cow) (w : World σ) (i : Instr) :
    execInstr c' src pc st ex w i = execInstr c src pc st ex w i ∨ execInstr c src pc st ex w i = .crash ∨
      ∃ e, execInstr c src pc st ex w i = .err e w ∧ Lacking e ∧ e.pretty ≠ none := by
  obtain ⟨h1, h2, h3, h4, h5, h6, h7⟩ := h
  have em : ∀ f v src sp w k, emit c' f v src sp w k = emit c f v src sp w k := by
    intro f v src sp w k; unfold emit; rw [h1, h4]
  cases i with
  | emitWith name span =>
    simp only [execInstr, em, h1, h2]
    cases Res.ofOption (name.span.of src) with
    | err e => exact .inl rfl
    | crash => exact .inl rfl
    | ok n =>
      simp only [OneStep.ofRes]
      cases hf : BMap.get c.functions n with
      | some f => rw [h5 n f hf]; exact .inl rfl
      | none =>
        rcases missing_err (α := Unit) (env := c.env) (src := src) (sp := name.span) (s := "unknown filter or formatter") (by simp) with e | ⟨e, e1, e2, e3⟩
        · simp only [e]; exact .inr (.inl trivial)
        · simp only [e1]; exact .inr (.inr ⟨e, rfl, e2, e3⟩)
  | apply name sp args =>
    simp only [execInstr, h1]
    cases Res.ofOption (name.span.of src) with
    | err e => exact .inl rfl
    | crash => exact .inl rfl
    | ok n =>
      simp only [OneStep.ofRes]
      cases hf : BMap.get c.functions n with
      | some f => rw [h5 n f hf]; exact .inl rfl
      | none =>
        rcases missing_err (α := Unit) (env := c.env) (src := src) (sp := name.span) (s := "unknown filter") (by simp) with e | ⟨e, e1, e2, e3⟩
        · simp only [e]; exact .inr (.inl trivial)
        · simp only [e1]; exact .inr (.inr ⟨e, rfl, e2, e3⟩)
  | _ => exact .inl (by simp only [execInstr, em, h1, h2, h4])

/-- A template that is looked up. -/
theorem more_template (h : More c c') (src : Str) (n : AstString) (w : World σ) :
    getTemplate c' src n w = getTemplate c src n w ∨ (getTemplate c src n w).2 = .crash ∨
      ∃ e, getTemplate c src n w = (w, .err e) ∧ Lacking e ∧ e.pretty ≠ none := by
  unfold getTemplate
  rw [h.templateFn, h.env]
  cases hf : c.templateFn with
  | some f => exact .inl rfl
  | none =>
    dsimp only
    cases ht : BMap.get c.templates n.name with
    | some t => rw [h.templates hf _ _ ht]; exact .inl rfl
    | none =>
      rcases missing_err (α := Template) (env := c.env) (src := src) (sp := n.span) (s := "unknown template") (by simp) with e | ⟨e, e1, e2, e3⟩
      · exact .inr (.inl e)
      · exact .inr (.inr ⟨e, by rw [e1], e2, e3⟩)

theorem more_depth (h : More c c') (vm : VM σ) : checkDepth c' vm = checkDepth c vm ∨ ∃ e, checkDepth c vm = .halt (.err e vm.w) ∧ Lacking e := by
  have hd := h.depth
  unfold checkDepth
  by_cases hv : vm.frames.length > c.maxIncludeDepth
  · rw [if_pos hv]; exact .inr ⟨_, rfl, .limit⟩
  · rw [if_neg hv, if_neg (by omega)]; exact .inl rfl

/-- One step is the same, unless something is missing; then nothing is written. -/
theorem more_step (h : More c c') (vm : VM σ) :
    step c' vm = step c vm ∨ step c vm = .halt .crash ∨ ∃ e w, step c vm = .halt (.err e w) ∧ Lacking e ∧ w.out = vm.w.out := by
  have dep : ∀ v : VM σ, v.w.out = vm.w.out → checkDepth c' v = checkDepth c v ∨ checkDepth c v = .halt .crash ∨
      ∃ e w, checkDepth c v = .halt (.err e w) ∧ Lacking e ∧ w.out = vm.w.out := by
    intro v hv
    rcases more_depth h v with e | ⟨e, e1, e2⟩
    · exact .inl e
    · exact .inr (.inr ⟨e, v.w, e1, e2, hv⟩)
  obtain ⟨frames, st, ex, w⟩ := vm
  cases frames with
  | nil => exact .inl rfl
  | cons fr frames =>
    simp only [step]
    cases hi : fr.tmpl.instrs[fr.pc]? with
    | none =>
      dsimp only
      by_cases hp : fr.pc = fr.tmpl.instrs.length
      · rw [if_pos hp, if_pos hp]
        by_cases hs : fr.hasScope = true
        · rw [if_pos hs, if_pos hs]
          split
          · exact dep _ rfl
          · exact .inl rfl
        · rw [if_neg hs, if_neg hs]; exact dep _ rfl
      · rw [if_neg hp, if_neg hp]; exact .inl rfl
    | some i =>
      dsimp only
      rcases more_exec h fr.tmpl.source fr.pc st ex w i with e | e | ⟨e, e1, e2, e3⟩
      · rw [e]
        have out : ∀ w' r, getTemplate c fr.tmpl.source r w = (w', (getTemplate c fr.tmpl.source r w).2) → w'.out = w.out := by
          intro w' r hg
          have : w' = (getTemplate c fr.tmpl.source r w).1 := by rw [hg]
          rw [this]
          unfold getTemplate
          cases c.templateFn <;> rfl
        cases execInstr c fr.tmpl.source fr.pc st ex w i with
        | next => exact .inl rfl
        | err => exact .inl rfl
        | crash => exact .inl rfl
        | include_ pc n =>
          dsimp only
          rcases more_template h fr.tmpl.source n w with e | e | ⟨e, e1, e2, e3⟩
          · rw [e]
            rcases hg : getTemplate c fr.tmpl.source n w with ⟨w', r⟩
            cases r with
            | ok t => exact dep _ (out w' n (by rw [hg]))
            | err => exact .inl rfl
            | crash => exact .inl rfl
          · rcases hg : getTemplate c fr.tmpl.source n w with ⟨w', r⟩
            rw [hg] at e
            dsimp only at e
            subst e
            exact .inr (.inl rfl)
          · rw [e1]; exact .inr (.inr ⟨_, _, rfl, lacking_attach e2 _ e3, rfl⟩)
        | includeWith pc n g =>
          dsimp only
          rcases more_template h fr.tmpl.source n w with e | e | ⟨e, e1, e2, e3⟩
          · rw [e]
            rcases hg : getTemplate c fr.tmpl.source n w with ⟨w', r⟩
            cases r with
            | ok t => exact dep _ (out w' n (by rw [hg]))
            | err => exact .inl rfl
            | crash => exact .inl rfl
          · rcases hg : getTemplate c fr.tmpl.source n w with ⟨w', r⟩
            rw [hg] at e
            dsimp only at e
            subst e
            exact .inr (.inl rfl)
          · rw [e1]; exact .inr (.inr ⟨_, _, rfl, lacking_attach e2 _ e3, rfl⟩)
      · rw [e]; exact .inr (.inl rfl)
      · rw [e1]; exact .inr (.inr ⟨_, w, rfl, lacking_attach e2 _ e3, rfl⟩)

/-- A whole run is the same, unless something is missing; then the richer one got at least as far. -/
theorem more_halts (h : More c c') {vm : VM σ} {res : RunRes σ} (hh : Halts c vm res) :
    Halts c' vm res ∨ res = .crash ∨ ∃ e w vm', res = .err e w ∧ Lacking e ∧ Reachable c' vm vm' ∧ vm'.w.out = w.out := by
  obtain ⟨n, hn⟩ := hh
  suffices ∀ vm0, Reachable c' vm0 vm → Halts c' vm res ∨ res = .crash ∨
      ∃ e w vm', res = .err e w ∧ Lacking e ∧ Reachable c' vm0 vm' ∧ vm'.w.out = w.out from this vm .refl
  intro vm0 hr
  induction n generalizing vm with
  | zero => cases hn
  | succ n ih =>
    rw [run] at hn
    rcases more_step h vm with e | e | ⟨e, w, e1, e2, e3⟩
    · cases hs : step c vm with
      | halt r =>
        rw [hs] at hn e
        cases hn
        exact .inl ⟨1, by rw [run, e]⟩
      | next vm' =>
        rw [hs] at hn e
        rcases ih hn (hr.step e) with ⟨m, k⟩ | k
        · exact .inl ⟨m + 1, by rw [run, e]; exact k⟩
        · exact .inr k
    · rw [e] at hn; cases hn; exact .inr (.inl rfl)
    · rw [e1] at hn; cases hn; exact .inr (.inr ⟨e, w, vm, rfl, e2, hr, e3.symm⟩)

end Upon.Rich
