import Verif.Proofs.Richer
import Verif.Props.Writers
import Verif.Props.Ways
/-
C67: adding functions and templates to an engine.
-/
namespace Upon
open Spec

namespace Rich

theorem more_of {σ : Type} {env : Env} {r r' : Renderer} (h : Richer r r') (s : Sink σ) : More (r.cfg env s) (r'.cfg env s) where
  env := rfl
  formatter := h.formatter
  templateFn := h.templateFn
  sink := rfl
  functions := h.functions
  templates hf := h.templates hf
  depth := h.depth

theorem reach_grows {σ : Type} {cfg : RenderCfg σ} {P : σ → σ → Prop} (h : Grows cfg.sink P) {vm vm' : VM σ} (hr : Reachable cfg vm vm') :
    P vm.w.out vm'.w.out := by
  induction hr with
  | refl => exact h.refl _
  | step _ hs ih => exact h.trans ih ((out_step h _).1 _ hs)

/-- From a state that is reached, the machine ends as from the start. -/
theorem reach_halts {σ : Type} {cfg : RenderCfg σ} {vm vm' : VM σ} (hr : Reachable cfg vm vm') {res : RunRes σ} (h : Halts cfg vm res) :
    Halts cfg vm' res := by
  induction hr with
  | refl => exact h
  | step _ hs ih =>
    obtain ⟨n, hn⟩ := ih
    cases n with
    | zero => cases hn
    | succ n =>
      rw [run, hs] at hn
      exact ⟨n, hn⟩

/-- What the writer has got when it takes everything. -/
theorem writer_grows {ω : Type} {io : IoWriter ω} {log : ω → List UInt8} (ha : Accepts io log) :
    Grows (writerSink io) (fun a b => log a.1 <+: log b.1 ∧ (a.2 = none → b.2 = none)) where
  refl _ := ⟨List.prefix_rfl, id⟩
  trans h1 h2 := ⟨h1.1.trans h2.1, h2.2 ∘ h1.2⟩
  write s t := by
    have h1 := ha.accepts s.1 (utf8 t)
    have h2 := ha.keeps s.1 (utf8 t)
    dsimp only [writerSink]
    generalize io.writeAll s.1 (utf8 t) = p at h1 h2
    obtain ⟨p1, p2⟩ := p
    dsimp only at h1 h2
    subst h1
    exact ⟨h2 ▸ List.prefix_append _ _, id⟩

end Rich

section
variable {env : Env} {r r' : Renderer}

theorem Spec.Richer.base (h : Richer r r') : r'.base = r.base := by unfold Renderer.base; rw [h.globals]

/-- **C67** In an engine with more functions and templates, and a higher limit, a render gives the same text or the same error, unless it failed because one
of them was missing. -/
theorem C67_to_string (h : Richer r r') {res res' : Res Str} (h1 : r.ToString env res) (h2 : r'.ToString env res') :
    res' = res ∨ res = .crash ∨ ∃ e, res = .err e ∧ Lacking e := by
  have hm := Rich.more_of (env := env) h stringSink
  have hb := h.base
  cases h1 with
  | globalsErr e h1 => cases h2 <;> simp_all
  | globalsCrash h1 => exact .inr (.inl rfl)
  | crash => exact .inr (.inl rfl)
  | ok b w h1 h3 =>
    have k : r'.ToString env (.ok w.out) := by
      rcases Rich.more_halts hm h3 with k | k | ⟨_, _, _, k, _⟩
      · exact .ok b w (hb ▸ h1) (by rw [h.template, h.name]; exact k)
      · cases k
      · cases k
    exact .inl (to_string_unique h2 k)
  | err b e w h1 h3 =>
    rcases Rich.more_halts hm h3 with k | k | ⟨_, _, _, k, k2, _⟩
    · exact .inl (to_string_unique h2 (.err b e w (hb ▸ h1) (by rw [h.template, h.name]; exact k)))
    · cases k
    · cases k; exact .inr (.inr ⟨_, rfl, k2⟩)

/-- **C67** So a text that is rendered stays as it is. -/
theorem C67_same_text (h : Richer r r') {s : Str} (h1 : r.ToString env (.ok s)) : r'.ToString env (.ok s) := by
  cases h1 with
  | ok b w h1 h3 =>
    rcases Rich.more_halts (Rich.more_of (env := env) h stringSink) h3 with k | k | ⟨_, _, _, k, _⟩
    · exact .ok b w (h.base ▸ h1) (by rw [h.template, h.name]; exact k)
    · cases k
    · cases k

/-- **C67** On every writer, whatever it does: a render that succeeds leaves it in the same state. -/
theorem C67_to_writer {ω : Type} (h : Richer r r') {io : IoWriter ω} {w₀ w : ω} (h1 : r.ToWriter env io w₀ (.ok ()) w) : r'.ToWriter env io w₀ (.ok ()) w := by
  cases h1 with
  | ok b w h1 h3 =>
    rcases Rich.more_halts (Rich.more_of (env := env) h (writerSink io)) h3 with k | k | ⟨_, _, _, k, _⟩
    · exact .ok b w (h.base ▸ h1) (by rw [h.template, h.name]; exact k)
    · cases k
    · cases k

/-- **C67** What a render has written when something is missing is the beginning of what it writes when nothing is. -/
theorem C67_prefix {ω : Type} (h : Richer r r') {io : IoWriter ω} {log : ω → List UInt8} (ha : Accepts io log) (w₀ : ω) {res res' : Res Unit} {w w' : ω}
    (h1 : r.ToWriter env io w₀ res w) (h2 : r'.ToWriter env io w₀ res' w') (hc : res ≠ .crash) (hc' : res' ≠ .crash) : log w <+: log w' := by
  have hm := Rich.more_of (env := env) h (writerSink io)
  have hb := h.base
  have hg : Grows (r'.cfg env (writerSink io)).sink _ := Rich.writer_grows ha
  have key : ∀ (b : SState) (x x' : RunRes (ω × Option Nat)) (o o'), r.base = .ok b → Halts (r.cfg env (writerSink io)) (initVM r.template r.name b (w₀, none)) x →
      Halts (r'.cfg env (writerSink io)) (initVM r'.template r'.name b (w₀, none)) x' → outOf x = some o → outOf x' = some o' → log o.1 <+: log o'.1 := by
    intro b x x' o o' _ k1 k2 e1 e2
    rw [h.template, h.name] at k2
    rcases Rich.more_halts hm k1 with k | rfl | ⟨e, v, vm', rfl, _, k3, k4⟩
    · cases k.unique k2
      cases e1.symm.trans e2
      exact List.prefix_rfl
    · cases e1
    · have := (out_halts hg (Rich.reach_halts k3 k2) e2).1
      cases e1
      rw [k4] at this
      exact this
  cases h1 with
  | globalsErr e h1 => cases h2 <;> simp_all
  | globalsCrash h1 => exact absurd rfl hc
  | crash => exact absurd rfl hc
  | ok b x h1 h3 =>
    cases h2 with
    | globalsErr e h2 => rw [hb, h1] at h2; cases h2
    | globalsCrash => exact absurd rfl hc'
    | crash => exact absurd rfl hc'
    | ok b' x' h2 h4 => rw [hb, h1] at h2; cases h2; exact key b _ _ _ _ h1 h3 h4 rfl rfl
    | err b' e' x' h2 h4 => rw [hb, h1] at h2; cases h2; exact key b _ _ _ _ h1 h3 h4 rfl rfl
  | err b e x h1 h3 =>
    cases h2 with
    | globalsErr e h2 => rw [hb, h1] at h2; cases h2
    | globalsCrash => exact absurd rfl hc'
    | crash => exact absurd rfl hc'
    | ok b' x' h2 h4 => rw [hb, h1] at h2; cases h2; exact key b _ _ _ _ h1 h3 h4 rfl rfl
    | err b' e' x' h2 h4 => rw [hb, h1] at h2; cases h2; exact key b _ _ _ _ h1 h3 h4 rfl rfl

end

/-- **C67** Calls that add functions and templates under names that are not taken, or raise the limit, make an engine with more. -/
theorem C67_history {env : Env} {ops : List Op} {r : Renderer} (h : OnlyAdds env r.engine ops) : Richer r { r with engine := after env r.engine ops } := by
  refine ⟨rfl, rfl, rfl, rfl, ?_, ?_, ?_, ?_⟩ <;> dsimp only
  · induction ops with
    | nil => rfl
    | cons op older ih =>
      obtain ⟨h1, h2⟩ := h
      rw [← ih h1, after]
      cases op with
      | addTemplate n src => rw [Op.apply, Engine.addTemplate]; split <;> rfl
      | addFilter | addFormatter | setMaxIncludeDepth => rfl
      | removeTemplate | removeFunction | setDefaultFormatter => exact h2.elim
  · induction ops with
    | nil => exact fun _ _ => id
    | cons op older ih =>
      obtain ⟨h1, h2⟩ := h
      intro n f hf
      have hf := ih h1 n f hf
      rw [after]
      have hn : ∀ m g, BMap.get (after env r.engine older).functions m = none → BMap.get (BMap.insert (after env r.engine older).functions m g) n = some f := by
        intro m g hm
        rw [get_insert, if_neg]
        · exact hf
        · rintro rfl; rw [hm] at hf; cases hf
      cases op with
      | addTemplate m src => rw [Op.apply, (C29_separate env _ m src ⟨.unit, [], fun _ _ => .error ""⟩ (fun _ => .done (.ok ())) 0).1]; exact hf
      | addFilter m g => exact hn _ _ h2
      | addFormatter m g => exact hn _ _ h2
      | setMaxIncludeDepth => exact hf
      | removeTemplate | removeFunction | setDefaultFormatter => exact h2.elim
  · intro _
    induction ops with
    | nil => exact fun _ _ => id
    | cons op older ih =>
      obtain ⟨h1, h2⟩ := h
      intro n t ht
      have ht := ih h1 n t ht
      rw [after]
      cases op with
      | addTemplate m src =>
        rw [Op.apply, Engine.addTemplate]
        split
        · rw [get_insert, if_neg]
          · exact ht
          · rintro rfl
            have h2 : BMap.get (after env r.engine older).templates n = none := h2
            rw [ht] at h2; cases h2
        · exact ht
        · exact ht
      | addFilter | addFormatter | setMaxIncludeDepth => exact ht
      | removeTemplate | removeFunction | setDefaultFormatter => exact h2.elim
  · have hd : r.engine.maxIncludeDepth ≤ (after env r.engine ops).maxIncludeDepth := by
      induction ops with
      | nil => exact Nat.le_refl _
      | cons op older ih =>
        obtain ⟨h1, h2⟩ := h
        refine Nat.le_trans (ih h1) ?_
        rw [after]
        cases op with
        | addTemplate n src => rw [Op.apply, Engine.addTemplate]; split <;> exact Nat.le_refl _
        | addFilter | addFormatter => exact Nat.le_refl _
        | setMaxIncludeDepth => exact h2
        | removeTemplate | removeFunction | setDefaultFormatter => exact h2.elim
    cases r.maxIncludeDepth with
    | none => exact hd
    | some d => exact Nat.le_refl _

/-- **C67** An engine from which a function or a template is removed has less. -/
theorem C67_removal {env : Env} {b : SyntaxBuilder} {e : Engine} (he : Fresh env b e) {ops : List Op} {r : Renderer} (hr : r.engine = after env e ops) (n : Str) :
    Richer { r with engine := (r.engine.removeFunction n).1 } r ∧ Richer { r with engine := (r.engine.removeTemplate n).1 } r := by
  have ha : Ascending r.engine.templates ∧ Ascending r.engine.functions := by rw [hr]; exact after_ascending he ops
  refine ⟨⟨rfl, rfl, rfl, rfl, rfl, ?_, fun _ _ _ => id, Nat.le_refl _⟩, ⟨rfl, rfl, rfl, rfl, rfl, fun _ _ => id, ?_, Nat.le_refl _⟩⟩
  · intro m f hf
    have hf : BMap.get (BMap.remove r.engine.functions n) m = some f := hf
    rw [get_remove ha.2] at hf
    split at hf
    · cases hf
    · exact hf
  · intro _ m f hf
    have hf : BMap.get (BMap.remove r.engine.templates n) m = some f := hf
    rw [get_remove ha.1] at hf
    split at hf
    · cases hf
    · exact hf

end Upon
