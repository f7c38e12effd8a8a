import Verif.Model.Threads
import Verif.Props.Output
import Verif.Props.Render
/-
For C57: a render among others and the same render alone.
-/
namespace Upon
open Spec
variable {σ τ : Type}

namespace Threads

/-- The render alone, after a number of turns. -/
def alone (j : Job τ) (s : τ) : Nat → τ × Job τ
  | 0 => (s, j)
  | n + 1 => (alone j s n).2.turn (alone j s n).1

/-- How the same render stands among others, where the outputs are `x`, and alone. -/
inductive JRel (sink : Sink τ) (R : σ → τ → Prop) (x : σ) : Job σ → τ × Job τ → Prop
  | running {cfg : RenderCfg σ} {vm : VM σ} {vm' : VM τ} {s : τ} : vm.frames = vm'.frames → vm.stack = vm'.stack → vm.expr = vm'.expr →
      vm.w.asked = vm'.w.asked → R x s → JRel sink R x (.running cfg vm) (s, .running (cfg.on sink) vm')
  | writing {cfg : RenderCfg σ} {vm : VM σ} {vm' : VM τ} {s : τ} {p : FmtProg} {span : Span} : vm.frames = vm'.frames → vm.stack = vm'.stack →
      vm.w.asked = vm'.w.asked → R x s → JRel sink R x (.writing cfg vm p span) (s, .writing (cfg.on sink) vm' p span)
  | ok {w : World σ} {w' : World τ} {s : τ} : w.asked = w'.asked → w'.out = s → R x s → JRel sink R x (.done (.ok w)) (s, .done (.ok w'))
  | err {e : Err} {w : World σ} {w' : World τ} {s : τ} : w.asked = w'.asked → w'.out = s → R x s → JRel sink R x (.done (.err e w)) (s, .done (.err e w'))
  | crash {s : τ} : R x s → JRel sink R x (.done .crash) (s, .done .crash)

theorem JRel.out {sink : Sink τ} {R : σ → τ → Prop} {x : σ} {j : Job σ} {p : τ × Job τ} (h : JRel sink R x j p) : R x p.1 := by
  cases h <;> assumption

theorem JRel.change {sink : Sink τ} {R : σ → τ → Prop} {x y : σ} {j : Job σ} {p : τ × Job τ} (h : JRel sink R x j p) (hy : R y p.1) :
    JRel sink R y j p := by
  cases h with
  | running h1 h2 h3 h4 => exact .running h1 h2 h3 h4 hy
  | writing h1 h2 h3 => exact .writing h1 h2 h3 hy
  | ok h1 h2 => exact .ok h1 h2 hy
  | err h1 h2 => exact .err h1 h2 hy
  | crash => exact .crash hy

/-- The sink that a render writes to. -/
def Into (snk : Sink σ) : Job σ → Prop
  | .running cfg _ => cfg.sink = snk
  | .writing cfg _ _ _ => cfg.sink = snk
  | .done _ => True

theorem printing_on (cfg : RenderCfg σ) (sink : Sink τ) {vm : VM σ} {vm' : VM τ} (h1 : vm.frames = vm'.frames) (h2 : vm.stack = vm'.stack)
    (h3 : vm.expr = vm'.expr) : printing (cfg.on sink) vm' = printing cfg vm := by
  unfold printing
  rw [h1, h2, h3]
  rfl

theorem returns_rel {sink : Sink τ} {R : σ → τ → Prop} {cfg : RenderCfg σ} {vm : VM σ} {vm' : VM τ} {x : σ} {s : τ} (h1 : vm.frames = vm'.frames)
    (h2 : vm.stack = vm'.stack) (h3 : vm.w.asked = vm'.w.asked) (h : R x s) (span : Span) (r : Except (Option String) Unit) :
    JRel sink R x (Job.returns x cfg vm span r) (s, Job.returns s (cfg.on sink) vm' span r) := by
  unfold Job.returns
  rw [← h1, ← h2]
  cases vm.frames with
  | nil => exact .crash h
  | cons fr frames =>
    cases r with
    | ok u => exact .running rfl rfl rfl h3 h
    | error reason =>
      dsimp only
      rw [show (cfg.on sink).env = cfg.env from rfl]
      cases (throwAt cfg.env .format reason fr.tmpl.source span : Res Unit) with
      | ok u => exact .crash h
      | err e => exact .err h3 rfl h
      | crash => exact .crash h

theorem turn_rel {snk : Sink σ} {sink : Sink τ} {R : σ → τ → Prop}
    (h : ∀ a b t, R a b → (snk.write a t).2 = (sink.write b t).2 ∧ R (snk.write a t).1 (sink.write b t).1) {x : σ} {j : Job σ} {p : τ × Job τ}
    (hs : Into snk j) (hj : JRel sink R x j p) :
    JRel sink R (j.turn x).1 (j.turn x).2 (p.2.turn p.1) := by
  cases hj with
  | ok h1 h2 h3 => exact .ok h1 h2 h3
  | err h1 h2 h3 => exact .err h1 h2 h3
  | crash h => exact .crash h
  | @writing cfg vm vm' s p span h1 h2 h3 h4 =>
    have hc : cfg.sink = snk := hs
    cases p with
    | done r => exact returns_rel h1 h2 h3 h4 span r
    | write t k =>
      simp only [Job.turn]
      obtain ⟨e1, e2⟩ := h x s t h4
      rw [hc, show (cfg.on sink).sink = sink from rfl, e1]
      exact .writing h1 h2 h3 e2
  | @running cfg vm vm' s h1 h2 h3 h4 h5 =>
    have hc : cfg.sink = snk := hs
    have key := step_rel (lock_alike cfg (s' := sink) (R := R) (by rw [hc]; exact h))
      (vm := { vm with w := { vm.w with out := x } }) (vm' := { vm' with w := { vm'.w with out := s } }) ⟨h1, h2, h3, ⟨h5, h4⟩⟩
      (fun ⟨_, _, h⟩ => h.elim)
    simp only [Job.turn]
    rw [printing_on cfg sink h1 h2 h3]
    cases printing cfg vm with
    | some q => exact .writing h1 h2 h4 h5
    | none =>
      dsimp only
      generalize step cfg { vm with w := { vm.w with out := x } } = a at key
      generalize step (cfg.on sink) { vm' with w := { vm'.w with out := s } } = b at key
      cases key with
      | next hv => exact .running hv.frames hv.stack hv.expr hv.w.asked hv.w.out
      | broken hb => exact hb.elim
      | halt hr =>
        cases hr with
        | ok hw => exact .ok hw.asked rfl hw.out
        | err hw => exact .err hw.asked rfl hw.out
        | crash => exact .crash h5
        | broken h => obtain ⟨_, h⟩ := h; exact h.elim

/-- What another thread's turn leaves alone. -/
theorem turn_has {snk : Sink σ} {P : σ → Prop} (hP : ∀ a t, P a → P (snk.write a t).1) {x : σ} (hx : P x) {j : Job σ}
    (hs : Into snk j) : P (j.turn x).1 := by
  cases j with
  | done r => exact hx
  | writing cfg vm p span =>
    have hc : cfg.sink = snk := hs
    cases p with
    | done r => exact hx
    | write t k => simp only [Job.turn]; rw [hc]; exact hP x t hx
  | running cfg vm =>
    have hc : cfg.sink = snk := hs
    have key := step_has (cfg := cfg) (P := P) (by rw [hc]; exact hP) (vm := { vm with w := { vm.w with out := x } }) hx
    simp only [Job.turn]
    cases printing cfg vm with
    | some q => exact hx
    | none =>
      dsimp only
      generalize step cfg { vm with w := { vm.w with out := x } } = a at key
      cases a with
      | next vm => exact key
      | halt r =>
        cases r with
        | ok w => exact key w (.inl rfl)
        | err e w => exact key w (.inr ⟨e, rfl⟩)
        | crash => exact hx

theorem turn_sink {snk : Sink σ} {x : σ} {j : Job σ} (hs : Into snk j) : Into snk (j.turn x).2 := by
  cases j with
  | done r => trivial
  | writing cfg vm p span =>
    cases p with
    | write t k => exact hs
    | done r =>
      show Into snk (Job.returns x cfg vm span r)
      unfold Job.returns
      cases vm.frames with
      | nil => trivial
      | cons fr frames =>
        cases r with
        | ok u => exact hs
        | error reason =>
          dsimp only
          cases (throwAt cfg.env .format reason fr.tmpl.source span : Res Unit) <;> trivial
  | running c v =>
    simp only [Job.turn]
    cases printing c v with
    | some q => exact hs
    | none =>
      dsimp only
      cases step c { v with w := { v.w with out := x } } with
      | next v' => exact hs
      | halt r => cases r <;> trivial

theorem turn_get (t : Threads σ) (i k : Nat) : (t.turn i).jobs[k]? =
    if i = k then (t.jobs[k]?).map (fun j => (j.turn t.out).2) else t.jobs[k]? := by
  unfold turn
  cases h : t.jobs[i]? with
  | none =>
    by_cases hi : i = k
    · subst hi; rw [if_pos rfl, h]; rfl
    · rw [if_neg hi]
  | some j =>
    simp only [List.getElem?_set]
    split
    · subst_vars
      rw [h]
      have := (List.getElem?_eq_some_iff.mp h).1
      simp [this]
    · rfl

theorem turn_out (t : Threads σ) (i : Nat) : (t.turn i).out = match t.jobs[i]? with | none => t.out | some j => (j.turn t.out).1 := by
  unfold turn
  cases t.jobs[i]? <;> rfl

/-- The render of thread `k` stands after any turns of the threads as it stands alone after as many turns of its own. -/
theorem run_rel {sinks : Nat → Sink σ} {sink : Sink τ} {R : σ → τ → Prop} (k : Nat)
    (h : ∀ a b t, R a b → ((sinks k).write a t).2 = (sink.write b t).2 ∧ R ((sinks k).write a t).1 (sink.write b t).1)
    (hf : ∀ i, i ≠ k → ∀ a b t, R a b → R ((sinks i).write a t).1 b) {t : Threads σ}
    (hs : ∀ i j, t.jobs[i]? = some j → Into (sinks i) j) {j : Job σ} (hk : t.jobs[k]? = some j)
    {j' : Job τ} {s : τ} (hj : JRel sink R t.out j (s, j')) (schedule : List Nat) :
    ∃ j₁, (t.run schedule).jobs[k]? = some j₁ ∧ JRel sink R (t.run schedule).out j₁ (alone j' s (schedule.count k)) := by
  suffices hh : ∀ n, JRel sink R t.out j (alone j' s n) →
      ∃ j₁, (t.run schedule).jobs[k]? = some j₁ ∧ JRel sink R (t.run schedule).out j₁ (alone j' s (n + schedule.count k)) by
    simpa using hh 0 hj
  clear hj
  induction schedule generalizing t j with
  | nil => intro n hj; exact ⟨j, hk, hj⟩
  | cons i schedule ih =>
    intro n hj
    have hs' : ∀ a b, (t.turn i).jobs[a]? = some b → Into (sinks a) b := by
      intro a b hb
      rw [turn_get] at hb
      split at hb
      · cases ha : t.jobs[a]? with
        | none => rw [ha] at hb; cases hb
        | some c =>
          rw [ha] at hb
          cases hb
          exact turn_sink (hs a c ha)
      · exact hs a b hb
    show ∃ j₁, ((t.turn i).run schedule).jobs[k]? = some j₁ ∧ JRel sink R ((t.turn i).run schedule).out j₁ _
    by_cases hi : i = k
    · subst hi
      have e1 : (t.turn i).jobs[i]? = some (j.turn t.out).2 := by rw [turn_get, if_pos rfl, hk]; rfl
      have e2 : (t.turn i).out = (j.turn t.out).1 := by rw [turn_out, hk]
      obtain ⟨j₁, h1, h2⟩ := ih hs' e1 (n + 1) (by rw [e2]; exact turn_rel h (hs i j hk) hj)
      refine ⟨j₁, h1, ?_⟩
      rw [List.count_cons_self, show n + (List.count i schedule + 1) = n + 1 + List.count i schedule by omega]
      exact h2
    · have e1 : (t.turn i).jobs[k]? = some j := by rw [turn_get, if_neg hi, hk]
      have e2 : R (t.turn i).out (alone j' s n).1 := by
        rw [turn_out]
        cases ha : t.jobs[i]? with
        | none => exact hj.out
        | some c => exact turn_has (P := fun a => R a (alone j' s n).1) (fun a t h => hf i hi a _ t h) hj.out (hs i c ha)
      obtain ⟨j₁, h1, h2⟩ := ih hs' e1 n (hj.change e2)
      refine ⟨j₁, h1, ?_⟩
      rw [List.count_cons_of_ne (fun e => hi e)]
      exact h2

/-! Alone -/

theorem alone_succ (j : Job τ) (s : τ) (n : Nat) : alone j s (n + 1) = alone (j.turn s).2 (j.turn s).1 n := by
  induction n with
  | zero => rfl
  | succ n ih => rw [alone, ih]; rfl

theorem alone_done (r : RunRes τ) (s : τ) (n : Nat) : alone (.done r) s n = (s, .done r) := by
  induction n with
  | zero => rfl
  | succ n ih => rw [alone, ih]; rfl

theorem alone_add (j : Job τ) (s : τ) (a b : Nat) : alone j s (a + b) = alone (alone j s a).2 (alone j s a).1 b := by
  induction b with
  | zero => rfl
  | succ b ih => rw [← Nat.add_assoc, alone, ih]; rfl

/-- Where a render stands after an instruction. -/
inductive Settled (cfg : RenderCfg τ) : StepRes τ → τ × Job τ → Prop
  | next (vm : VM τ) : Settled cfg (.next vm) (vm.w.out, .running cfg vm)
  | ok (w : World τ) : Settled cfg (.halt (.ok w)) (w.out, .done (.ok w))
  | err (e : Err) (w : World τ) : Settled cfg (.halt (.err e w)) (w.out, .done (.err e w))
  | crash (s : τ) : Settled cfg (.halt .crash) (s, .done .crash)

/-- The instruction that calls a formatter. -/
def printed (cfg : RenderCfg τ) (vm : VM τ) (span : Span) (q : τ × Except (Option String) Unit) : StepRes τ :=
  match vm.frames with
  | [] => .halt .crash
  | fr :: frames =>
    match q with
    | (out, .ok ()) => .next ⟨{ fr with pc := fr.pc + 1 } :: frames, vm.stack, none, { vm.w with out }⟩
    | (out, .error reason) =>
      match (throwAt cfg.env .format reason fr.tmpl.source span : Res Unit) with
      | .err e => .halt (.err (e.attachName fr.name) { vm.w with out })
      | _ => .halt .crash

theorem step_emit {cfg : RenderCfg τ} {vm : VM τ} {fr : Frame} {frames : List Frame} (hf : vm.frames = fr :: frames) {f : Formatter} {v : Value}
    {span : Span} {i : Instr} (hi : fr.tmpl.instrs[fr.pc]? = some i)
    (he : execInstr cfg fr.tmpl.source fr.pc vm.stack vm.expr vm.w i =
      emit cfg f v fr.tmpl.source span vm.w (fun w => .next (fr.pc + 1) vm.stack none w)) :
    step cfg vm = printed cfg vm span ((f v).run cfg.sink vm.w.out) := by
  unfold step printed
  rw [hf]
  dsimp only
  rw [hi]
  dsimp only
  rw [he, emit]
  generalize (f v).run cfg.sink vm.w.out = q
  obtain ⟨out, r⟩ := q
  cases r with
  | ok u => rfl
  | error reason =>
    dsimp only
    cases (throwAt cfg.env .format reason fr.tmpl.source span : Res Unit) <;> rfl

theorem step_printing {cfg : RenderCfg τ} {vm : VM τ} {p : FmtProg} {span : Span} (h : printing cfg vm = some (p, span)) :
    step cfg vm = printed cfg vm span (p.run cfg.sink vm.w.out) := by
  unfold printing at h
  cases hf : vm.frames with
  | nil => rw [hf] at h; cases h
  | cons fr frames =>
    rw [hf] at h
    dsimp only at h
    cases hi : fr.tmpl.instrs[fr.pc]? with
    | none => rw [hi] at h; cases h
    | some i =>
      rw [hi] at h
      cases hx : vm.expr with
      | none => rw [hx] at h; cases i <;> cases h
      | some v =>
        rw [hx] at h
        cases i with
        | emit sp => cases h; exact step_emit hf hi (by rw [hx]; rfl)
        | emitWith name sp =>
          dsimp only at h
          cases hn : name.span.of fr.tmpl.source with
          | none => rw [hn] at h; cases h
          | some n =>
            rw [hn] at h
            dsimp only at h
            cases hg : BMap.get cfg.functions n with
            | none => rw [hg] at h; cases h
            | some g =>
              rw [hg] at h
              cases g with
              | formatter f =>
                cases h
                refine step_emit hf hi ?_
                rw [hx, execInstr, hn]
                dsimp only [Res.ofOption, OneStep.ofRes]
                rw [hg]
              | filter f =>
                dsimp only at h
                cases hc : enrich cfg.env fr.tmpl.source name.span (callFilter cfg.env f fr.tmpl.source vm.stack name v []) with
                | ok r =>
                  rw [hc] at h
                  cases h
                  refine step_emit hf hi ?_
                  rw [hx, execInstr, hn]
                  dsimp only [Res.ofOption, OneStep.ofRes]
                  rw [hg]
                  dsimp only
                  rw [hc]
                | err e => rw [hc] at h; cases h
                | crash => rw [hc] at h; cases h
        | _ => cases h

theorem alone_writing (cfg : RenderCfg τ) (vm : VM τ) (span : Span) : ∀ (p : FmtProg) (s : τ),
    ∃ c, Settled cfg (printed cfg vm span (p.run cfg.sink s)) (alone (.writing cfg vm p span) s (c + 1))
  | .done r, s => by
    refine ⟨0, ?_⟩
    show Settled cfg _ (s, Job.returns s cfg vm span r)
    unfold printed Job.returns FmtProg.run
    cases vm.frames with
    | nil => exact .crash s
    | cons fr frames =>
      cases r with
      | ok u => exact .next _
      | error reason =>
        dsimp only
        cases (throwAt cfg.env .format reason fr.tmpl.source span : Res Unit) with
        | ok u => exact .crash s
        | err e => exact .err _ _
        | crash => exact .crash s
  | .write t k, s => by
    obtain ⟨c, hc⟩ := alone_writing cfg vm span (k (cfg.sink.write s t).2) (cfg.sink.write s t).1
    refine ⟨c + 1, ?_⟩
    rw [alone_succ]
    exact hc

/-- An instruction takes some number of turns. -/
theorem alone_step (cfg : RenderCfg τ) (vm : VM τ) : ∃ c, Settled cfg (step cfg vm) (alone (.running cfg vm) vm.w.out (c + 1)) := by
  cases hp : printing cfg vm with
  | some q =>
    obtain ⟨p, span⟩ := q
    rw [step_printing hp]
    obtain ⟨c, hc⟩ := alone_writing cfg vm span p vm.w.out
    refine ⟨c + 1, ?_⟩
    rw [alone_succ]
    have : (Job.running cfg vm).turn vm.w.out = (vm.w.out, .writing cfg vm p span) := by simp only [Job.turn]; rw [hp]
    rw [this]
    exact hc
  | none =>
    refine ⟨0, ?_⟩
    show Settled cfg _ ((Job.running cfg vm).turn vm.w.out)
    simp only [Job.turn]
    rw [hp]
    dsimp only
    rw [show ({ vm with w := { vm.w with out := vm.w.out } } : VM τ) = vm from rfl]
    cases step cfg vm with
    | next vm' => exact .next _
    | halt r =>
      cases r with
      | ok w => exact .ok w
      | err e w => exact .err e w
      | crash => exact .crash _

theorem Settled.done {cfg : RenderCfg τ} {r : RunRes τ} {q : τ × Job τ} (h : Settled cfg (.halt r) q) : q.2 = .done r := by
  cases h <;> rfl

theorem alone_run {cfg : RenderCfg τ} {n : Nat} {vm : VM τ} {r : RunRes τ} (h : Upon.run cfg n vm = some r) :
    ∃ c x, ∀ m, c ≤ m → alone (.running cfg vm) vm.w.out m = (x, .done r) := by
  induction n generalizing vm with
  | zero => cases h
  | succ n ih =>
    rw [Upon.run] at h
    obtain ⟨c, hc⟩ := alone_step cfg vm
    cases hs : step cfg vm with
    | next vm' =>
      rw [hs] at h hc
      obtain ⟨d, x, h2⟩ := ih h
      refine ⟨c + 1 + d, x, fun m hm => ?_⟩
      obtain ⟨m, rfl⟩ : ∃ k, m = c + 1 + k := ⟨m - (c + 1), by omega⟩
      rw [alone_add]
      generalize alone (.running cfg vm) vm.w.out (c + 1) = q at hc
      cases hc
      exact h2 m (by omega)
    | halt r' =>
      rw [hs] at h hc
      cases h
      refine ⟨c + 1, (alone (.running cfg vm) vm.w.out (c + 1)).1, fun m hm => ?_⟩
      obtain ⟨m, rfl⟩ : ∃ k, m = c + 1 + k := ⟨m - (c + 1), by omega⟩
      rw [alone_add, hc.done, alone_done]

theorem halts_of_alone {cfg : RenderCfg τ} {m : Nat} {vm : VM τ} {r : RunRes τ} {x : τ}
    (h : alone (.running cfg vm) vm.w.out m = (x, .done r)) : Halts cfg vm r := by
  induction m using Nat.strongRecOn generalizing vm with
  | ind m ih =>
    obtain ⟨c, hc⟩ := alone_step cfg vm
    by_cases hm : c + 1 ≤ m
    · obtain ⟨k, rfl⟩ : ∃ k, m = c + 1 + k := ⟨m - (c + 1), by omega⟩
      rw [alone_add] at h
      cases hs : step cfg vm with
      | next vm' =>
        rw [hs] at hc
        generalize alone (.running cfg vm) vm.w.out (c + 1) = q at hc h
        cases hc
        obtain ⟨n, hn⟩ := ih k (by omega) h
        exact ⟨n + 1, by rw [Upon.run, hs]; exact hn⟩
      | halt r' =>
        rw [hs] at hc
        rw [hc.done, alone_done] at h
        cases h
        exact ⟨1, by rw [Upon.run, hs]⟩
    · obtain ⟨k, hk⟩ : ∃ k, c + 1 = m + k := ⟨c + 1 - m, by omega⟩
      rw [hk, alone_add, h, alone_done] at hc
      cases hs : step cfg vm with
      | next vm' => rw [hs] at hc; cases hc
      | halt r' =>
        rw [hs] at hc
        have := hc.done
        cases this
        exact ⟨1, by rw [Upon.run, hs]⟩

/-- Threads that have just been started, and one of their renders. -/
theorem started {env : Env} {sinks : Nat → Sink σ} {sink : Sink τ} {R : σ → τ → Prop} (k : Nat)
    (h : ∀ a b t, R a b → ((sinks k).write a t).2 = (sink.write b t).2 ∧ R ((sinks k).write a t).1 (sink.write b t).1)
    (hf : ∀ i, i ≠ k → ∀ a b t, R a b → R ((sinks i).write a t).1 b) {rs : List Renderer} {r : Renderer} (hr : rs[k]? = some r) {x : σ} {s : τ}
    (hR : R x s) (schedule : List Nat) :
    ∃ j₁, ((start env sinks rs x).run schedule).jobs[k]? = some j₁ ∧
      JRel sink R ((start env sinks rs x).run schedule).out j₁ (alone (.start env sink r s) s (schedule.count k)) := by
  refine run_rel (t := start env sinks rs x) (j := .start env (sinks k) r x) k h hf ?_ ?_ ?_ schedule
  · intro i j hj
    simp only [start, List.getElem?_mapIdx] at hj
    cases hi : rs[i]? with
    | none => rw [hi] at hj; cases hj
    | some r' =>
      rw [hi] at hj
      simp only [Option.map_some, Option.some.injEq] at hj
      rw [← hj, Job.start]
      cases hb : r'.base with
      | ok b => exact rfl
      | err e' => trivial
      | crash => trivial
  · simp [start, List.getElem?_mapIdx, hr]
  · show JRel sink R x _ _
    rw [Job.start, Job.start]
    cases hb : r.base with
    | ok b => exact .running rfl rfl rfl rfl hR
    | err e => exact .err rfl rfl hR
    | crash => exact .crash hR

/-- How the render ends alone. -/
inductive Ends (env : Env) (sink : Sink τ) (r : Renderer) (s : τ) : RunRes τ → Prop
  | globals {e} : r.base = .err e → Ends env sink r s (.err e ⟨s, []⟩)
  | globalsCrash : r.base = .crash → Ends env sink r s .crash
  | run {b res} : r.base = .ok b → Halts (r.cfg env sink) (initVM r.template r.name b s) res → Ends env sink r s res

theorem ends_of_alone {env : Env} {sink : Sink τ} {r : Renderer} {s x : τ} {n : Nat} {res : RunRes τ}
    (h : alone (.start env sink r s) s n = (x, .done res)) : Ends env sink r s res := by
  rw [Job.start] at h
  cases hb : r.base with
  | ok b => rw [hb] at h; exact .run hb (halts_of_alone h)
  | err e => rw [hb] at h; rw [alone_done] at h; cases h; exact .globals hb
  | crash => rw [hb] at h; rw [alone_done] at h; cases h; exact .globalsCrash hb

theorem alone_of_ends {env : Env} {sink : Sink τ} {r : Renderer} {s : τ} {res : RunRes τ} (h : Ends env sink r s res) :
    ∃ n x, ∀ m, n ≤ m → alone (.start env sink r s) s m = (x, .done res) := by
  rw [Job.start]
  cases h with
  | globals hb => rw [hb]; exact ⟨0, s, fun m _ => alone_done _ _ _⟩
  | globalsCrash hb => rw [hb]; exact ⟨0, s, fun m _ => alone_done _ _ _⟩
  | run hb hh =>
    rw [hb]
    obtain ⟨n, hn⟩ := hh
    exact alone_run hn

theorem ends_string {env : Env} {r : Renderer} {res : RunRes Str} (h : Ends env stringSink r [] res) : r.ToString env (stringResult res) := by
  cases h with
  | globals hb => exact .globalsErr _ hb
  | globalsCrash hb => exact .globalsCrash hb
  | run hb hh =>
    cases res with
    | ok w => exact .ok _ w hb hh
    | err e w => exact .err _ e w hb hh
    | crash => exact .crash _ hb hh

theorem string_ends {env : Env} {r : Renderer} {res : Res Str} (h : r.ToString env res) :
    ∃ res', Ends env stringSink r [] res' ∧ stringResult res' = res := by
  cases h with
  | globalsErr e hb => exact ⟨_, .globals hb, rfl⟩
  | globalsCrash hb => exact ⟨_, .globalsCrash hb, rfl⟩
  | ok b w hb hh => exact ⟨_, .run hb hh, rfl⟩
  | err b e w hb hh => exact ⟨_, .run hb hh, rfl⟩
  | crash b hb hh => exact ⟨_, .run hb hh, rfl⟩

end Threads
end Upon
