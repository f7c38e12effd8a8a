import Verif.Proofs.Interrupted
/-
C71: renders that are interrupted. Threads take turns (`Model/Threads`); a render that panics in a function of the user, whose thread is stopped, or whose
process is killed, is one that gets no more turns. So whatever holds after every schedule holds at every point where a render may be interrupted.
-/
namespace Upon
open Spec
variable {ω : Type} {env : Env} {rs : List Renderer} {k : Nat} {r : Renderer}

/-- What the writer of thread `k` is like. -/
def Spec.writerOf (t : Threads (Nat → ω × Option Nat)) (k : Nat) : ω := (t.out k).1

theorem Threads.writer_alone (hr : rs[k]? = some r) (io : Nat → IoWriter ω) (w₀ : Nat → ω) (schedule : List Nat) :
    writerOf ((toOwnWriters env rs io w₀).run schedule) k =
      (Threads.alone (.start env (writerSink (io k)) r (w₀ k, none)) (w₀ k, none) (schedule.count k)).1.1 := by
  obtain ⟨j, _, h⟩ := Threads.writer_of (env := env) hr io w₀ schedule
  exact congrArg Prod.fst h.out

/-- How a render on a writer ends, alone, after enough turns. -/
theorem Threads.writer_ends {io : IoWriter ω} {w₀ w : ω} {res : Res Unit} (h : r.ToWriter env io w₀ res w) (hne : res ≠ .crash) :
    ∃ n, ∀ m, n ≤ m → (Threads.alone (.start env (writerSink io) r (w₀, none)) (w₀, none) m).1.1 = w := by
  have key : ∃ res' x, Threads.Ends env (writerSink io) r (w₀, none) res' ∧ (res' = .ok x ∨ ∃ e, res' = .err e x) ∧ x.out.1 = w := by
    cases h with
    | globalsErr e hb => exact ⟨_, _, .globals hb, .inr ⟨_, rfl⟩, rfl⟩
    | globalsCrash hb => exact absurd rfl hne
    | ok b w hb hh => exact ⟨_, _, .run hb hh, .inl rfl, rfl⟩
    | err b e w hb hh => exact ⟨_, _, .run hb hh, .inr ⟨_, rfl⟩, rfl⟩
    | crash b w hb hh => exact absurd rfl hne
  obtain ⟨res', x, h1, h2, rfl⟩ := key
  obtain ⟨n, y, hn⟩ := Threads.alone_of_ends h1
  refine ⟨n, fun m hm => ?_⟩
  rw [hn m hm, ← Threads.alone_out (hn m hm) h2]

/-- **C71** Whatever order of turns, whatever the other threads do, and wherever a render is interrupted: what its writer has got is the beginning of what it
has when the render has ended, alone and undisturbed, well or with an error. -/
theorem C71_prefix (hr : rs[k]? = some r) (io : Nat → IoWriter ω) {log : ω → List UInt8} (ha : Accepts (io k) log) (w₀ : Nat → ω) (schedule : List Nat)
    {res : Res Unit} {w : ω} (h : r.ToWriter env (io k) (w₀ k) res w) (hne : res ≠ .crash) :
    log (writerOf ((toOwnWriters env rs io w₀).run schedule) k) <+: log w := by
  rw [Threads.writer_alone hr]
  obtain ⟨n, hn⟩ := Threads.writer_ends h hne
  rw [← hn (n + schedule.count k) (by omega)]
  refine Threads.alone_grows (R := fun (a b : ω × Option Nat) => log a.1 <+: log b.1) (fun _ => List.prefix_rfl) (fun a b t hab => ?_) (Nat.le_add_left _ _)
  have e1 := ha.keeps b.1 (utf8 t)
  simp only [writerSink]
  generalize (io k).writeAll b.1 (utf8 t) = p at e1
  obtain ⟨x, e⟩ := p
  cases e <;> exact hab.trans (e1 ▸ List.prefix_append _ _)

/-- A writer that accepts everything, and a string. -/
def Threads.Same (log : ω → List UInt8) (w₀ : ω) (k : Nat) (x : Nat → ω × Option Nat) (s : Str) : Prop := log (x k).1 = log w₀ ++ utf8 s

theorem Threads.same_write {io : Nat → IoWriter ω} {log : ω → List UInt8} (ha : Accepts (io k) log) (w₀ : ω) : ∀ a b t, Threads.Same log w₀ k a b →
    ((ownSink (fun i => writerSink (io i)) k).write a t).2 = (stringSink.write b t).2 ∧
      Threads.Same log w₀ k ((ownSink (fun i => writerSink (io i)) k).write a t).1 (stringSink.write b t).1 := by
  intro a b t h
  have e1 := ha.accepts (a k).1 (utf8 t)
  have e2 := ha.keeps (a k).1 (utf8 t)
  unfold Threads.Same at h ⊢
  simp only [ownSink, setAt, if_true, writerSink, stringSink]
  generalize (io k).writeAll (a k).1 (utf8 t) = p at e1 e2
  obtain ⟨w, e⟩ := p
  dsimp only at e1 e2
  subst e1
  exact ⟨rfl, by rw [utf8_append, e2, h, List.append_assoc]⟩

/-- **C71** … and it is whole characters: the first characters of the text that `to_string` returns. -/
theorem C71_text (hr : rs[k]? = some r) (io : Nat → IoWriter ω) {log : ω → List UInt8} (ha : Accepts (io k) log) (w₀ : Nat → ω) (schedule : List Nat)
    {s : Str} (h : r.ToString env (.ok s)) :
    ∃ p, p <+: s ∧ log (writerOf ((toOwnWriters env rs io w₀).run schedule) k) = log (w₀ k) ++ utf8 p := by
  obtain ⟨j, _, h2⟩ := Threads.started (env := env) (sinks := ownSink fun i => writerSink (io i)) (sink := stringSink) (R := Threads.Same log (w₀ k) k) k
    (Threads.same_write ha _) (fun i hi a b t h => by
      unfold Threads.Same at h ⊢
      rwa [Threads.own_frame (fun i => writerSink (io i)) k i hi a _ t rfl]) hr (x := fun i => (w₀ i, none)) (s := [])
    (by unfold Threads.Same; simp) schedule
  refine ⟨_, ?_, h2.out⟩
  obtain ⟨res, h3, h4⟩ := Threads.string_ends h
  obtain ⟨n, x, hn⟩ := Threads.alone_of_ends h3
  have hx : x = s := by
    cases res with
    | ok w => cases h4; exact (Threads.alone_out (hn n (Nat.le_refl _)) (.inl rfl)).symm
    | err e w => cases h4
    | crash => cases h4
  have := Threads.alone_grows (env := env) (snk := stringSink) (R := fun a b => a <+: b) (fun _ => List.prefix_rfl)
    (fun a b t hab => hab.trans (List.prefix_append _ _)) (r := r) (x := []) (n := schedule.count k) (m := n + schedule.count k) (by omega)
  rwa [hn (n + schedule.count k) (by omega), hx] at this

/-- **C71** On any writer, also one that fails: the attempts to write made so far are the first attempts of the whole render. (Attempts are listed with the most
recent first.) -/
theorem C71_attempts (hr : rs[k]? = some r) (io : Nat → IoWriter ω) (w₀ : Nat → ω) (schedule : List Nat) {res : Res Unit} {w : ω} {l : List Attempt}
    (h : r.ToWriter env (recording (io k)) (w₀ k, []) res (w, l)) (hne : res ≠ .crash) :
    (writerOf ((toOwnWriters env rs (fun i => recording (io i)) fun i => (w₀ i, [])).run schedule) k).2 <:+ l := by
  rw [Threads.writer_alone hr]
  obtain ⟨n, hn⟩ := Threads.writer_ends h hne
  have e := hn (n + schedule.count k) (by omega)
  rw [show l = (w, l).2 from rfl, ← e]
  refine Threads.alone_grows (R := fun (a b : (ω × List Attempt) × Option Nat) => a.1.2 <:+ b.1.2) (fun _ => List.suffix_rfl) (fun a b t hab => ?_) (Nat.le_add_left _ _)
  simp only [writerSink, recording]
  generalize (io k).writeAll b.1.1 (utf8 t) = p
  obtain ⟨x, e⟩ := p
  cases e <;> exact hab.trans (List.suffix_cons _ _)

/-- **C71** Nothing that has been written is taken back, at any time, also in a render that will panic. -/
theorem C71_grows (hr : rs[k]? = some r) (io : Nat → IoWriter ω) (w₀ : Nat → ω) (schedule more : List Nat) :
    (writerOf ((toOwnWriters env rs (fun i => recording (io i)) fun i => (w₀ i, [])).run schedule) k).2 <:+
      (writerOf ((toOwnWriters env rs (fun i => recording (io i)) fun i => (w₀ i, [])).run (schedule ++ more)) k).2 := by
  rw [Threads.writer_alone hr, Threads.writer_alone hr]
  refine Threads.alone_grows (R := fun (a b : (ω × List Attempt) × Option Nat) => a.1.2 <:+ b.1.2) (fun _ => List.suffix_rfl) (fun a b t hab => ?_)
    (by rw [List.count_append]; exact Nat.le_add_right _ _)
  simp only [writerSink, recording]
  generalize (io k).writeAll b.1.1 (utf8 t) = p
  obtain ⟨x, e⟩ := p
  cases e <;> exact hab.trans (List.suffix_cons _ _)

/-- **C71** The same on a writer that the threads share: what this thread has written so far is the beginning of what it writes alone. -/
theorem C71_shared {io : IoWriter ω} {log : ω → List UInt8} (ha : Accepts io log) (w₀ : ω) (hr : rs[k]? = some r) (schedule : List Nat) {res : Res Unit}
    {full : List UInt8} (h : r.ToWriter env vec [] res full) (hne : res ≠ .crash) :
    writtenBy k ((toOneWriter env rs io w₀).run schedule).out.wrote <+: full := by
  obtain ⟨j₁, h1, h2⟩ := Threads.started (env := env) (sinks := sharedSink io) (R := Threads.MineVec k) k (Threads.vec_write ha k)
    (Threads.vec_frame ha k) hr (x := ⟨w₀, [], fun _ => none⟩) (s := ([], none)) ⟨rfl, rfl⟩ schedule
  obtain ⟨n, hn⟩ := Threads.writer_ends h hne
  rw [show writtenBy k ((toOneWriter env rs io w₀).run schedule).out.wrote = _ from (congrArg Prod.fst h2.out.2).symm, ← hn (n + schedule.count k) (by omega)]
  refine Threads.alone_grows (R := fun (a b : List UInt8 × Option Nat) => a.1 <+: b.1) (fun _ => List.prefix_rfl) (fun a b t hab => ?_) (Nat.le_add_left _ _)
  simp only [writerSink, vec]
  exact hab.trans (List.prefix_append _ _)

end Upon
