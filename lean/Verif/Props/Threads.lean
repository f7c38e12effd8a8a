import Verif.Spec.Threads
import Verif.Proofs.Threads
/-
C57: renders at the same time do not disturb each other.
-/
namespace Upon
open Spec
variable {ω : Type} {env : Env} {rs : List Renderer} {k : Nat} {r : Renderer}

theorem Threads.own_write {τ : Type} (s : Nat → Sink τ) (k : Nat) : ∀ (a : Nat → τ) (b : τ) (t : Str), a k = b →
    ((ownSink s k).write a t).2 = ((s k).write b t).2 ∧ ((ownSink s k).write a t).1 k = ((s k).write b t).1 := by
  rintro a _ t rfl
  exact ⟨rfl, by simp [ownSink, setAt]⟩

theorem Threads.own_frame {τ : Type} (s : Nat → Sink τ) (k : Nat) : ∀ i, i ≠ k → ∀ (a : Nat → τ) (b : τ) (t : Str), a k = b →
    ((ownSink s i).write a t).1 k = b := by
  rintro i hi a _ t rfl
  show (if k = i then _ else a k) = a k
  rw [if_neg (Ne.symm hi)]

theorem Threads.string_of (hr : rs[k]? = some r) (schedule : List Nat) :
    ∃ j₁, ((inStrings env rs).run schedule).jobs[k]? = some j₁ ∧
      Threads.JRel stringSink (fun a b => a k = b) ((inStrings env rs).run schedule).out j₁
        (Threads.alone (.start env stringSink r []) [] (schedule.count k)) :=
  Threads.started (sinks := ownSink fun _ => stringSink) (R := fun a b => a k = b) k (Threads.own_write _ k) (Threads.own_frame _ k) hr rfl schedule

/-- **C57** What a render returns among others, however they take turns, it returns alone. -/
theorem C57_to_string (hr : rs[k]? = some r) (schedule : List Nat) {res : Res Str}
    (h : returned ((inStrings env rs).run schedule) k = some res) : r.ToString env res := by
  obtain ⟨j₁, h1, h2⟩ := Threads.string_of (env := env) hr schedule
  unfold returned at h
  rw [h1] at h
  generalize ha : Threads.alone (.start env stringSink r []) [] (schedule.count k) = p at h2
  cases h2 with
  | running => cases h
  | writing => cases h
  | ok _ h3 h4 => cases h; rw [h4, ← h3]; exact Threads.ends_string (Threads.ends_of_alone ha)
  | err => cases h; exact Threads.ends_string (Threads.ends_of_alone ha)
  | crash => cases h; exact Threads.ends_string (Threads.ends_of_alone ha)

/-- **C57** And what it returns alone it returns among others, as soon as it has had a certain number of turns, which does not depend
on the others nor on the schedule. -/
theorem C57_progress {res : Res Str} (h : r.ToString env res) : ∃ n, ∀ rs k schedule, rs[k]? = some r → n ≤ schedule.count k →
    returned ((inStrings env rs).run schedule) k = some res := by
  obtain ⟨res', h1, rfl⟩ := Threads.string_ends h
  obtain ⟨n, x, hn⟩ := Threads.alone_of_ends h1
  refine ⟨n, fun rs k schedule hr hc => ?_⟩
  obtain ⟨j₁, h2, h3⟩ := Threads.string_of (env := env) hr schedule
  rw [hn _ hc] at h3
  unfold returned
  rw [h2]
  cases h3 with
  | ok _ h3 h4 => rw [stringResult, h3, ← h4]
  | err => rfl
  | crash => rfl

/-- **C57** Renders in threads end, if each gets its turns. -/
theorem C57_terminates (h : Healthy env r) : ∃ n res, ∀ rs k schedule, rs[k]? = some r → n ≤ schedule.count k →
    returned ((inStrings env rs).run schedule) k = some res := by
  obtain ⟨res, h1, _⟩ := C40_to_string h
  obtain ⟨n, hn⟩ := C57_progress h1
  exact ⟨n, res, hn⟩

/-! Writers -/

theorem Threads.writer_of (hr : rs[k]? = some r) (io : Nat → IoWriter ω) (w₀ : Nat → ω) (schedule : List Nat) :
    ∃ j₁, ((toOwnWriters env rs io w₀).run schedule).jobs[k]? = some j₁ ∧
      Threads.JRel (writerSink (io k)) (fun a b => a k = b) ((toOwnWriters env rs io w₀).run schedule).out j₁
        (Threads.alone (.start env (writerSink (io k)) r (w₀ k, none)) (w₀ k, none) (schedule.count k)) :=
  Threads.started (sinks := ownSink fun i => writerSink (io i)) (R := fun a b => a k = b) k (Threads.own_write (fun i => writerSink (io i)) k)
    (Threads.own_frame (fun i => writerSink (io i)) k) hr rfl schedule

/-- **C57** The same for writers of any behaviour, one for each thread: each is left as if its render were alone. -/
theorem C57_to_writer (hr : rs[k]? = some r) (io : Nat → IoWriter ω) (w₀ : Nat → ω) (schedule : List Nat) {res : Res Unit}
    (h : wrote ((toOwnWriters env rs io w₀).run schedule) k = some res) :
    r.ToWriter env (io k) (w₀ k) res (((toOwnWriters env rs io w₀).run schedule).out k).1 := by
  obtain ⟨j₁, h1, h2⟩ := Threads.writer_of (env := env) hr io w₀ schedule
  unfold wrote at h
  rw [h1] at h
  generalize ha : Threads.alone (.start env (writerSink (io k)) r (w₀ k, none)) (w₀ k, none) (schedule.count k) = p at h2
  cases h2 with
  | running => cases h
  | writing => cases h
  | ok _ h3 h4 =>
    cases h
    rw [h4, ← h3]
    cases Threads.ends_of_alone ha with
    | run hb hh => exact .ok _ _ hb hh
  | err _ h3 h4 =>
    cases h
    rw [h4, ← h3]
    cases Threads.ends_of_alone ha with
    | globals hb => exact .globalsErr _ hb
    | run hb hh => exact .err _ _ _ hb hh
  | crash h4 =>
    cases h
    cases Threads.ends_of_alone ha with
    | globalsCrash hb =>
      have : Threads.alone (.start env (writerSink (io k)) r (w₀ k, none)) (w₀ k, none) (schedule.count k) = ((w₀ k, none), .done .crash) := by
        rw [Job.start, hb]; exact Threads.alone_done _ _ _
      rw [this] at ha
      cases ha
      rw [h4]
      exact .globalsCrash hb
    | run hb hh => exact .crash _ _ hb hh

/-- **C57** … and each returns, once it has had enough turns. -/
theorem C57_progress_writer {io : IoWriter ω} {w₀ w : ω} {res : Res Unit} (h : r.ToWriter env io w₀ res w) :
    ∃ n, ∀ rs k (ios : Nat → IoWriter ω) (ws : Nat → ω) schedule, rs[k]? = some r → ios k = io → ws k = w₀ → n ≤ schedule.count k →
      wrote ((toOwnWriters env rs ios ws).run schedule) k = some res := by
  have key : ∃ res', Threads.Ends env (writerSink io) r (w₀, none) res' ∧ res = (match res' with
      | .ok _ => .ok ()
      | .err e w => .err ((w.out.2.map Err.ofIo).getD e)
      | .crash => .crash) := by
    cases h with
    | globalsErr e hb => exact ⟨_, .globals hb, rfl⟩
    | globalsCrash hb => exact ⟨_, .globalsCrash hb, rfl⟩
    | ok b w hb hh => exact ⟨_, .run hb hh, rfl⟩
    | err b e w hb hh => exact ⟨_, .run hb hh, rfl⟩
    | crash b w hb hh => exact ⟨_, .run hb hh, rfl⟩
  obtain ⟨res', h1, rfl⟩ := key
  obtain ⟨n, x, hn⟩ := Threads.alone_of_ends h1
  refine ⟨n, fun rs k ios ws schedule hr e1 e2 hc => ?_⟩
  subst e1 e2
  obtain ⟨j₁, h2, h3⟩ := Threads.writer_of (env := env) hr ios ws schedule
  rw [hn _ hc] at h3
  unfold wrote
  rw [h2]
  cases h3 with
  | ok => rfl
  | err _ h3 h4 => simp only [h4, h3]
  | crash => rfl

/-! One writer -/

/-- What thread `k` sees of a shared writer that accepts everything. -/
def Threads.Mine (log : ω → List UInt8) (w₀ : ω) (k : Nat) (x : Shared ω) (s : Str) : Prop :=
  x.err k = none ∧ writtenBy k x.wrote = utf8 s ∧ log x.writer = log w₀ ++ everything x.wrote

theorem Threads.shared_write {io : IoWriter ω} {log : ω → List UInt8} (hl : Accepts io log) (w₀ : ω) (k : Nat) : ∀ a b t, Threads.Mine log w₀ k a b →
    ((sharedSink io k).write a t).2 = (stringSink.write b t).2 ∧ Threads.Mine log w₀ k ((sharedSink io k).write a t).1 (stringSink.write b t).1 := by
  intro a b t ⟨h1, h2, h3⟩
  have e1 := hl.accepts a.writer (utf8 t)
  have e2 := hl.keeps a.writer (utf8 t)
  simp only [sharedSink, stringSink]
  generalize io.writeAll a.writer (utf8 t) = p at e1 e2
  obtain ⟨w, e⟩ := p
  dsimp only at e1 e2
  subst e1
  refine ⟨rfl, h1, ?_, ?_⟩
  · simp only [writtenBy, everything, List.filter_append, List.flatMap_append] at h2 ⊢
    rw [h2, utf8_append]
    simp
  · simp only [everything, List.flatMap_append] at h3 ⊢
    rw [e2, h3]
    simp

theorem Threads.shared_frame {io : IoWriter ω} {log : ω → List UInt8} (hl : Accepts io log) (w₀ : ω) (k : Nat) : ∀ i, i ≠ k → ∀ a b t,
    Threads.Mine log w₀ k a b → Threads.Mine log w₀ k ((sharedSink io i).write a t).1 b := by
  intro i hi a b t ⟨h1, h2, h3⟩
  have e1 := hl.accepts a.writer (utf8 t)
  have e2 := hl.keeps a.writer (utf8 t)
  simp only [sharedSink]
  generalize io.writeAll a.writer (utf8 t) = p at e1 e2
  obtain ⟨w, e⟩ := p
  dsimp only at e1 e2
  subst e1
  refine ⟨h1, ?_, ?_⟩
  · simp only [writtenBy, everything, List.filter_append, List.flatMap_append] at h2 ⊢
    rw [h2]
    simp [hi]
  · simp only [everything, List.flatMap_append] at h3 ⊢
    rw [e2, h3]
    simp

/-- **C57** Threads that share a writer which accepts what it is given: what is written is made up of what the threads wrote, and a render that
has ended has returned what it returns alone, and has written, in order, what it writes alone. -/
theorem C57_shared {io : IoWriter ω} {log : ω → List UInt8} (hl : Accepts io log) (w₀ : ω) (hr : rs[k]? = some r) (schedule : List Nat)
    {res : Res Unit} (h : wroteShared ((toOneWriter env rs io w₀).run schedule) k = some res) :
    log ((toOneWriter env rs io w₀).run schedule).out.writer = log w₀ ++ everything ((toOneWriter env rs io w₀).run schedule).out.wrote ∧
    ((res = .ok () ∧ ∃ s, r.ToString env (.ok s) ∧ writtenBy k ((toOneWriter env rs io w₀).run schedule).out.wrote = utf8 s) ∨
      (∃ e, res = .err e ∧ r.ToString env (.err e)) ∨ (res = .crash ∧ r.ToString env .crash)) := by
  obtain ⟨j₁, h1, h2⟩ := Threads.started (env := env) (sinks := sharedSink io) (R := Threads.Mine log w₀ k) k (Threads.shared_write hl w₀ k)
    (Threads.shared_frame hl w₀ k) hr (x := ⟨w₀, [], fun _ => none⟩) (s := []) ⟨rfl, rfl, by simp [everything]⟩ schedule
  change ((toOneWriter env rs io w₀).run schedule).jobs[k]? = _ at h1
  change Threads.JRel _ _ ((toOneWriter env rs io w₀).run schedule).out _ _ at h2
  refine ⟨h2.out.2.2, ?_⟩
  unfold wroteShared at h
  rw [h1] at h
  generalize ha : Threads.alone (.start env stringSink r []) [] (schedule.count k) = p at h2
  cases h2 with
  | running => cases h
  | writing => cases h
  | ok _ h3 h4 => cases h; subst h3; exact .inl ⟨rfl, _, Threads.ends_string (Threads.ends_of_alone ha), h4.2.1⟩
  | err _ h3 h4 =>
    simp only [h4.1] at h
    cases h
    exact .inr (.inl ⟨_, rfl, Threads.ends_string (Threads.ends_of_alone ha)⟩)
  | crash => cases h; exact .inr (.inr ⟨rfl, Threads.ends_string (Threads.ends_of_alone ha)⟩)

/-- What thread `k` has written to a shared writer that accepts everything, as the content of a `Vec<u8>`. -/
def Threads.MineVec (k : Nat) (x : Shared ω) (b : List UInt8 × Option Nat) : Prop := x.err k = none ∧ b = (writtenBy k x.wrote, none)

theorem Threads.vec_write {io : IoWriter ω} {log : ω → List UInt8} (hl : Accepts io log) (k : Nat) : ∀ a b t, Threads.MineVec k a b →
    ((sharedSink io k).write a t).2 = ((writerSink vec).write b t).2 ∧ Threads.MineVec k ((sharedSink io k).write a t).1 ((writerSink vec).write b t).1 := by
  rintro a b t ⟨h1, rfl⟩
  have e1 := hl.accepts a.writer (utf8 t)
  simp only [sharedSink, writerSink, vec]
  generalize io.writeAll a.writer (utf8 t) = p at e1
  obtain ⟨w, e⟩ := p
  dsimp only at e1
  subst e1
  refine ⟨rfl, h1, ?_⟩
  simp [writtenBy, everything]

theorem Threads.vec_frame {io : IoWriter ω} {log : ω → List UInt8} (hl : Accepts io log) (k : Nat) : ∀ i, i ≠ k → ∀ a b t,
    Threads.MineVec k a b → Threads.MineVec k ((sharedSink io i).write a t).1 b := by
  rintro i hi a b t ⟨h1, rfl⟩
  have e1 := hl.accepts a.writer (utf8 t)
  simp only [sharedSink]
  generalize io.writeAll a.writer (utf8 t) = p at e1
  obtain ⟨w, e⟩ := p
  dsimp only at e1
  subst e1
  refine ⟨h1, ?_⟩
  simp [writtenBy, everything, hi]

/-- **C57** In whatever way a render to the shared writer has ended, alone it ends so too, and what it has written, in order, is what it leaves alone in a
`Vec<u8>` – also when it has failed half way. -/
theorem C57_shared_alone {io : IoWriter ω} {log : ω → List UInt8} (hl : Accepts io log) (w₀ : ω) (hr : rs[k]? = some r) (schedule : List Nat)
    {res : Res Unit} (h : wroteShared ((toOneWriter env rs io w₀).run schedule) k = some res) :
    r.ToWriter env vec [] res (writtenBy k ((toOneWriter env rs io w₀).run schedule).out.wrote) := by
  obtain ⟨j₁, h1, h2⟩ := Threads.started (env := env) (sinks := sharedSink io) (R := Threads.MineVec k) k (Threads.vec_write hl k)
    (Threads.vec_frame hl k) hr (x := ⟨w₀, [], fun _ => none⟩) (s := ([], none)) ⟨rfl, rfl⟩ schedule
  change ((toOneWriter env rs io w₀).run schedule).jobs[k]? = _ at h1
  change Threads.JRel _ _ ((toOneWriter env rs io w₀).run schedule).out _ _ at h2
  unfold wroteShared at h
  rw [h1] at h
  generalize ha : Threads.alone (.start env (writerSink vec) r ([], none)) ([], none) (schedule.count k) = p at h2
  cases h2 with
  | running => cases h
  | writing => cases h
  | ok _ h3 h4 =>
    cases h
    rw [← show _ = writtenBy k _ from congrArg Prod.fst h4.2, ← h3]
    cases Threads.ends_of_alone ha with
    | run hb hh => exact .ok _ _ hb hh
  | err _ h3 h4 =>
    cases h
    rw [h4.1, ← show _ = none from congrArg Prod.snd h4.2, ← show _ = writtenBy k _ from congrArg Prod.fst h4.2, ← h3]
    cases Threads.ends_of_alone ha with
    | globals hb => exact .globalsErr _ hb
    | run hb hh => exact .err _ _ _ hb hh
  | crash h4 =>
    cases h
    cases Threads.ends_of_alone ha with
    | globalsCrash hb =>
      have : Threads.alone (.start env (writerSink vec) r ([], none)) ([], none) (schedule.count k) = (([], none), .done .crash) := by
        rw [Job.start, hb]; exact Threads.alone_done _ _ _
      rw [this] at ha
      cases ha
      rw [← show _ = writtenBy k _ from congrArg Prod.fst h4.2]
      exact .globalsCrash hb
    | run hb hh => exact .crash _ _ hb hh

/-- **C57** … and it has ended once it has had enough turns. -/
theorem C57_progress_shared {io : IoWriter ω} {log : ω → List UInt8} (hl : Accepts io log) {res : Res Str} (h : r.ToString env res) :
    ∃ n, ∀ rs k w₀ schedule, rs[k]? = some r → n ≤ schedule.count k → ∃ res',
      wroteShared ((toOneWriter env rs io w₀).run schedule) k = some res' := by
  obtain ⟨x, h1, rfl⟩ := Threads.string_ends h
  obtain ⟨n, y, hn⟩ := Threads.alone_of_ends h1
  refine ⟨n, fun rs k w₀ schedule hr hc => ?_⟩
  obtain ⟨j₁, h1, h2⟩ := Threads.started (env := env) (sinks := sharedSink io) (R := Threads.Mine log w₀ k) k (Threads.shared_write hl w₀ k)
    (Threads.shared_frame hl w₀ k) hr (x := ⟨w₀, [], fun _ => none⟩) (s := []) ⟨rfl, rfl, by simp [everything]⟩ schedule
  change ((toOneWriter env rs io w₀).run schedule).jobs[k]? = _ at h1
  rw [hn _ hc] at h2
  unfold wroteShared
  rw [h1]
  cases h2 with
  | ok => exact ⟨_, rfl⟩
  | err => exact ⟨_, rfl⟩
  | crash => exact ⟨_, rfl⟩

end Upon
