import Verif.Props.Threads
/-
C57: the errors of a writer that threads share.
-/
namespace Upon
open Spec
variable {ω : Type} {env : Env} {rs : List Renderer} {k : Nat}

namespace Threads

theorem run_keeps {σ : Type} {sinks : Nat → Sink σ} {P : σ → Prop} (hP : ∀ i a t, P a → P ((sinks i).write a t).1) (schedule : List Nat) :
    ∀ {t : Threads σ}, P t.out → (∀ i j, t.jobs[i]? = some j → Into (sinks i) j) → P (t.run schedule).out := by
  induction schedule with
  | nil => intro t h _; exact h
  | cons i schedule ih =>
    intro t h hs
    refine ih (t := t.turn i) ?_ ?_
    · rw [turn_out]
      cases ha : t.jobs[i]? with
      | none => exact h
      | some c => exact turn_has (hP i) h (hs i c ha)
    · intro a b hb
      rw [turn_get] at hb
      split at hb
      · cases ha : t.jobs[a]? with
        | none => rw [ha] at hb; cases hb
        | some c => rw [ha] at hb; cases hb; exact turn_sink (hs a c ha)
      · exact hs a b hb

theorem begins_into {σ : Type} (sinks : Nat → Sink σ) (rs : List Renderer) (x : σ) : ∀ i j, (start env sinks rs x).jobs[i]? = some j → Into (sinks i) j := by
  intro i j hj
  simp only [start, List.getElem?_mapIdx] at hj
  cases hi : rs[i]? with
  | none => rw [hi] at hj; cases hj
  | some r' =>
    rw [hi] at hj
    simp only [Option.map_some, Option.some.injEq] at hj
    rw [← hj, Job.start]
    cases hb : r'.base with
    | ok b => exact rfl
    | err e' => trivial
    | crash => trivial

end Threads

/-- **C57** Threads that share any writer, which may fail: the error that is kept for a render, to be returned by it, is one that the writer gave for something that this render wrote.
The failures of other threads are not its own. -/
theorem C57_shared_error {io : IoWriter ω} (w₀ : ω) (schedule : List Nat) {e : Nat}
    (h : ((toOneWriter env rs io w₀).run schedule).out.err k = some e) :
    ∃ bs w w', (k, bs) ∈ ((toOneWriter env rs io w₀).run schedule).out.wrote ∧ io.writeAll w bs = (w', some e) := by
  refine Threads.run_keeps (sinks := sharedSink io)
    (P := fun s => ∀ k e, s.err k = some e → ∃ bs w w', (k, bs) ∈ s.wrote ∧ io.writeAll w bs = (w', some e)) ?_ schedule
    (t := toOneWriter env rs io w₀) (fun _ _ h => nomatch h) (Threads.begins_into _ _ _) k e h
  intro i a t ha k e he
  have old : a.err k = some e → ∃ bs w w', (k, bs) ∈ a.wrote ++ [(i, utf8 t)] ∧ io.writeAll w bs = (w', some e) := fun h =>
    (ha k e h).imp fun bs => .imp fun w => .imp fun w' h => ⟨List.mem_append_left _ h.1, h.2⟩
  simp only [sharedSink] at he ⊢
  cases hx : io.writeAll a.writer (utf8 t) with
  | mk w o =>
    rw [hx] at he
    cases o with
    | none => exact old he
    | some e' =>
      change (if k = i then some e' else a.err k) = some e at he
      split at he
      · cases he
        rename_i hk
        exact ⟨utf8 t, a.writer, w, List.mem_append_right _ (by rw [hk]; exact .head _), hx⟩
      · exact old he

/-- **C57** So a render to a shared writer that has ended with an error has ended with its own error, or with one that the writer gave for something that it wrote. -/
theorem C57_shared_own {io : IoWriter ω} (w₀ : ω) (schedule : List Nat) {E : Err}
    (h : wroteShared ((toOneWriter env rs io w₀).run schedule) k = some (.err E)) :
    (∃ w, ((toOneWriter env rs io w₀).run schedule).jobs[k]? = some (.done (.err E w))) ∨
      ∃ e bs w w', E = Err.ofIo e ∧ (k, bs) ∈ ((toOneWriter env rs io w₀).run schedule).out.wrote ∧ io.writeAll w bs = (w', some e) := by
  unfold wroteShared at h
  split at h
  · cases h
  · rename_i E' w hj
    cases he : ((toOneWriter env rs io w₀).run schedule).out.err k with
    | none => rw [he] at h; cases h; exact .inl ⟨w, hj⟩
    | some e =>
      rw [he] at h
      cases h
      obtain ⟨bs, w, w', h1, h2⟩ := C57_shared_error w₀ schedule he
      exact .inr ⟨e, bs, w, w', rfl, h1, h2⟩
  · cases h
  · cases h

end Upon
