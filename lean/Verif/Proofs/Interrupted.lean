import Verif.Props.Threads
/-
For C71: the output of a render only grows, turn by turn.
-/
namespace Upon
open Spec
variable {σ τ : Type}

namespace Threads

/-- Something that no write undoes holds after any number of turns. -/
theorem alone_has {snk : Sink τ} {P : τ → Prop} (hP : ∀ a t, P a → P (snk.write a t).1) {x : τ} (hx : P x) {j : Job τ} (hs : Into snk j) (n : Nat) :
    P (alone j x n).1 ∧ Into snk (alone j x n).2 := by
  induction n with
  | zero => exact ⟨hx, hs⟩
  | succ n ih => exact ⟨turn_has hP ih.1 ih.2, turn_sink ih.2⟩

theorem start_into {env : Env} {snk : Sink τ} {r : Renderer} {x : τ} : Into snk (Job.start env snk r x) := by
  rw [Job.start]
  cases r.base <;> trivial

/-- What the sink held earlier is related to what it holds later, if every write relates them. -/
theorem alone_grows {env : Env} {snk : Sink τ} {R : τ → τ → Prop} (h0 : ∀ a, R a a) (hR : ∀ a b t, R a b → R a (snk.write b t).1) {r : Renderer} {x : τ}
    {n m : Nat} (h : n ≤ m) : R (alone (.start env snk r x) x n).1 (alone (.start env snk r x) x m).1 := by
  obtain ⟨d, rfl⟩ : ∃ d, m = n + d := ⟨m - n, by omega⟩
  rw [alone_add]
  exact (alone_has (P := R (alone (.start env snk r x) x n).1) (fun b t hb => hR _ b t hb) (h0 _)
    (alone_has (P := fun _ => True) (fun _ _ _ => trivial) trivial start_into n).2 d).1

/-- When the render has ended the sink holds what the result says. -/
theorem alone_out {env : Env} {snk : Sink τ} {r : Renderer} {s x : τ} {n : Nat} {res : RunRes τ} (h : alone (.start env snk r s) s n = (x, .done res))
    {w : World τ} (hw : res = .ok w ∨ ∃ e, res = .err e w) : w.out = x := by
  obtain ⟨j, h1, h2⟩ := started (env := env) (sinks := ownSink fun _ => snk) (sink := snk) (R := fun a b => a 0 = b) 0 (own_write (fun _ => snk) 0)
    (own_frame (fun _ => snk) 0) (rs := [r]) (r := r) rfl (x := fun _ => s) rfl (List.replicate n 0)
  rw [List.count_replicate_self, h] at h2
  rcases hw with rfl | ⟨e, rfl⟩
  · cases h2; assumption
  · cases h2; assumption

end Threads
end Upon
