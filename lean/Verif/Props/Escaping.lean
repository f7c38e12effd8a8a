import Verif.Proofs.Escaping
/-
C47: nothing reaches the output but the text of templates and what formatters write.
-/
namespace Upon
open Spec

section
variable {env : Env} {tree : Template → Tree} {T : Tree} {r : Renderer} {P : Str → Prop}

theorem Spec.Airtight.sound {σ : Type} {sink : Sink σ} (h : Airtight env tree T r P) :
    Escaping.Sound (Needs (r.cfg env stringSink) tree T) P (r.cfg env sink) tree :=
  ⟨h.text, h.shown, h.named, fun _ hU _ _ hi h1 h2 => .registered hU hi h1 h2, fun _ hU _ _ _ _ hi h1 h2 => .provided hU hi h1 h2⟩

/-- **C47** If the text of the templates and all that the default formatter and the formatters used write satisfies `P`, and `P` holds of
the empty text and of two texts together if it holds of both, then `P` holds of the rendered text, whatever the globals and filters. -/
theorem C47_to_string (h : Airtight env tree T r P) (ht : ∀ t, Includable (r.cfg env stringSink) t → Parsed env t (tree t))
    (hT : Parsed env r.template T) (h0 : P []) (happ : ∀ x y, P x → P y → P (x ++ y)) {s : Str} (hs : r.ToString env (.ok s)) : P s := by
  have hb : ∃ b, r.base = .ok b := by cases hs with | ok b w h => exact ⟨b, h⟩
  obtain ⟨b, hb⟩ := hb
  rw [C16_to_string ht hT hb] at hs
  have key := Escaping.after_render (J := P) (P := P) (cfg := r.cfg env stringSink) (tree := tree) (q := asBuilt)
    (fun s t h1 h2 => happ s t h1 h2) h.sound .self r.name [ofBase b] (w := ⟨[], []⟩) h0
  generalize Spec.render asBuilt (r.cfg env stringSink) tree T r.name [ofBase b] ⟨[], []⟩ = m at hs key
  cases m with
  | ok w => cases hs; exact key
  | err e w => cases hs
  | crash => cases hs

/-- **C47** On a writer: an invariant of the writer's state that is kept when a text that satisfies `P` is written is kept by the render,
whether it succeeds or fails. -/
theorem C47_to_writer {ω : Type} (h : Airtight env tree T r P) (ht : ∀ t, Includable (r.cfg env stringSink) t → Parsed env t (tree t))
    (hT : Parsed env r.template T) {io : IoWriter ω} {I : ω → Prop} (hI : ∀ w t, I w → P t → I (io.writeAll w (utf8 t)).1)
    {w₀ w : ω} (h0 : I w₀) {res : Res Unit} (hs : r.ToWriter env io w₀ res w) (hc : res ≠ .crash) : I w := by
  cases hb : r.base with
  | err e => cases hs <;> simp_all
  | crash => cases hs <;> simp_all
  | ok b =>
    have ht' : ∀ t, Includable (r.cfg env (writerSink io)) t → Parsed env t (tree t) := ht
    have key := Escaping.after_render (J := fun s : ω × Option Nat => I s.1) (P := P) (cfg := r.cfg env (writerSink io)) (tree := tree)
      (q := asBuilt) (fun s t h1 h2 => by
        have := hI s.1 t h1 h2
        show I ((writerSink io).write s t).1.1
        unfold writerSink
        dsimp only
        split <;> rename_i e <;> rw [e] at this <;> exact this) h.sound .self r.name [ofBase b] (w := ⟨(w₀, none), []⟩) h0
    cases hs with
    | globalsErr e h => rw [hb] at h; cases h
    | globalsCrash h => exact h0
    | ok b' w' h1 h2 =>
      cases hb.symm.trans h1
      rw [← (C16_render ht' hT hb (w₀, none) _).mp h2] at key
      exact key
    | err b' e w' h1 h2 =>
      cases hb.symm.trans h1
      rw [← (C16_render ht' hT hb (w₀, none) _).mp h2] at key
      exact key
    | crash b' _ h1 h2 => exact absurd rfl hc

end
end Upon
