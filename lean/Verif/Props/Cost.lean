import Verif.Proofs.Cost
import Verif.Props.Size
/-
How much work a render is (C60).
-/
namespace Upon
open Spec Compiler
variable {σ : Type}

namespace Cost

theorem small_of_parsed {env : Env} {t : Template} {T : Tree} (h : Parsed env t T) {M N : Nat} (hM : blen T.source ≤ M) (hN : nesting T.body ≤ N) : Small M N t := by
  have hc := h.code
  have hs := C59_size (t := t) (by obtain ⟨b, a, ts, s, hw, hc, _⟩ := h; exact ⟨b, a, T.source, s, hw, hc⟩)
  rw [← h.source] at hs
  rw [compileTemplate_eq] at hc
  cases hc
  exact ⟨T.body, rfl, Nat.le_trans hs hM, hN⟩

theorem withinList_iff {n : Nat} {l : List Value} : WithinList n l ↔ ∀ v ∈ l, Within n v := by
  induction l with
  | nil => simp [WithinList]
  | cons p m ih => simp [WithinList, ih]

theorem withinMap_iff {n : Nat} {m : List (Str × Value)} : WithinMap n m ↔ ∀ p ∈ m, Within n p.2 := by
  induction m with
  | nil => simp [WithinMap]
  | cons p m ih => obtain ⟨k, v⟩ := p; simp [WithinMap, ih]

theorem within_hereditary {n : Nat} (hn : 3 ≤ n) : Hereditary (Within n) where
  item l h := withinList_iff.mp h.2
  entry m h := withinMap_iff.mp h.2
  key m _ p _ := by simp [Within]
  loop _ i r _ _ := by rw [loopMap_eq]; simp [Within, WithinMap]; omega
  none := by simp [Within]

theorem within_scalars {n : Nat} : Scalars (Within n) where
  bool b := by simp [Within]
  integer i := by simp [Within]
  float f := by simp [Within]
  string s := by simp [Within]

theorem items_within {n : Nat} {v : Value} (h : Within n v) : items v ≤ n := by
  cases v <;> simp [items, Within] at h ⊢
  · exact h.1
  · exact h.1

end Cost

open Cost

/-- **C60** If no template is longer than `M` bytes, no blocks are nested deeper than `N`, and no loop runs over more than `n` items, then a render – which
may also fail – is over after at most `(M (n + 1) ^ N + 2) ^ d` steps, where `d` is the maximum include depth. -/
theorem C60_steps {env : Env} {r : Renderer} {sink : Sink σ} {tree : Template → Tree}
    (ht : ∀ t, Includable (r.cfg env sink) t → Parsed env t (tree t)) {T : Tree} (hT : Parsed env r.template T) {M N n : Nat}
    (hM : blen T.source ≤ M) (hMs : ∀ t, Includable (r.cfg env sink) t → blen (tree t).source ≤ M)
    (hN : nesting T.body ≤ N) (hNs : ∀ t, Includable (r.cfg env sink) t → nesting (tree t).body ≤ N)
    {b : SState} {out : σ} (hl : LoopsAtMost (r.cfg env sink) (initVM r.template r.name b out) n) :
    ∃ res, run (r.cfg env sink) ((M * (n + 1) ^ N + 2) ^ max 1 (r.cfg env sink).maxIncludeDepth) (initVM r.template r.name b out) = some res :=
  render_cost (small_of_parsed hT hM hN) (fun t h => small_of_parsed (ht t h) (hMs t h) (hNs t h)) hl

/-- **C60** No loop runs over more than `n` items if neither the globals nor what filters make of such values contain longer lists or maps (and `n` is at
least 3, as `loop` itself is a map with three entries). -/
theorem C60_loops {env : Env} {r : Renderer} {sink : Sink σ} (hc : AllCompiled (r.cfg env sink)) (hT : Compiled env r.template) {n : Nat} (hn : 3 ≤ n)
    (hg : GlobalsOf (Within n) r.globals) (hf : FiltersKeep (Within n) r.engine.functions) {b : SState} (hb : r.base = .ok b) (out : σ) :
    LoopsAtMost (r.cfg env sink) (initVM r.template r.name b out) n := by
  have hP := within_hereditary hn
  intro vm v hr hv
  have key : Vals.VMOf (Within n) vm := by
    clear hv
    induction hr with
    | refl =>
      refine ⟨fun fr hfr => ?_, fun s hs => ?_, fun c hc => by cases hc⟩
      · cases List.mem_singleton.mp hfr
        exact Vals.keep_compiled within_scalars hT
      · cases List.mem_singleton.mp hs
        rw [Renderer.base.eq_def] at hb
        split at hb
        · rename_i g hx
          rw [hx] at hg
          obtain ⟨x, hx, hb⟩ := bind_ok.mp hb
          cases hb
          exact hg x hx
        · rename_i g hx
          rw [hx] at hg
          cases hb
          exact hg
        · rename_i g hx
          rw [hx] at hg
          cases hb
          exact hg
    | step _ hs ih => exact Vals.keep_step hP hf (fun t ht => Vals.keep_compiled within_scalars (hc t ht)) ih hs
  rw [loopsOver.eq_def] at hv
  split at hv
  · cases hv
  · split at hv
    · rename_i c _ hx
      cases hv
      exact items_within (key.expr c hx)
    · cases hv

/-- **C60** So the work of a render is bounded by the sizes of the templates and of the data. -/
theorem C60_data {env : Env} {r : Renderer} {sink : Sink σ} (hc : AllCompiled (r.cfg env sink)) (hT : Compiled env r.template) {M n : Nat} (hn : 3 ≤ n)
    (hM : blen r.template.source ≤ M) (hMs : ∀ t, Includable (r.cfg env sink) t → blen t.source ≤ M)
    (hg : GlobalsOf (Within n) r.globals) (hf : FiltersKeep (Within n) r.engine.functions) {b : SState} (hb : r.base = .ok b) (out : σ) :
    ∃ res, run (r.cfg env sink) ((M * (n + 1) ^ M + 2) ^ max 1 (r.cfg env sink).maxIncludeDepth) (initVM r.template r.name b out) = some res := by
  obtain ⟨T, hT'⟩ := compiled_parsed hT
  obtain ⟨tree, ht⟩ := trees_exist hc
  have h1 : blen T.source ≤ M := by rw [hT'.source]; exact hM
  have h2 : ∀ t, Includable (r.cfg env sink) t → blen (tree t).source ≤ M := fun t hi => by rw [(ht t hi).source]; exact hMs t hi
  exact C60_steps ht hT' h1 h2 (Nat.le_trans (C59_nesting hT') h1) (fun t hi => Nat.le_trans (C59_nesting (ht t hi)) (h2 t hi)) (C60_loops hc hT hn hg hf hb out)

end Upon
