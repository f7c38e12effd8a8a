import Verif.Proofs.Volume
import Verif.Props.Cost
import Verif.Props.Format
/-
C60: how much a render writes.
-/
namespace Upon
open Spec Vals
variable {σ : Type} {env : Env} {tree : Template → Tree} {T : Tree} {r : Renderer} {P : Value → Prop}

namespace Vals

theorem reach_of {cfg : RenderCfg σ} (hP : Hereditary P) (hfs : FiltersKeep P cfg.functions) (hts : ∀ t, Includable cfg t → CodeOf P t.instrs) {vm vm' : VM σ}
    (h : VMOf P vm) (hr : Reachable cfg vm vm') : VMOf P vm' := by
  induction hr with
  | refl => exact h
  | step _ hs ih => exact keep_step hP hfs hts ih hs

theorem loops_of {cfg : RenderCfg σ} (hP : Hereditary P) (hfs : FiltersKeep P cfg.functions) (hts : ∀ t, Includable cfg t → CodeOf P t.instrs) {vm : VM σ}
    (h : VMOf P vm) {n : Nat} (hn : ∀ v, P v → items v ≤ n) : LoopsAtMost cfg vm n := by
  intro vm' v hr hv
  have key := reach_of hP hfs hts h hr
  rw [loopsOver.eq_def] at hv
  split at hv
  · cases hv
  · split at hv
    · rename_i c _ hx
      cases hv
      exact hn _ (key.expr c hx)
    · cases hv

theorem volume {sink : Sink σ} (hP : Hereditary P) {n M L : Nat} (hn : ∀ v, P v → items v ≤ n) (hv : Stocked env tree T r P)
    (ht : ∀ t, Includable (r.cfg env sink) t → Parsed env t (tree t)) (hT : Parsed env r.template T) (hf : FiltersKeep P r.engine.functions)
    (hM : blen T.source ≤ M) (hMs : ∀ t, Includable (r.cfg env sink) t → blen (tree t).source ≤ M) (hL : Terse P L r.engine)
    {μ : σ → Nat} (hμ : Meters sink μ) {b : SState} (hb : r.base = .ok b) {out : σ} {res : RunRes σ}
    (h : Halts (r.cfg env sink) (initVM r.template r.name b out) res) :
    ResBy μ (μ out + (M * (n + 1) ^ M + 2) ^ max 1 (r.cfg env sink).maxIncludeDepth * max M L) res := by
  have hcode : ∀ t, Includable (r.cfg env sink) t → CodeOf P t.instrs := fun t h => keep_parsed (ht t h) (hv.included t h)
  have hinit : VMOf P (initVM r.template r.name b out) := init_of (keep_parsed hT hv.lits) hv.data hb out
  obtain ⟨res', hr'⟩ := C60_steps ht hT hM hMs (Nat.le_trans (C59_nesting hT) hM) (fun t h => Nat.le_trans (C59_nesting (ht t h)) (hMs t h))
    (loops_of (cfg := r.cfg env sink) hP hf hcode hinit hn)
  obtain rfl := Halts.unique h ⟨_, hr'⟩
  refine run_volume (cfg := r.cfg env sink) hP hμ hL.shown hL.named hf hcode (fun t h => ?_) _ hinit ?_ _ hr'
  · rw [← (ht t h).source]; exact hMs t h
  · intro fr hfr
    cases List.mem_singleton.mp hfr
    show blen r.template.source ≤ M
    rw [← hT.source]; exact hM

end Vals

/-- **C60** The text that a template renders to is bounded: templates of at most `M` bytes, values – the data, literals, and what filters return – over which
loops have at most `n` rounds and for which formatters write at most `L` bytes each. -/
theorem C60_output (hP : Hereditary P) {n M L : Nat} (hn : ∀ v, P v → items v ≤ n) (hv : Stocked env tree T r P)
    (ht : ∀ t, Includable (r.cfg env stringSink) t → Parsed env t (tree t)) (hT : Parsed env r.template T) (hf : FiltersKeep P r.engine.functions)
    (hM : blen T.source ≤ M) (hMs : ∀ t, Includable (r.cfg env stringSink) t → blen (tree t).source ≤ M) (hL : Terse P L r.engine)
    {s : Str} (h : r.ToString env (.ok s)) : blen s ≤ (M * (n + 1) ^ M + 2) ^ max 1 (r.cfg env stringSink).maxIncludeDepth * max M L := by
  cases h with
  | ok b w hb hh =>
    have := volume (sink := stringSink) (μ := blen) hP hn hv ht hT hf hM hMs hL (fun s t => by simp [stringSink, blen_append]) hb hh
    simpa [ResBy, blen] using this

/-- **C60** The same for what is given to a writer, also if the render fails: if a call of the writer adds at most the length of what it is given to some measure
of it, then all the calls together add at most that much. -/
theorem C60_written {ω : Type} {io : IoWriter ω} {μ : ω → Nat} (hμ : ∀ w bs, μ (io.writeAll w bs).1 ≤ μ w + bs.length)
    (hP : Hereditary P) {n M L : Nat} (hn : ∀ v, P v → items v ≤ n) (hv : Stocked env tree T r P)
    (ht : ∀ t, Includable (r.cfg env stringSink) t → Parsed env t (tree t)) (hT : Parsed env r.template T) (hf : FiltersKeep P r.engine.functions)
    (hM : blen T.source ≤ M) (hMs : ∀ t, Includable (r.cfg env stringSink) t → blen (tree t).source ≤ M) (hL : Terse P L r.engine)
    {w₀ w : ω} {res : Res Unit} (h : r.ToWriter env io w₀ res w) (hc : res ≠ .crash) :
    μ w ≤ μ w₀ + (M * (n + 1) ^ M + 2) ^ max 1 (r.cfg env stringSink).maxIncludeDepth * max M L := by
  have hμ' : Meters (writerSink io) (fun s => μ s.1) := by
    intro s t
    have := hμ s.1 (utf8 t)
    rw [utf8_length] at this
    simp only [writerSink]
    split <;> (rename_i e; rw [e] at this; exact this)
  cases h with
  | globalsErr e hb => exact Nat.le_add_right _ _
  | globalsCrash hb => exact absurd rfl hc
  | crash b w hb hh => exact absurd rfl hc
  | ok b w hb hh => exact volume (sink := writerSink io) hP hn hv ht hT hf hM hMs hL hμ' hb hh
  | err b e w hb hh => exact volume (sink := writerSink io) hP hn hv ht hT hf hM hMs hL hμ' hb hh

namespace Vals

theorem sizedList_iff {n L : Nat} {l : List Value} : SizedList env n L l ↔ ∀ v ∈ l, Sized env n L v := by
  induction l with
  | nil => simp [SizedList]
  | cons p m ih => simp [SizedList, ih]

theorem sizedMap_iff {n L : Nat} {m : List (Str × Value)} : SizedMap env n L m ↔ ∀ p ∈ m, blen p.1 ≤ L ∧ Sized env n L p.2 := by
  induction m with
  | nil => simp [SizedMap]
  | cons p m ih => obtain ⟨k, v⟩ := p; simp [SizedMap, ih, and_assoc]

theorem digits_blen (i : Nat) : blen (Nat.toDigits 10 i) = (Nat.toDigits 10 i).length := by
  have : ∀ l : List Char, (∀ c ∈ l, c.isDigit) → blen l = l.length := by
    intro l hl
    induction l with
    | nil => rfl
    | cons c l ih =>
      have h1 := hl c (by simp)
      rw [blen, ih fun c h => hl c (by simp [h]), List.length_cons]
      have : c.utf8Size = 1 := by
        rw [Char.utf8Size_eq_one_iff]
        simp only [Char.isDigit, Bool.and_eq_true, decide_eq_true_eq] at h1
        have h2 := UInt32.le_iff_toNat_le.mp h1.2
        exact UInt32.le_iff_toNat_le.mpr (Nat.le_trans h2 (by decide))
      omega
  exact this _ fun c hc => Nat.isDigit_of_mem_toDigits (by omega) (by omega) hc

theorem showInt_blen {i L : Nat} (hL : 0 < L) (h : i < 10 ^ L) : blen (showInt i) ≤ L := by
  rw [showInt_ofNat, digits_blen]
  exact (Nat.length_toDigits_le_iff (by omega) hL).mpr h

theorem sized_hereditary {n L : Nat} (hn : 3 ≤ n) (hL : 5 ≤ L) (hnL : n ≤ 10 ^ L) : Hereditary (Sized env n L) where
  item l h := sizedList_iff.mp (by rw [Sized] at h; exact h.2)
  entry m h p hp := (sizedMap_iff.mp (by rw [Sized] at h; exact h.2) p hp).2
  key m h p hp := by rw [Sized]; exact (sizedMap_iff.mp (by rw [Sized] at h; exact h.2) p hp).1
  loop v i r h hi := by
    have hv : items v ≤ n := by
      cases v <;> simp only [items, Sized] at h ⊢ <;> first | exact h.1 | exact Nat.zero_le _
    have : blen (showInt i) ≤ L := showInt_blen (by omega) (by omega)
    rw [loopMap_eq]
    simp only [Sized, SizedMap, and_true, true_and]
    refine ⟨by simpa using hn, ?_, ?_, this, ?_⟩
    · exact Nat.le_trans (by decide) hL
    · exact Nat.le_trans (by decide) hL
    · exact Nat.le_trans (by decide) hL
  none := by simp [Sized]

theorem items_sized {n L : Nat} (v : Value) (h : Sized env n L v) : items v ≤ n := by
  cases v <;> simp only [items, Sized] at h ⊢ <;> first | exact h.1 | exact Nat.zero_le _

theorem WritesAtMost.mono {L L' : Nat} {p : FmtProg} (h : WritesAtMost L p) (hl : L ≤ L') : WritesAtMost L' p := by
  induction h generalizing L' with
  | done r => exact .done r
  | @write L s k _ ih =>
    have e : L' = blen s + (L' - blen s) := by omega
    rw [e]
    exact .write fun ok => ih ok (by omega)

theorem writeAll_atMost (l : List Str) : WritesAtMost (blen l.flatten) (.writeAll l) := by
  induction l with
  | nil => exact .done _
  | cons s l ih =>
    rw [List.flatten_cons, blen_append, FmtProg.writeAll]
    refine .write fun ok => ?_
    cases ok
    · exact .done _
    · exact ih

theorem default_atMost {n L : Nat} (hL : 5 ≤ L) (v : Value) (h : Sized env n L v) : WritesAtMost L (fmtDefault env v) := by
  cases v with
  | none => exact .done _
  | bool b =>
    refine WritesAtMost.mono (writeAll_atMost _) (Nat.le_trans ?_ hL)
    cases b <;> decide
  | integer i =>
    rw [Sized] at h
    refine WritesAtMost.mono (writeAll_atMost _) ?_
    rw [intPieces_flatten]; exact h
  | float f => rw [Sized] at h; exact WritesAtMost.mono (writeAll_atMost _) h
  | string s =>
    rw [Sized] at h
    refine WritesAtMost.mono (writeAll_atMost _) ?_
    simpa using h
  | list l => exact .done _
  | map m => exact .done _

end Vals

/-- **C60** With the default formatter: if no list or map in the data, and in what filters return, has more than `n` elements, and no string or number more than
`L` bytes. -/
theorem C60_output_default {n M L : Nat} (hn : 3 ≤ n) (hL : 5 ≤ L) (hnL : n ≤ 10 ^ L) (hv : Stocked env tree T r (Sized env n L))
    (ht : ∀ t, Includable (r.cfg env stringSink) t → Parsed env t (tree t)) (hT : Parsed env r.template T)
    (hf : FiltersKeep (Sized env n L) r.engine.functions) (hM : blen T.source ≤ M) (hMs : ∀ t, Includable (r.cfg env stringSink) t → blen (tree t).source ≤ M)
    (hd : r.engine.defaultFormatter = fmtDefault env) (hnone : ∀ n f, BMap.get r.engine.functions n ≠ some (.formatter f))
    {s : Str} (h : r.ToString env (.ok s)) : blen s ≤ (M * (n + 1) ^ M + 2) ^ max 1 (r.cfg env stringSink).maxIncludeDepth * max M L :=
  C60_output (sized_hereditary hn hL hnL) items_sized hv ht hT hf hM hMs
    ⟨fun v hv => by rw [hd]; exact default_atMost hL v hv, fun n f hg => absurd hg (hnone n f)⟩ h

end Upon
