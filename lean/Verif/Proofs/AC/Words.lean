import Verif.Model.AhoCorasick
import Mathlib.Data.List.Basic
/-
Word-level theory of leftmost-longest multi-pattern search: the automaton state after reading a
word, and the best match in a word.
-/
namespace Upon.AC

abbrev Word := List UInt8
abbrev Pats := List (Nat × Word)

/-- A prefix of some pattern. -/
def IsNode (P : Pats) (w : Word) : Prop := w = [] ∨ ∃ p ∈ P, w <+: p.2

/-- Some pattern is a prefix of the word. -/
def HasPref (P : Pats) (w : Word) : Prop := ∃ p ∈ P, p.2 <+: w

/-- No pattern is empty. -/
def NonEmpty (P : Pats) : Prop := ∀ p ∈ P, p.2 ≠ []

instance (P : Pats) (w : Word) : Decidable (IsNode P w) := by unfold IsNode; infer_instance
instance (P : Pats) (w : Word) : Decidable (HasPref P w) := by unfold HasPref; infer_instance

/-- The patterns equal to a word, in order. -/
def own (P : Pats) (w : Word) : List Pattern :=
  (P.filter (fun p => p.2 = w)).map (fun p => ⟨p.1, p.2.length⟩)

/-- The automaton state after reading a word: `none` is the dead state. -/
def sig (P : Pats) : Word → Option Word
  | [] => some []
  | c :: w => if IsNode P (c :: w) then some (c :: w) else if HasPref P (c :: w) then none else sig P w

theorem isNode_nil (P : Pats) : IsNode P [] := Or.inl rfl

theorem IsNode.prefix {P : Pats} {v w : Word} (h : v <+: w) (hw : IsNode P w) : IsNode P v := by
  rcases hw with rfl | ⟨p, hp, h2⟩
  · left; exact List.prefix_nil.mp h
  · right; exact ⟨p, hp, h.trans h2⟩

theorem HasPref.mono {P : Pats} {v w : Word} (h : v <+: w) (hv : HasPref P v) : HasPref P w := by
  obtain ⟨p, hp, h2⟩ := hv
  exact ⟨p, hp, h2.trans h⟩

theorem hasPref_nil {P : Pats} (hP : NonEmpty P) : ¬ HasPref P [] := by
  rintro ⟨p, hp, h⟩
  exact hP p hp (List.prefix_nil.mp h)

theorem own_ne_nil {P : Pats} {w : Word} : own P w ≠ [] ↔ ∃ p ∈ P, p.2 = w := by
  simp [own]

theorem HasPref.of_own {P : Pats} {w : Word} (h : own P w ≠ []) : HasPref P w := by
  obtain ⟨p, hp, rfl⟩ := own_ne_nil.mp h
  exact ⟨p, hp, List.prefix_refl _⟩

theorem IsNode.of_own {P : Pats} {w : Word} (h : own P w ≠ []) : IsNode P w := by
  obtain ⟨p, hp, rfl⟩ := own_ne_nil.mp h
  exact Or.inr ⟨p, hp, List.prefix_refl _⟩

theorem sig_node {P : Pats} {w : Word} (h : IsNode P w) : sig P w = some w := by
  cases w with
  | nil => rfl
  | cons c w => simp [sig, h]

theorem sig_isNode {P : Pats} {w v : Word} (h : sig P w = some v) : IsNode P v := by
  induction w with
  | nil => simp [sig] at h; subst h; exact isNode_nil P
  | cons c w ih =>
    simp only [sig] at h
    split at h
    · injection h with h; subst h; assumption
    · split at h
      · exact absurd h (by simp)
      · exact ih h

theorem sig_length {P : Pats} {w v : Word} (h : sig P w = some v) : v.length ≤ w.length := by
  induction w with
  | nil => simp [sig] at h; subst h; simp
  | cons c w ih =>
    simp only [sig] at h
    split at h
    · injection h with h; subst h; exact Nat.le_refl _
    · split at h
      · exact absurd h (by simp)
      · exact Nat.le_succ_of_le (ih h)

/-- A pattern prefix of `w ++ [b]` is either all of it or a prefix of `w`. -/
theorem hasPref_snoc {P : Pats} {w : Word} {b : UInt8} (h : HasPref P (w ++ [b]))
    (hn : ¬ IsNode P (w ++ [b])) : HasPref P w := by
  obtain ⟨p, hp, h2⟩ := h
  refine ⟨p, hp, ?_⟩
  rcases List.prefix_concat_iff.mp h2 with h3 | h3
  · exact absurd (Or.inr ⟨p, hp, by rw [h3]; exact List.prefix_refl _⟩) hn
  · exact h3

theorem sig_none_snoc {P : Pats} {w : Word} {b : UInt8} (h : sig P w = none) :
    sig P (w ++ [b]) = none := by
  induction w with
  | nil => simp [sig] at h
  | cons c w ih =>
    simp only [sig] at h
    split at h
    · exact absurd h (by simp)
    · next hn =>
      have hn' : ¬ IsNode P (c :: (w ++ [b])) := fun hh =>
        hn (hh.prefix (by rw [← List.cons_append]; exact List.prefix_append _ _))
      split at h
      · next hp =>
        have : HasPref P (c :: (w ++ [b])) :=
          hp.mono (by rw [← List.cons_append]; exact List.prefix_append _ _)
        simp [sig, hn', this]
      · simp only [List.cons_append, sig, hn', if_false]
        split
        · rfl
        · exact ih h

theorem sig_some_snoc {P : Pats} {w v : Word} {b : UInt8} (h : sig P w = some v) :
    sig P (v ++ [b]) = sig P (w ++ [b]) := by
  induction w with
  | nil => simp [sig] at h; subst h; rfl
  | cons c w ih =>
    simp only [sig] at h
    split at h
    · injection h with h; subst h; rfl
    · next hn =>
      split at h
      · exact absurd h (by simp)
      · next hp =>
        have hn' : ¬ IsNode P ((c :: w) ++ [b]) := fun hh => hn (hh.prefix (List.prefix_append _ _))
        have hp' : ¬ HasPref P ((c :: w) ++ [b]) := fun hh => hp (hasPref_snoc hh hn')
        rw [List.cons_append] at hn' hp'
        rw [ih h]
        simp [sig, hn', hp']

/-! ### the best match in a word -/

/-- The longest pattern among the prefixes of `w` of length at most `n`. -/
def longest (P : Pats) (w : Word) : Nat → Option Pattern
  | 0 => none
  | n + 1 => ((own P (w.take (n + 1))).head?).or (longest P w n)

/-- Leftmost, then longest, then first. -/
def best (P : Pats) : Word → Nat → Option Match
  | [], _ => none
  | c :: w, off =>
    match longest P (c :: w) (c :: w).length with
    | some p => some ⟨p, off + p.len⟩
    | none => best P w (off + 1)

theorem own_len {P : Pats} {w : Word} {p : Pattern} (h : p ∈ own P w) : p.len = w.length := by
  simp only [own, List.mem_map, List.mem_filter, decide_eq_true_eq] at h
  obtain ⟨q, ⟨_, h2⟩, rfl⟩ := h
  simp [h2]

theorem longest_take {P : Pats} {w : Word} {n : Nat} (v : Word) (h : n ≤ w.length) :
    longest P (w ++ v) n = longest P w n := by
  induction n with
  | zero => rfl
  | succ n ih => simp only [longest]; rw [ih (by omega), List.take_append_of_le_length h]

theorem longest_none {P : Pats} (hP : NonEmpty P) {w : Word} {n : Nat} (hn : n ≤ w.length) :
    longest P w n = none ↔ ¬ HasPref P (w.take n) := by
  induction n with
  | zero => simp [longest, hasPref_nil hP]
  | succ n ih =>
    simp only [longest, Option.or_eq_none_iff, List.head?_eq_none_iff, ih (by omega)]
    constructor
    · rintro ⟨h1, h2⟩ ⟨p, hp, h3⟩
      by_cases hl : p.2.length = n + 1
      · have : p.2 = w.take (n + 1) := h3.eq_of_length (by simp [hl]; omega)
        exact own_ne_nil.mpr ⟨p, hp, this⟩ h1
      · apply h2
        refine ⟨p, hp, ?_⟩
        have hlen := h3.length_le
        simp only [List.length_take] at hlen
        rw [List.prefix_take_iff] at h3 ⊢
        exact ⟨h3.1, by omega⟩
    · intro h
      constructor
      · by_contra h1
        exact h (HasPref.of_own h1)
      · intro h2
        exact h (h2.mono (by rw [List.prefix_take_iff]; exact ⟨List.take_prefix _ _, by simp; omega⟩))

theorem longest_full_none {P : Pats} (hP : NonEmpty P) {w : Word} :
    longest P w w.length = none ↔ ¬ HasPref P w := by
  rw [longest_none hP (Nat.le_refl _)]; simp

/-- The longest matching prefix of an extension, when the word itself is no longer a node. -/
theorem longest_ext {P : Pats} {w : Word} {b : UInt8} (v : Word) (hn : ¬ IsNode P (w ++ [b])) :
    ∀ m, longest P (w ++ [b] ++ v) (w.length + m) = longest P w w.length := by
  intro m
  induction m with
  | zero =>
    rw [Nat.add_zero, List.append_assoc]
    exact longest_take _ (Nat.le_refl _)
  | succ m ih =>
    rw [← Nat.add_assoc]
    simp only [longest, ih]
    have : own P (List.take (w.length + m + 1) (w ++ [b] ++ v)) = [] := by
      by_contra h
      apply hn
      refine (IsNode.of_own h).prefix ?_
      rw [List.prefix_take_iff]
      exact ⟨List.prefix_append _ _, by simp⟩
    rw [this]; rfl

/-- When reading `b` kills the search, the best match is decided. -/
theorem best_dead {P : Pats} (hP : NonEmpty P) {w : Word} {b : UInt8} (v : Word) (off : Nat)
    (h : sig P (w ++ [b]) = none) : best P (w ++ [b] ++ v) off = best P w off := by
  induction w generalizing off with
  | nil =>
    simp only [List.nil_append, sig] at h
    split at h
    · exact absurd h (by simp)
    · next hn =>
      split at h
      · next hp =>
        exact absurd (hasPref_snoc (w := []) hp hn) (hasPref_nil hP)
      · simp at h
  | cons c w ih =>
    simp only [List.cons_append, sig] at h
    split at h
    · exact absurd h (by simp)
    · next hn =>
      have hl : longest P (c :: (w ++ [b] ++ v)) (c :: (w ++ [b] ++ v)).length
          = longest P (c :: w) (c :: w).length := by
        have := longest_ext (w := c :: w) (b := b) v hn (v.length + 1)
        simp only [List.cons_append] at this
        rw [← this]
        congr 1
        simp; omega
      simp only [List.cons_append, best, hl]
      split at h
      · next hp =>
        have := hasPref_snoc (w := c :: w) hp hn
        cases hlg : longest P (c :: w) (c :: w).length with
        | some p => rfl
        | none => exact absurd this ((longest_full_none hP).mp hlg)
      · cases hlg : longest P (c :: w) (c :: w).length with
        | some p => rfl
        | none => exact ih _ h

/-- The matches recorded at a live state, as the construction computes them. -/
def mat (P : Pats) (w : Word) : List Pattern :=
  if HasPref P w then own P w
  else
    match w with
    | [] => []
    | _ :: w' =>
      match h : sig P w' with
      | none => []
      | some v => mat P v
termination_by w.length
decreasing_by
  have := sig_length h
  simp; omega

theorem mat_hasPref {P : Pats} {w : Word} (h : HasPref P w) : mat P w = own P w := by
  rw [mat.eq_def]; simp [h]

theorem mat_nil {P : Pats} (hP : NonEmpty P) : mat P [] = [] := by
  rw [mat.eq_def]; simp [hasPref_nil hP]

theorem mat_cons {P : Pats} {c : UInt8} {w : Word} (h : ¬ HasPref P (c :: w)) :
    mat P (c :: w) = match sig P w with
      | none => []
      | some v => mat P v := by
  rw [mat.eq_def]; simp only [h, if_false]
  cases hs : sig P w <;> simp

theorem best_live {P : Pats} (hP : NonEmpty P) : ∀ (n : Nat) (w v : Word) (b : UInt8) (off : Nat),
    w.length = n → sig P (w ++ [b]) = some v →
    best P (w ++ [b]) off =
      ((mat P v).head?.map (⟨·, off + w.length + 1⟩)).or (best P w off) := by
  intro n
  induction n with
  | zero =>
    intro w v b off hw h
    have : w = [] := List.length_eq_zero_iff.mp hw
    subst this
    simp only [List.nil_append, List.length_nil, Nat.add_zero] at *
    by_cases hp : HasPref P [b]
    · have hn : IsNode P [b] := by
        by_contra hn
        exact hasPref_nil hP (hasPref_snoc (w := []) hp hn)
      rw [sig_node hn] at h
      injection h with h; subst h
      rw [mat_hasPref hp]
      simp only [best, longest, List.length_cons, List.length_nil]
      simp only [Nat.zero_add, List.take_succ_cons, List.take_zero, Option.or_none]
      cases ho : (own P [b]).head? with
      | none => simp
      | some p =>
        have := own_len (List.mem_of_mem_head? ho)
        simp [this]
    · have hl := (longest_full_none hP).mpr hp
      simp only [best]
      rw [hl]
      have hm : mat P v = [] := by
        by_cases hn : IsNode P [b]
        · rw [sig_node hn] at h
          injection h with h; subst h
          rw [mat_cons hp]; simp [sig, mat_nil hP]
        · simp [sig, hn, hp] at h
          subst h; exact mat_nil hP
      simp [hm, best]
  | succ n ih =>
    intro w v b off hw h
    obtain ⟨c, w, rfl⟩ : ∃ c w', w = c :: w' := by
      cases w with
      | nil => simp at hw
      | cons c w => exact ⟨c, w, rfl⟩
    have hw' : w.length = n := by simpa using hw
    simp only [List.cons_append] at *
    by_cases hp : HasPref P (c :: (w ++ [b]))
    · by_cases hn : IsNode P (c :: (w ++ [b]))
      · rw [sig_node hn] at h
        injection h with h; subst h
        rw [mat_hasPref hp]
        have hl : longest P (c :: (w ++ [b])) (c :: (w ++ [b])).length =
            ((own P (c :: (w ++ [b]))).head?).or (longest P (c :: w) (c :: w).length) := by
          have e : (c :: (w ++ [b])).length = (c :: w).length + 1 := by simp
          rw [e]
          simp only [longest]
          rw [List.take_of_length_le (by simp)]
          congr 1
          exact longest_take (w := c :: w) [b] (Nat.le_refl _)
        simp only [best]
        rw [hl]
        cases ho : (own P (c :: (w ++ [b]))).head? with
        | some p =>
          have := own_len (List.mem_of_mem_head? ho)
          simp [this]; omega
        | none =>
          simp only [Option.map_none, Option.none_or]
          cases hlg : longest P (c :: w) (c :: w).length with
          | some p => rfl
          | none =>
            exfalso
            rw [hlg, ho] at hl
            exact (longest_full_none hP).mp hl hp
      · simp [sig, hn, hp] at h
    · have hp' : ¬ HasPref P (c :: w) := fun hh =>
        hp (hh.mono (by rw [← List.cons_append]; exact List.prefix_append _ _))
      have e1 : best P (c :: (w ++ [b])) off = best P (w ++ [b]) (off + 1) := by
        simp only [best]; rw [(longest_full_none hP).mpr hp]
      have e2 : best P (c :: w) off = best P w (off + 1) := by
        simp only [best]; rw [(longest_full_none hP).mpr hp']
      rw [e1, e2]
      have key : ∀ u, sig P (w ++ [b]) = some u → best P (w ++ [b]) (off + 1) =
          ((mat P u).head?.map (⟨·, off + (c :: w).length + 1⟩)).or (best P w (off + 1)) := by
        intro u hu
        rw [ih w u b (off + 1) hw' hu]
        simp only [List.length_cons]
        rw [show off + 1 + w.length + 1 = off + (w.length + 1) + 1 by omega]
      by_cases hn : IsNode P (c :: (w ++ [b]))
      · rw [sig_node hn] at h
        injection h with h; subst h
        rw [mat_cons hp]
        cases hs : sig P (w ++ [b]) with
        | none =>
          have := best_dead hP [] (off + 1) hs
          simp only [List.append_nil] at this
          rw [this]; rfl
        | some u => exact key u hs
      · simp [sig, hn, hp] at h
        exact key v h

end Upon.AC
