import Verif.Spec.Debug
import Verif.Spec.Values
/-
The derived equality of values.
-/
namespace Upon
open Spec
namespace Dbg

theorem high_bits {n : Nat} : (∀ i, 52 ≤ i → i < 63 → n.testBit i = true) ↔ n / 2 ^ 52 % 2 ^ 11 = 2 ^ 11 - 1 := by
  constructor
  · intro h
    apply Nat.eq_of_testBit_eq
    intro j
    rw [Nat.testBit_mod_two_pow, Nat.testBit_div_two_pow, Nat.testBit_two_pow_sub_one]
    by_cases hj : j < 11
    · rw [h (j + 52) (by omega) (by omega)]; simp
    · simp [hj]
  · intro h i h1 h2
    have := congrArg (fun k => Nat.testBit k (i - 52)) h
    simp only [Nat.testBit_mod_two_pow, Nat.testBit_div_two_pow, Nat.testBit_two_pow_sub_one] at this
    rw [show i - 52 + 52 = i by omega] at this
    have h3 : decide (i - 52 < 11) = true := decide_eq_true (by omega)
    rw [h3] at this
    simpa using this

theorem low_bits {n : Nat} : (∃ i, i < 52 ∧ n.testBit i = true) ↔ n % 2 ^ 52 ≠ 0 := by
  constructor
  · intro ⟨i, hi, hb⟩ h
    have := Nat.testBit_mod_two_pow n 52 i
    rw [h, hb, Nat.zero_testBit, decide_eq_true hi] at this
    exact absurd this (by decide)
  · intro h
    apply Classical.byContradiction
    intro hn
    apply h
    apply Nat.eq_of_testBit_eq
    intro i
    rw [Nat.testBit_mod_two_pow, Nat.zero_testBit]
    by_cases hi : i < 52
    · cases hb : n.testBit i with
      | true => exact absurd ⟨i, hi, hb⟩ hn
      | false => simp
    · simp [hi]

theorem nan_iff {f : BitVec 64} : f64IsNan f = true ↔ NotNumber f := by
  unfold NotNumber f64IsNan
  have h1 := high_bits (n := f.toNat)
  have h2 := low_bits (n := f.toNat)
  simp only [BitVec.testBit_toNat] at h1 h2
  rw [h1, h2, decide_eq_true_iff]
  have hf := f.isLt
  omega

mutual
theorem eq_refl : ∀ (v : Value), (∀ f, PartOf (.float f) v → f64IsNan f = false) → v.eq v = true
  | .none, _ => rfl
  | .bool b, _ => by simp [Value.eq]
  | .integer i, _ => by simp [Value.eq]
  | .float f, h => by simp [Value.eq, f64Eq, h f .self]
  | .string s, _ => by simp [Value.eq]
  | .list l, h => by rw [Value.eq]; exact items_refl l fun f v hv hp => h f (.item hv hp)
  | .map m, h => by rw [Value.eq]; exact entries_refl m fun f k v hv hp => h f (.entry hv hp)
theorem items_refl : ∀ (l : List Value), (∀ f, ∀ v, v ∈ l → PartOf (.float f) v → f64IsNan f = false) → eqItems l l = true
  | [], _ => by simp [eqItems]
  | v :: vs, h => by
    simp [eqItems, eq_refl v fun f hp => h f v List.mem_cons_self hp, items_refl vs fun f w hw hp => h f w (List.mem_cons_of_mem _ hw) hp]
theorem entries_refl : ∀ (m : List (Str × Value)), (∀ f, ∀ k v, (k, v) ∈ m → PartOf (.float f) v → f64IsNan f = false) → eqEntries m m = true
  | [], _ => by simp [eqEntries]
  | (k, v) :: m, h => by
    simp [eqEntries, eq_refl v fun f hp => h f k v List.mem_cons_self hp, entries_refl m fun f k w hw hp => h f k w (List.mem_cons_of_mem _ hw) hp]
end

theorem items_mem : ∀ {l : List Value}, eqItems l l = true → ∀ v ∈ l, v.eq v = true
  | v :: l, h, w, hw => by
    rw [eqItems, Bool.and_eq_true] at h
    rcases List.mem_cons.mp hw with rfl | hw
    · exact h.1
    · exact items_mem h.2 w hw

theorem entries_mem : ∀ {m : List (Str × Value)}, eqEntries m m = true → ∀ k v, (k, v) ∈ m → v.eq v = true
  | (k, v) :: m, h, k', w, hw => by
    rw [eqEntries, Bool.and_eq_true, Bool.and_eq_true] at h
    rcases List.mem_cons.mp hw with hw | hw
    · cases hw; exact h.1.2
    · exact entries_mem h.2 k' w hw

theorem eq_part {f : BitVec 64} {v : Value} (hp : PartOf (.float f) v) (h : v.eq v = true) : f64IsNan f = true → False := by
  induction hp with
  | self =>
    intro hn
    simp [Value.eq, f64Eq, hn] at h
  | item hm _ ih => rw [Value.eq] at h; exact ih (items_mem h _ hm)
  | entry hm _ ih => rw [Value.eq] at h; exact ih (entries_mem h _ _ hm)

theorem float_symm (f g : BitVec 64) : f64Eq f g = f64Eq g f := by
  unfold f64Eq
  rw [Bool.and_comm (!f64IsNan f), Bool.and_comm (f64IsZero f), show (f == g) = (g == f) from BEq.comm]

mutual
theorem eq_symm : ∀ v w : Value, v.eq w = w.eq v
  | .none, w => by cases w <;> simp [Value.eq]
  | .bool b, w => by cases w <;> simp [Value.eq]; rw [Bool.beq_comm]
  | .integer i, w => by cases w <;> simp [Value.eq]; exact BEq.comm
  | .float f, w => by cases w <;> simp [Value.eq]; exact float_symm _ _
  | .string s, w => by cases w <;> simp [Value.eq]; exact BEq.comm
  | .list l, w => by cases w <;> simp [Value.eq]; exact items_symm _ _
  | .map m, w => by cases w <;> simp [Value.eq]; exact entries_symm _ _
theorem items_symm : ∀ l l' : List Value, eqItems l l' = eqItems l' l
  | [], [] => rfl
  | [], _ :: _ => by simp [eqItems]
  | _ :: _, [] => by simp [eqItems]
  | v :: l, w :: l' => by rw [eqItems, eqItems, eq_symm v w, items_symm l l']
theorem entries_symm : ∀ l l' : List (Str × Value), eqEntries l l' = eqEntries l' l
  | [], [] => rfl
  | [], _ :: _ => by simp [eqEntries]
  | _ :: _, [] => by simp [eqEntries]
  | (k, v) :: l, (k', w) :: l' => by rw [eqEntries, eqEntries, eq_symm v w, entries_symm l l', show (k == k') = (k' == k) from BEq.comm]
end

theorem float_trans {f g h : BitVec 64} (h1 : f64Eq f g = true) (h2 : f64Eq g h = true) : f64Eq f h = true := by
  simp only [f64Eq, Bool.and_eq_true, Bool.or_eq_true, beq_iff_eq] at *
  obtain ⟨⟨a, b⟩, c⟩ := h1
  obtain ⟨⟨d, e⟩, f'⟩ := h2
  refine ⟨⟨a, e⟩, ?_⟩
  rcases c with rfl | ⟨c1, c2⟩
  · exact f'
  · rcases f' with rfl | ⟨d1, d2⟩
    · exact .inr ⟨c1, c2⟩
    · exact .inr ⟨c1, d2⟩

mutual
theorem eq_trans : ∀ u v w : Value, u.eq v = true → v.eq w = true → u.eq w = true
  | .none, v, w, h1, h2 => by cases v <;> simp [Value.eq] at h1; exact h2
  | .bool b, v, w, h1, h2 => by cases v <;> simp [Value.eq] at h1; rw [h1]; exact h2
  | .integer b, v, w, h1, h2 => by cases v <;> simp [Value.eq] at h1; rw [h1]; exact h2
  | .float b, v, w, h1, h2 => by
    cases v <;> simp [Value.eq] at h1
    cases w <;> simp [Value.eq] at h2 ⊢
    exact float_trans h1 h2
  | .string b, v, w, h1, h2 => by cases v <;> simp [Value.eq] at h1; rw [h1]; exact h2
  | .list b, v, w, h1, h2 => by
    cases v <;> simp [Value.eq] at h1
    cases w <;> simp [Value.eq] at h2 ⊢
    exact items_trans _ _ _ h1 h2
  | .map b, v, w, h1, h2 => by
    cases v <;> simp [Value.eq] at h1
    cases w <;> simp [Value.eq] at h2 ⊢
    exact entries_trans _ _ _ h1 h2
theorem items_trans : ∀ u v w : List Value, eqItems u v = true → eqItems v w = true → eqItems u w = true
  | [], [], _, _, h => h
  | [], _ :: _, _, h, _ => by simp [eqItems] at h
  | _ :: _, [], _, h, _ => by simp [eqItems] at h
  | _ :: _, _ :: _, [], _, h => by simp [eqItems] at h
  | a :: u, b :: v, c :: w, h1, h2 => by
    rw [eqItems, Bool.and_eq_true] at *
    exact ⟨eq_trans a b c h1.1 h2.1, items_trans u v w h1.2 h2.2⟩
theorem entries_trans : ∀ u v w : List (Str × Value), eqEntries u v = true → eqEntries v w = true → eqEntries u w = true
  | [], [], _, _, h => h
  | [], _ :: _, _, h, _ => by simp [eqEntries] at h
  | _ :: _, [], _, h, _ => by simp [eqEntries] at h
  | _ :: _, _ :: _, [], _, h => by simp [eqEntries] at h
  | (i, a) :: u, (j, b) :: v, (k, c) :: w, h1, h2 => by
    rw [eqEntries, Bool.and_eq_true, Bool.and_eq_true, beq_iff_eq] at *
    exact ⟨⟨h1.1.1.trans h2.1.1, eq_trans a b c h1.1.2 h2.1.2⟩, entries_trans u v w h1.2 h2.2⟩
end

mutual
theorem eq_same : ∀ v w : Value, v.eq w = true → (∀ f, PartOf (.float f) v → f64IsZero f = false) → v = w
  | .none, v, h1, _ => by cases v <;> simp [Value.eq] at h1; rfl
  | .bool b, v, h1, _ => by cases v <;> simp [Value.eq] at h1; rw [h1]
  | .integer b, v, h1, _ => by cases v <;> simp [Value.eq] at h1; rw [h1]
  | .float b, v, h1, hz => by
    cases v <;> simp [Value.eq] at h1
    simp [f64Eq, hz _ .self] at h1
    rw [h1.2]
  | .string b, v, h1, _ => by cases v <;> simp [Value.eq] at h1; rw [h1]
  | .list b, v, h1, hz => by
    cases v <;> simp [Value.eq] at h1
    rw [items_same' _ _ h1 fun f v hv hp => hz f (.item hv hp)]
  | .map b, v, h1, hz => by
    cases v <;> simp [Value.eq] at h1
    rw [entries_same' _ _ h1 fun f k v hv hp => hz f (.entry hv hp)]
theorem items_same' : ∀ u v : List Value, eqItems u v = true → (∀ f, ∀ v, v ∈ u → PartOf (.float f) v → f64IsZero f = false) → u = v
  | [], [], _, _ => rfl
  | [], _ :: _, h, _ => by simp [eqItems] at h
  | _ :: _, [], h, _ => by simp [eqItems] at h
  | a :: u, b :: v, h1, hz => by
    rw [eqItems, Bool.and_eq_true] at h1
    rw [eq_same a b h1.1 fun f hp => hz f a List.mem_cons_self hp, items_same' u v h1.2 fun f w hw hp => hz f w (List.mem_cons_of_mem _ hw) hp]
theorem entries_same' : ∀ u v : List (Str × Value), eqEntries u v = true → (∀ f, ∀ k v, (k, v) ∈ u → PartOf (.float f) v → f64IsZero f = false) → u = v
  | [], [], _, _ => rfl
  | [], _ :: _, h, _ => by simp [eqEntries] at h
  | _ :: _, [], h, _ => by simp [eqEntries] at h
  | (i, a) :: u, (j, b) :: v, h1, hz => by
    rw [eqEntries, Bool.and_eq_true, Bool.and_eq_true, beq_iff_eq] at h1
    rw [eq_same a b h1.1.2 fun f hp => hz f i a List.mem_cons_self hp, entries_same' u v h1.2 fun f k w hw hp => hz f k w (List.mem_cons_of_mem _ hw) hp, h1.1.1]
end

theorem items_len : ∀ {u v : List Value}, eqItems u v = true → u.length = v.length
  | [], [], _ => rfl
  | [], _ :: _, h => by simp [eqItems] at h
  | _ :: _, [], h => by simp [eqItems] at h
  | a :: u, b :: v, h => by rw [eqItems, Bool.and_eq_true] at h; rw [List.length_cons, List.length_cons, items_len h.2]

theorem entries_len : ∀ {u v : List (Str × Value)}, eqEntries u v = true → u.length = v.length
  | [], [], _ => rfl
  | [], _ :: _, h => by simp [eqEntries] at h
  | _ :: _, [], h => by simp [eqEntries] at h
  | a :: u, b :: v, h => by rw [eqEntries, Bool.and_eq_true] at h; rw [List.length_cons, List.length_cons, entries_len h.2]

theorem eq_length {v w : Value} (h : v.eq w = true) : items v = items w := by
  cases v <;> cases w <;> simp [Value.eq] at h <;> simp only [items]
  · exact items_len h
  · exact entries_len h

theorem eq_truth {v w : Value} (h : v.eq w = true) : v.asBool = w.asBool := by
  cases v <;> cases w <;> simp [Value.eq] at h <;> try (rw [h]; done)
  · rfl
  · simp only [f64Eq, Bool.and_eq_true, Bool.or_eq_true, beq_iff_eq] at h
    rcases h.2 with rfl | ⟨h1, h2⟩
    · rfl
    · simp [Value.asBool, h1, h2]
  · have := items_len h
    rename_i l l'
    cases l <;> cases l' <;> simp_all [Value.asBool]
  · have := entries_len h
    rename_i l l'
    cases l <;> cases l' <;> simp_all [Value.asBool]

end Dbg
end Upon
