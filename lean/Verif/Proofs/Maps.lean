import Verif.Spec.Maps
import Verif.Proofs.Utf8
/-
The ordered map.
-/
namespace Upon
open Spec

theorem byteLt_irrefl (a : List UInt8) : byteLt a a = false := by
  induction a with
  | nil => rfl
  | cons x a ih => rw [byteLt, if_neg (UInt8.lt_irrefl x), if_neg (UInt8.lt_irrefl x)]; exact ih

theorem byteLt_trans : ∀ {a b c : List UInt8}, byteLt a b = true → byteLt b c = true → byteLt a c = true
  | [], [], _, h, _ => by cases h
  | [], _ :: _, [], _, h => by cases h
  | [], _ :: _, _ :: _, _, _ => rfl
  | _ :: _, [], _, h, _ => by cases h
  | _ :: _, _ :: _, [], _, h => by cases h
  | x :: a, y :: b, z :: c, h1, h2 => by
    rw [byteLt] at h1 h2 ⊢
    have tri : ∀ u v : UInt8, ¬ u < v → ¬ v < u → u = v := fun u v h1 h2 =>
      UInt8.le_antisymm (UInt8.not_lt.mp h2) (UInt8.not_lt.mp h1)
    by_cases hxy : x < y
    · by_cases hyz : y < z
      · rw [if_pos (UInt8.lt_trans hxy hyz)]
      · rw [if_neg hyz] at h2
        by_cases hzy : z < y
        · rw [if_pos hzy] at h2; cases h2
        · rw [← tri y z hyz hzy, if_pos hxy]
    · rw [if_neg hxy] at h1
      by_cases hyx : y < x
      · rw [if_pos hyx] at h1; cases h1
      · rw [if_neg hyx] at h1
        rw [tri x y hxy hyx]
        by_cases hyz : y < z
        · rw [if_pos hyz]
        · rw [if_neg hyz] at h2 ⊢
          by_cases hzy : z < y
          · rw [if_pos hzy] at h2; cases h2
          · rw [if_neg hzy] at h2 ⊢
            exact byteLt_trans h1 h2

theorem byteLt_total : ∀ (a b : List UInt8), byteLt a b = true ∨ a = b ∨ byteLt b a = true
  | [], [] => .inr (.inl rfl)
  | [], _ :: _ => .inl rfl
  | _ :: _, [] => .inr (.inr rfl)
  | x :: a, y :: b => by
    by_cases hxy : x < y
    · left; rw [byteLt, if_pos hxy]
    · by_cases hyx : y < x
      · right; right; rw [byteLt, if_pos hyx]
      · have : x = y := UInt8.le_antisymm (UInt8.not_lt.mp hyx) (UInt8.not_lt.mp hxy)
        subst this
        rw [byteLt, byteLt, if_neg hxy, if_neg hxy]
        rcases byteLt_total a b with h | h | h
        · exact .inl (by simpa using h)
        · exact .inr (.inl (by rw [h]))
        · exact .inr (.inr (by simpa using h))

theorem byteLt_iff : ∀ {a b : List UInt8}, byteLt a b = true ↔
    (∃ x t, b = a ++ x :: t) ∨ ∃ p x s y t, a = p ++ x :: s ∧ b = p ++ y :: t ∧ x < y
  | [], [] => by simp [byteLt]
  | [], y :: b => by simp [byteLt]
  | x :: a, [] => by simp [byteLt]
  | x :: a, y :: b => by
    rw [byteLt]
    by_cases hxy : x < y
    · rw [if_pos hxy]
      exact ⟨fun _ => .inr ⟨[], x, a, y, b, rfl, rfl, hxy⟩, fun _ => rfl⟩
    · rw [if_neg hxy]
      by_cases hyx : y < x
      · rw [if_pos hyx]
        refine ⟨fun h => (by cases h), ?_⟩
        rintro (⟨z, t, h⟩ | ⟨p, u, s, v, t, h1, h2, h3⟩)
        · have := (List.cons.inj h).1; subst this; exact absurd hyx (UInt8.lt_irrefl _)
        · cases p with
          | nil =>
            have e1 := (List.cons.inj h1).1; have e2 := (List.cons.inj h2).1
            subst e1 e2; exact absurd h3 hxy
          | cons z p =>
            have e1 := (List.cons.inj h1).1; have e2 := (List.cons.inj h2).1
            subst e1; rw [e2] at hyx; exact absurd hyx (UInt8.lt_irrefl _)
      · rw [if_neg hyx]
        have : x = y := UInt8.le_antisymm (UInt8.not_lt.mp hyx) (UInt8.not_lt.mp hxy)
        subst this
        rw [byteLt_iff (a := a) (b := b)]
        constructor
        · rintro (⟨z, t, rfl⟩ | ⟨p, u, s, v, t, rfl, rfl, h3⟩)
          · exact .inl ⟨z, t, rfl⟩
          · exact .inr ⟨x :: p, u, s, v, t, rfl, rfl, h3⟩
        · rintro (⟨z, t, h⟩ | ⟨p, u, s, v, t, h1, h2, h3⟩)
          · exact .inl ⟨z, t, (List.cons.inj h).2⟩
          · cases p with
            | nil =>
              have e1 := (List.cons.inj h1).1; have e2 := (List.cons.inj h2).1
              subst e1; rw [← e2] at h3; exact absurd h3 hxy
            | cons z p => exact .inr ⟨p, u, s, v, t, (List.cons.inj h1).2, (List.cons.inj h2).2, h3⟩

theorem strLt_iff {a b : Str} : strLt a b = true ↔ Before a b := byteLt_iff

theorem Spec.Before.irrefl (a : Str) : ¬ Before a a := by
  rw [← strLt_iff, strLt, byteLt_irrefl]; simp

theorem Spec.Before.trans {a b c : Str} (h1 : Before a b) (h2 : Before b c) : Before a c := by
  rw [← strLt_iff] at h1 h2 ⊢; exact byteLt_trans h1 h2

theorem Spec.Before.total (a b : Str) : Before a b ∨ a = b ∨ Before b a := by
  rw [← strLt_iff, ← strLt_iff]
  rcases byteLt_total (utf8 a) (utf8 b) with h | h | h
  · exact .inl h
  · exact .inr (.inl (utf8_inj h))
  · exact .inr (.inr h)

variable {V : Type}

theorem Spec.Ascending.nodup {m : List (Str × V)} (h : Ascending m) : (m.map Prod.fst).Nodup :=
  List.Pairwise.imp (fun {a b} h e => by subst e; exact Before.irrefl _ h) h

theorem ascending_cons {k : Str} {v : V} {m : List (Str × V)} :
    Ascending ((k, v) :: m) ↔ (∀ q ∈ m, Before k q.1) ∧ Ascending m := by
  simp [Ascending, List.map_cons, List.pairwise_cons]

theorem mem_insert {m : BMap V} {k : Str} {x : V} {q : Str × V} (h : q ∈ BMap.insert m k x) :
    q = (k, x) ∨ q ∈ m := by
  induction m with
  | nil => simp [BMap.insert] at h; exact .inl h
  | cons p m ih =>
    obtain ⟨k', v'⟩ := p
    rw [BMap.insert] at h
    split at h
    · rcases List.mem_cons.mp h with h | h
      · exact .inl h
      · exact .inr (List.mem_cons_of_mem _ h)
    · split at h
      · rcases List.mem_cons.mp h with h | h
        · exact .inl h
        · exact .inr h
      · rcases List.mem_cons.mp h with h | h
        · exact .inr (h ▸ List.mem_cons_self)
        · rcases ih h with h | h
          · exact .inl h
          · exact .inr (List.mem_cons_of_mem _ h)

theorem insert_ascending {m : BMap V} (h : Ascending m) (k : Str) (x : V) : Ascending (BMap.insert m k x) := by
  induction m with
  | nil => simp [BMap.insert, Ascending]
  | cons p m ih =>
    obtain ⟨k', v'⟩ := p
    obtain ⟨h1, h2⟩ := ascending_cons.mp h
    rw [BMap.insert]
    split
    · rename_i e; subst e; exact ascending_cons.mpr ⟨h1, h2⟩
    · rename_i hne
      split
      · rename_i hlt
        have hlt := strLt_iff.mp hlt
        refine ascending_cons.mpr ⟨fun q hq => ?_, h⟩
        rcases List.mem_cons.mp hq with rfl | hq
        · exact hlt
        · exact hlt.trans (h1 q hq)
      · rename_i hlt
        refine ascending_cons.mpr ⟨fun q hq => ?_, ih h2⟩
        rcases mem_insert hq with rfl | hq
        · rcases Before.total k' k with h | h | h
          · exact h
          · exact absurd h hne
          · exact absurd (strLt_iff.mpr h) hlt
        · exact h1 q hq

theorem get_insert (m : BMap V) (k : Str) (x : V) (n : Str) :
    BMap.get (BMap.insert m k x) n = if n = k then some x else BMap.get m n := by
  induction m with
  | nil =>
    rw [BMap.insert, BMap.get, BMap.get]
    by_cases h : k = n
    · rw [if_pos h, if_pos h.symm]
    · rw [if_neg h, if_neg fun e => h e.symm]; rfl
  | cons p m ih =>
    obtain ⟨k', v'⟩ := p
    rw [BMap.insert]
    split
    · rename_i e; subst e
      rw [BMap.get, BMap.get]
      by_cases h : k' = n
      · rw [if_pos h, if_pos h.symm]
      · rw [if_neg h, if_neg (fun e => h e.symm), if_neg h]
    · rename_i hne
      split
      · rw [BMap.get]
        by_cases h : k = n
        · rw [if_pos h, if_pos h.symm]
        · rw [if_neg h, if_neg fun e => h e.symm]
      · rw [BMap.get, ih, BMap.get]
        by_cases h : k' = n
        · rw [if_pos h, if_neg (fun e => hne (h.trans e)), if_pos h]
        · rw [if_neg h, if_neg h]

theorem remove_ascending {m : BMap V} (h : Ascending m) (k : Str) : Ascending (BMap.remove m k) := by
  induction m with
  | nil => exact h
  | cons p m ih =>
    obtain ⟨k', v'⟩ := p
    obtain ⟨h1, h2⟩ := ascending_cons.mp h
    rw [BMap.remove]
    split
    · exact h2
    · refine ascending_cons.mpr ⟨fun q hq => h1 q ?_, ih h2⟩
      clear h1 h2 ih h
      induction m with
      | nil => exact hq
      | cons r m ih =>
        rw [BMap.remove] at hq
        split at hq
        · exact List.mem_cons_of_mem _ hq
        · rcases List.mem_cons.mp hq with e | hq
          · exact e ▸ List.mem_cons_self
          · exact List.mem_cons_of_mem _ (ih hq)

theorem get_eq_none_of_lt {m : BMap V} {k : Str} (h : ∀ q ∈ m, Before k q.1) : BMap.get m k = none := by
  induction m with
  | nil => rfl
  | cons p m ih =>
    obtain ⟨k', v'⟩ := p
    rw [BMap.get, if_neg, ih fun q hq => h q (List.mem_cons_of_mem _ hq)]
    rintro rfl
    exact Before.irrefl _ (h _ List.mem_cons_self)

theorem get_remove {m : BMap V} (h : Ascending m) (k n : Str) :
    BMap.get (BMap.remove m k) n = if n = k then none else BMap.get m n := by
  induction m with
  | nil => simp [BMap.remove, BMap.get]
  | cons p m ih =>
    obtain ⟨k', v'⟩ := p
    obtain ⟨h1, h2⟩ := ascending_cons.mp h
    rw [BMap.remove]
    split
    · rename_i e; subst e
      by_cases hn : n = k'
      · subst hn; rw [if_pos rfl]; exact get_eq_none_of_lt h1
      · rw [if_neg hn, BMap.get, if_neg fun e => hn e.symm]
    · rename_i hne
      rw [BMap.get, ih h2, BMap.get]
      by_cases hn : k' = n
      · rw [if_pos hn, if_neg fun e => hne (hn.trans e), if_pos hn]
      · rw [if_neg hn, if_neg hn]

theorem get_mem {m : BMap V} (h : Ascending m) {k : Str} {v : V} : BMap.get m k = some v ↔ (k, v) ∈ m := by
  induction m with
  | nil => simp [BMap.get]
  | cons p m ih =>
    obtain ⟨k', v'⟩ := p
    obtain ⟨h1, h2⟩ := ascending_cons.mp h
    rw [BMap.get]
    by_cases hk : k' = k
    · subst hk
      rw [if_pos rfl]
      constructor
      · intro e; cases e; exact List.mem_cons_self
      · intro hm
        rcases List.mem_cons.mp hm with e | hm
        · cases e; rfl
        · exact absurd (h1 _ hm) (Before.irrefl _)
    · rw [if_neg hk, ih h2]
      constructor
      · exact List.mem_cons_of_mem _
      · intro hm
        rcases List.mem_cons.mp hm with e | hm
        · cases e; exact absurd rfl hk
        · exact hm

theorem ascending_ext {m m' : BMap V} (h : Ascending m) (h' : Ascending m')
    (e : ∀ k, BMap.get m k = BMap.get m' k) : m = m' := by
  induction m generalizing m' with
  | nil =>
    cases m' with
    | nil => rfl
    | cons p m' =>
      have := e p.1
      rw [BMap.get, BMap.get, if_pos rfl] at this; cases this
  | cons p m ih =>
    obtain ⟨k, v⟩ := p
    obtain ⟨h1, h2⟩ := ascending_cons.mp h
    cases m' with
    | nil =>
      have := e k
      rw [BMap.get, BMap.get, if_pos rfl] at this; cases this
    | cons p' m' =>
      obtain ⟨k', v'⟩ := p'
      obtain ⟨h1', h2'⟩ := ascending_cons.mp h'
      have hk : k = k' := by
        rcases Before.total k k' with hb | hb | hb
        · exfalso
          have := e k
          rw [BMap.get, if_pos rfl, BMap.get, if_neg (fun e => Before.irrefl _ (e ▸ hb)),
            get_eq_none_of_lt fun q hq => hb.trans (h1' q hq)] at this
          cases this
        · exact hb
        · exfalso
          have := e k'
          rw [BMap.get, if_neg (fun e => Before.irrefl _ (e ▸ hb)), BMap.get, if_pos rfl,
            get_eq_none_of_lt fun q hq => hb.trans (h1 q hq)] at this
          cases this
      subst hk
      have hv := e k
      rw [BMap.get, if_pos rfl, BMap.get, if_pos rfl] at hv
      cases hv
      rw [ih h2 h2' fun n => ?_]
      by_cases hn : k = n
      · subst hn
        rw [get_eq_none_of_lt h1, get_eq_none_of_lt h1']
      · have := e n
        rw [BMap.get, if_neg hn, BMap.get, if_neg hn] at this
        exact this

end Upon
