import Verif.Proofs.AC.Build
import Verif.Proofs.Utf8
import Verif.Spec.Search
/-
Searching with the finished automaton.
-/
namespace Upon.AC

variable {P : Pats} {nm : Nat → Word}

theorem nextState_eq (a : Auto) (b : UInt8) : ∀ fuel id, nextState a b fuel id = failTarget a b fuel id := by
  intro fuel
  induction fuel with
  | zero => intro id; rfl
  | succ fuel ih =>
    intro id
    simp only [nextState, failTarget]
    cases a[id]? with
    | none => rfl
    | some s =>
      simp only [Option.bind_eq_bind, Option.bind_some]
      by_cases h : s.trans b = FAIL <;> simp [h, ih]

theorem nextState_spec (hP : NonEmpty P) {a : Auto} (dn : Done P nm a) (b : UInt8) {w : Word} {id : Nat}
    (h : Rep nm a (some w) id) :
    ∃ t, nextState a b (a.length + 1) id = some t ∧ Rep nm a (sig P (w ++ [b])) t := by
  rw [nextState_eq]
  obtain ⟨h1, h2, h3⟩ := h
  have := dn.sk.small id h1 h2
  refine failTarget_spec hP dn.sk b w.length (fun i hi hl _ => dn.fin i hi hl) (a.length + 1) (some w) id
    ⟨h1, h2, h3⟩ (by intro u hu; injection hu with hu; subst hu; exact Nat.le_refl _) ?_
  simp only [Option.map_some, Option.getD_some]
  rw [h3] at this
  omega

theorem getMatch_spec (hP : NonEmpty P) {a : Auto} (dn : Done P nm a) {w : Word} {id : Nat} (e : Nat)
    (h : Rep nm a (some w) id) : getMatch a id e = some ((mat P w).head?.map (⟨·, e⟩)) := by
  obtain ⟨h1, h2, h3⟩ := h
  obtain ⟨s, hs⟩ := dn.sk.get h2
  simp only [getMatch, hs, Option.bind_eq_bind, Option.bind_some]
  have : s.matches_ = mat P w := by
    rcases Nat.lt_or_ge 2 id with h | h
    · have := (dn.fin id h h2 s hs).2
      rw [this, h3]
    · have : id = 2 := by omega
      subst this
      rw [dn.sk.rootM s hs, ← h3, dn.sk.root, mat_nil hP]
  rw [this]

theorem findLoop_spec (hP : NonEmpty P) {a : Auto} (dn : Done P nm a) (off : Nat) :
    ∀ (hay w v : Word) (id : Nat), sig P w = some v → Rep nm a (some v) id →
    findLoop a hay (off + w.length) id (best P w off) = some (best P (w ++ hay) off) := by
  intro hay
  induction hay with
  | nil => intro w v id _ _; simp [findLoop]
  | cons b hay ih =>
    intro w v id hs hr
    obtain ⟨t, e1, r1⟩ := nextState_spec hP dn b hr
    rw [sig_some_snoc hs] at r1
    simp only [findLoop, e1, Option.bind_eq_bind, Option.bind_some]
    cases hs' : sig P (w ++ [b]) with
    | none =>
      rw [hs'] at r1
      have : t = DEAD := r1
      rw [if_pos this]
      have := best_dead hP hay off hs'
      rw [← this]; simp
    | some u =>
      rw [hs'] at r1
      have hne : t ≠ DEAD := by
        have := r1.1
        simp only [DEAD]; omega
      rw [if_neg hne, getMatch_spec hP dn _ r1]
      simp only [Option.bind_some]
      have hb := best_live hP w.length w u b off rfl hs'
      rw [← hb]
      have := ih (w ++ [b]) u t hs' r1
      simpa [Nat.add_assoc] using this

theorem findAt_spec (hP : NonEmpty P) {a : Auto} (dn : Done P nm a) (hay : Word) (off : Nat) :
    findAt a hay off = some (best P (hay.drop off) off) := by
  have hr : Rep nm a (some []) START := ⟨by simp [START], by have := dn.sk.len; simp [START]; omega, dn.sk.root⟩
  have h := findLoop_spec hP dn off (hay.drop off) [] [] START rfl hr
  simp only [findAt, getMatch_spec hP dn off hr, mat_nil hP, Option.bind_eq_bind, Option.bind_some,
    List.head?_nil, Option.map_none]
  simpa [best] using h

/-- What `longest` returns. -/
theorem longest_some {w : Word} {p : Pattern} : ∀ {n : Nat}, longest P w n = some p →
    ∃ m, 0 < m ∧ m ≤ n ∧ (own P (w.take m)).head? = some p ∧
      ∀ m', m < m' → m' ≤ n → own P (w.take m') = [] := by
  intro n
  induction n with
  | zero => intro h; cases h
  | succ n ih =>
    intro h
    simp only [longest] at h
    cases ho : (own P (w.take (n + 1))).head? with
    | some q =>
      rw [ho] at h; simp at h; subst h
      exact ⟨n + 1, by omega, Nat.le_refl _, ho, by intro m' h1 h2; omega⟩
    | none =>
      rw [ho] at h; simp at h
      obtain ⟨m, h1, h2, h3, h4⟩ := ih h
      refine ⟨m, h1, by omega, h3, ?_⟩
      intro m' h5 h6
      by_cases e : m' = n + 1
      · subst e; exact List.head?_eq_none_iff.mp ho
      · exact h4 m' h5 (by omega)

theorem best_some (hP : NonEmpty P) : ∀ {w : Word} {off : Nat} {m : Match}, best P w off = some m →
    ∃ i, longest P (w.drop i) (w.drop i).length = some m.pattern ∧ m.end_ = off + i + m.pattern.len ∧
      ∀ i' < i, ¬ HasPref P (w.drop i') := by
  intro w
  induction w with
  | nil => intro off m h; cases h
  | cons c w ih =>
    intro off m h
    simp only [best] at h
    split at h
    · next p hp =>
      injection h with h; subst h
      exact ⟨0, hp, rfl, by intro i' h; omega⟩
    · next hp =>
      obtain ⟨i, h1, h2, h3⟩ := ih h
      refine ⟨i + 1, by simpa using h1, by omega, ?_⟩
      intro i' hi'
      cases i' with
      | zero => exact (longest_full_none hP).mp hp
      | succ i' => simpa using h3 i' (by omega)

theorem best_none (hP : NonEmpty P) : ∀ {w : Word} {off : Nat}, best P w off = none →
    ∀ i, ¬ HasPref P (w.drop i) := by
  intro w
  induction w with
  | nil => intro off h i; simpa using hasPref_nil hP
  | cons c w ih =>
    intro off h i
    simp only [best] at h
    split at h
    · cases h
    · next hp =>
      cases i with
      | zero => exact (longest_full_none hP).mp hp
      | succ i => simpa using ih h i

/-! Delimiters as byte patterns. -/

def patsOf (syn : Syn) : Pats := syn.map fun p => (p.1.toUsize, utf8 p.2)

theorem nonEmpty_pats {syn : Syn} (h : Spec.NonEmptyDelims syn) : NonEmpty (patsOf syn) := by
  intro p hp
  obtain ⟨q, hq, rfl⟩ := List.mem_map.mp hp
  exact utf8_ne_nil (h q hq)

theorem kind_roundtrip (k : Kind) : Kind.fromUsize k.toUsize = some k := by cases k <;> rfl

theorem toUsize_inj {k k' : Kind} (h : k.toUsize = k'.toUsize) : k = k' := by
  have := kind_roundtrip k
  rw [h, kind_roundtrip] at this
  exact (Option.some.inj this).symm

theorem standsAt_bytes {src d : Str} (hd : d ≠ []) {i j : Nat} :
    Spec.StandsAt src d i j ↔ utf8 d <+: (utf8 src).drop i ∧ j = i + blen d := by
  constructor
  · rintro ⟨pre, post, rfl, h1, h2⟩
    refine ⟨⟨utf8 post, ?_⟩, by rw [← h2, ← h1]; simp⟩
    have : i = (utf8 pre).length := by rw [utf8_length, h1]
    rw [this]; simp
  · rintro ⟨⟨y, hy⟩, rfl⟩
    have hil : i ≤ (utf8 src).length := by
      rcases Nat.lt_or_ge (utf8 src).length i with h | h
      · rw [List.drop_eq_nil_of_le (by omega)] at hy
        exact absurd (List.append_eq_nil_iff.mp hy).1 (utf8_ne_nil hd)
      · exact h
    have e := List.take_append_drop i (utf8 src)
    rw [← hy] at e
    obtain ⟨pre, post, e1, e2, _⟩ := utf8_sync hd e.symm
    have : blen pre = i := by rw [← utf8_length, e2]; simp; omega
    exact ⟨pre, post, by simp [e1], this, by simp [this]⟩

theorem occurs_hasPref {syn : Syn} (hs : Spec.NonEmptyDelims syn) {src : Str} {k : Kind} {i j : Nat}
    (h : Spec.Occurs syn src k i j) : HasPref (patsOf syn) ((utf8 src).drop i) := by
  obtain ⟨d, hd, hst⟩ := h
  exact ⟨_, List.mem_map_of_mem hd, (standsAt_bytes (hs _ hd)).mp hst |>.1⟩

theorem own_head_split {syn : Syn} {w : Word} {p : Pattern} (h : (own (patsOf syn) w).head? = some p) :
    ∃ k d before later, syn = before ++ (k, d) :: later ∧ p = ⟨k.toUsize, blen d⟩ ∧ utf8 d = w ∧
      ∀ k', (k', d) ∉ before := by
  induction syn with
  | nil => simp [own, patsOf] at h
  | cons q syn ih =>
    obtain ⟨k, d⟩ := q
    by_cases hw : utf8 d = w
    · refine ⟨k, d, [], syn, rfl, ?_, hw, by simp⟩
      simp [own, patsOf, hw] at h
      rw [← h, ← hw, utf8_length]
    · have : own (patsOf ((k, d) :: syn)) w = own (patsOf syn) w := by
        simp [own, patsOf, hw]
      rw [this] at h
      obtain ⟨k', d', before, later, e1, e2, e3, e4⟩ := ih h
      refine ⟨k', d', (k, d) :: before, later, by simp [e1], e2, e3, ?_⟩
      intro k'' hm
      rcases List.mem_cons.mp hm with hm | hm
      · injection hm with _ hm
        subst hm; exact hw e3
      · exact e4 k'' hm

/-- The search, in terms of occurrences. -/
theorem searcherFindAt_spec {syn : Syn} (hs : Spec.NonEmptyDelims syn) {a : Auto}
    (dn : Done (patsOf syn) nm a) (src : Str) (start : Nat) :
    (∃ k i j, searcherFindAt a (utf8 src) start = some (some (k, i, j)) ∧
        Spec.Chosen syn src start k i j) ∨
      (searcherFindAt a (utf8 src) start = some none ∧
        ∀ k i j, start ≤ i → ¬ Spec.Occurs syn src k i j) := by
  have hP := nonEmpty_pats hs
  have hf := findAt_spec hP dn (utf8 src) start
  simp only [searcherFindAt, hf, Option.bind_eq_bind, Option.bind_some]
  cases hb : best (patsOf syn) ((utf8 src).drop start) start with
  | none =>
    right
    refine ⟨rfl, ?_⟩
    intro k i j hi ho
    have := best_none hP hb (i - start)
    rw [List.drop_drop] at this
    rw [show start + (i - start) = i by omega] at this
    exact this (occurs_hasPref hs ho)
  | some m =>
    left
    obtain ⟨i, h1, h2, h3⟩ := best_some hP hb
    rw [List.drop_drop] at h1
    obtain ⟨n, hn0, hnl, ho, hmax⟩ := longest_some h1
    obtain ⟨k, d, before, later, e1, e2, e3, e4⟩ := own_head_split ho
    have hpl : m.pattern.len = n := by
      rw [own_len (List.mem_of_mem_head? ho)]
      simp at hnl ⊢; omega
    have hmem : (k, d) ∈ syn := by rw [e1]; simp
    have hbl : blen d = n := by rw [← hpl, e2]
    have hst : Spec.StandsAt src d (start + i) (start + i + n) := by
      rw [standsAt_bytes (hs _ hmem)]
      refine ⟨?_, by rw [hbl]⟩
      rw [e3]; exact List.take_prefix _ _
    refine ⟨k, start + i, start + i + n, ?_, ?_⟩
    · simp only [h2, e2, kind_roundtrip, Option.bind_some, hbl]
      rw [if_pos (by omega)]
      congr 3
      simp
    · refine ⟨by omega, ?_, ?_, ⟨d, before, later, e1, hst, e4⟩⟩
      · intro k' i' j' hi' ho'
        rcases Nat.lt_or_ge i' (start + i) with hlt | hge
        · exfalso
          have := h3 (i' - start) (by omega)
          rw [List.drop_drop, show start + (i' - start) = i' by omega] at this
          exact this (occurs_hasPref hs ho')
        · exact hge
      · intro k' j' ⟨d', hd', hst'⟩
        obtain ⟨hpre, hj⟩ := (standsAt_bytes (hs _ hd')).mp hst'
        rcases Nat.lt_or_ge n (blen d') with hlt | hge
        · exfalso
          have hle := hpre.length_le
          rw [utf8_length] at hle
          have := hmax (blen d') hlt hle
          refine own_ne_nil.mpr ⟨_, List.mem_map_of_mem hd', ?_⟩ this
          simp only
          rw [← utf8_length]
          exact (List.prefix_iff_eq_take.mp hpre)
        · simp only at hj; omega

theorem new_spec {syn : Syn} (hs : Spec.NonEmptyDelims syn) :
    ∃ a nm, new syn = some a ∧ Done (patsOf syn) nm a :=
  build_spec (patsOf syn) (nonEmpty_pats hs)

/-- A chosen occurrence is unique. -/
theorem Chosen.unique {syn : Syn} {src : Str} {start : Nat} {k k' : Kind} {i i' j j' : Nat}
    (h : Spec.Chosen syn src start k i j) (h' : Spec.Chosen syn src start k' i' j') :
    k = k' ∧ i = i' ∧ j = j' := by
  have occ : ∀ {k i j}, Spec.Chosen syn src start k i j → Spec.Occurs syn src k i j := by
    intro k i j h
    obtain ⟨d, b, l, e, st, _⟩ := h.first
    exact ⟨d, by rw [e]; simp, st⟩
  have hi : i = i' := by
    have h1 := h.leftmost _ _ _ h'.after (occ h')
    have h2 := h'.leftmost _ _ _ h.after (occ h)
    omega
  subst hi
  have hj : j = j' := by
    have h1 := h.longest _ _ (occ h')
    have h2 := h'.longest _ _ (occ h)
    omega
  subst hj
  refine ⟨?_, rfl, rfl⟩
  obtain ⟨d, b, l, e, ⟨p1, q1, s1, u1, v1⟩, f⟩ := h.first
  obtain ⟨d', b', l', e', ⟨p2, q2, s2, u2, v2⟩, f'⟩ := h'.first
  have hd : d = d' := by
    have hh : p1 ++ (d ++ q1) = p2 ++ (d' ++ q2) := by
      rw [← List.append_assoc, ← List.append_assoc, ← s1, ← s2]
    obtain ⟨h1, h2⟩ := append_blen_inj hh (by omega)
    subst h1
    simp at v1 v2
    exact (append_blen_inj h2 (by omega)).1
  subst hd
  rw [e] at e'
  rcases List.append_eq_append_iff.mp e' with ⟨x, h1, h2⟩ | ⟨x, h1, h2⟩
  · cases x with
    | nil => simp at h2; exact h2.1
    | cons y x =>
      simp at h2
      exact absurd (by rw [h1, h2.1.symm]; simp) (f' k)
  · cases x with
    | nil => simp at h2; exact h2.1.symm
    | cons y x =>
      simp at h2
      exact absurd (by rw [h1, h2.1.symm]; simp) (f k')

/-- `starts_with`, in terms of occurrences. -/
theorem searcherStartsWith_spec {syn : Syn} (hs : Spec.NonEmptyDelims syn) {a : Auto}
    (dn : Done (patsOf syn) nm a) (src : Str) (start : Nat) :
    (∃ k j, searcherStartsWith a (utf8 src) start = some (some (k, j)) ∧
        Spec.Chosen syn src start k start j) ∨
      (searcherStartsWith a (utf8 src) start = some none ∧ ∀ k j, ¬ Spec.Occurs syn src k start j) := by
  rcases searcherFindAt_spec hs dn src start with ⟨k, i, j, h1, h2⟩ | ⟨h1, h2⟩
  · by_cases hi : start = i
    · left
      subst hi
      exact ⟨k, j, by simp [searcherStartsWith, h1], h2⟩
    · right
      refine ⟨by simp [searcherStartsWith, h1, hi], ?_⟩
      intro k' j' ho
      have := h2.leftmost k' start j' (Nat.le_refl _) ho
      have := h2.after
      omega
  · right
    exact ⟨by simp [searcherStartsWith, h1], fun k j => h2 k start j (Nat.le_refl _)⟩

end Upon.AC
