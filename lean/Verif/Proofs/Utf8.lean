import Verif.Model.Text
/-
UTF-8 is self-synchronising: a nonempty text occurs in a text exactly where its bytes occur, so the
byte-level delimiter search can only match on character boundaries.  Also the basic facts on byte
offsets and slices.
-/
namespace Upon

@[simp] theorem utf8_nil : utf8 [] = [] := rfl
@[simp] theorem utf8_cons (c : Char) (s : Str) : utf8 (c :: s) = String.utf8EncodeChar c ++ utf8 s := rfl
@[simp] theorem utf8_append (s t : Str) : utf8 (s ++ t) = utf8 s ++ utf8 t := by
  simp [utf8, List.flatMap_append]

@[simp] theorem blen_nil : blen [] = 0 := rfl
@[simp] theorem blen_cons (c : Char) (s : Str) : blen (c :: s) = c.utf8Size + blen s := rfl
@[simp] theorem blen_append (s t : Str) : blen (s ++ t) = blen s + blen t := by
  induction s with
  | nil => simp
  | cons c s ih => simp [ih, Nat.add_assoc]

theorem utf8_length (s : Str) : (utf8 s).length = blen s := by
  induction s with
  | nil => rfl
  | cons c s ih => simp [ih]

theorem blen_eq_zero {s : Str} : blen s = 0 ↔ s = [] := by
  cases s with
  | nil => simp
  | cons c s => have := c.utf8Size_pos; simp; omega

theorem utf8_ne_nil {s : Str} (h : s ≠ []) : utf8 s ≠ [] := by
  intro e
  have := utf8_length s
  rw [e] at this
  exact h (blen_eq_zero.mp this.symm)

/-- Two characters whose encodings start the same byte sequence are equal. -/
theorem encode_prefix {c d : Char} {x y : List UInt8}
    (h : String.utf8EncodeChar c ++ x = String.utf8EncodeChar d ++ y) : c = d := by
  have e : (String.utf8EncodeChar c).toByteArray ++ x.toByteArray =
      (String.utf8EncodeChar d).toByteArray ++ y.toByteArray := by
    rw [← List.toByteArray_append, h, List.toByteArray_append]
  have hc := ByteArray.utf8DecodeChar?_utf8EncodeChar_append (b := x.toByteArray) (c := c)
  have hd := ByteArray.utf8DecodeChar?_utf8EncodeChar_append (b := y.toByteArray) (c := d)
  rw [e, hd] at hc
  simpa using hc.symm

theorem utf8_prefix {d s : Str} {y : List UInt8} (h : utf8 s = utf8 d ++ y) :
    ∃ post, s = d ++ post ∧ utf8 post = y := by
  induction d generalizing s with
  | nil => exact ⟨s, rfl, by simpa using h⟩
  | cons c d ih =>
    cases s with
    | nil =>
      exfalso
      have := congrArg List.length h
      have hp := c.utf8Size_pos
      simp [utf8_length] at this
      omega
    | cons c' s =>
      simp only [utf8_cons, List.append_assoc] at h
      have e := encode_prefix h
      subst e
      obtain ⟨post, e1, e2⟩ := ih (List.append_cancel_left h)
      exact ⟨post, by simp [e1], e2⟩

theorem utf8_inj {s t : Str} (h : utf8 s = utf8 t) : s = t := by
  obtain ⟨post, e, e2⟩ := utf8_prefix (d := t) (s := s) (y := []) (by simpa using h)
  have : post = [] := by
    exact Classical.byContradiction fun hne => utf8_ne_nil hne e2
  simpa [this] using e

/-- Self-synchronisation. -/
theorem utf8_sync {d : Str} (hd : d ≠ []) {s : Str} {x y : List UInt8}
    (h : utf8 s = x ++ (utf8 d ++ y)) :
    ∃ pre post, s = pre ++ (d ++ post) ∧ utf8 pre = x ∧ utf8 post = y := by
  induction s generalizing x with
  | nil =>
    exfalso
    have := congrArg List.length h
    have h2 : (utf8 d).length ≠ 0 := fun e => utf8_ne_nil hd (List.length_eq_zero_iff.mp e)
    simp at this
    omega
  | cons c s ih =>
    cases x with
    | nil =>
      obtain ⟨post, e1, e2⟩ := utf8_prefix (d := d) (s := c :: s) (y := y) (by simpa using h)
      exact ⟨[], post, by simpa using e1, rfl, e2⟩
    | cons b x =>
      simp only [utf8_cons] at h
      by_cases hl : c.utf8Size ≤ (b :: x).length
      · -- the encoding of `c` lies inside `b :: x`
        have hx : (b :: x).take c.utf8Size = String.utf8EncodeChar c := by
          have := congrArg (List.take c.utf8Size) h
          rw [List.take_append_of_le_length hl] at this
          rw [← this]
          rw [List.take_append_of_le_length (by simp)]
          exact List.take_of_length_le (by simp)
        have e := List.take_append_drop c.utf8Size (b :: x)
        rw [hx] at e
        rw [← e, List.append_assoc] at h
        obtain ⟨pre, post, e1, e2, e3⟩ := ih (List.append_cancel_left h)
        exact ⟨c :: pre, post, by simp [e1], by simp [e2, e], e3⟩
      · -- the first byte of `d` would be a continuation byte
        exfalso
        have hl : (b :: x).length < c.utf8Size := by omega
        cases d with
        | nil => exact hd rfl
        | cons c' d =>
          have hp := c'.utf8Size_pos
          have h0 : (String.utf8EncodeChar c)[(b :: x).length]? = (String.utf8EncodeChar c')[0]? := by
            have := congrArg (fun l => l[(b :: x).length]?) h
            rw [List.getElem?_append_left (by simpa using hl),
              List.getElem?_append_right (Nat.le_refl _)] at this
            rw [this]
            simp only [Nat.sub_self, utf8_cons, List.append_assoc]
            rw [List.getElem?_append_left (by simpa using hp)]
          have l1 : (b :: x).length < (String.utf8EncodeChar c).length := by simpa using hl
          have l2 : 0 < (String.utf8EncodeChar c').length := by simpa using hp
          rw [List.getElem?_eq_getElem l1, List.getElem?_eq_getElem l2] at h0
          have f1 := (UInt8.isUTF8FirstByte_getElem_utf8EncodeChar (c := c') (i := 0) (hi := l2)).mpr rfl
          injection h0 with h0
          rw [← h0] at f1
          have := (UInt8.isUTF8FirstByte_getElem_utf8EncodeChar (c := c) (hi := l1)).mp f1
          simp at this

/-- Byte offset `n` of `s` is a character boundary iff `dropB` succeeds. -/
theorem dropB_eq_some {s : Str} {n : Nat} {t : Str} :
    dropB s n = some t ↔ ∃ pre, s = pre ++ t ∧ blen pre = n := by
  induction s generalizing n with
  | nil =>
    cases n with
    | zero =>
      simp only [dropB]
      constructor
      · intro h; injection h with h; exact ⟨[], by simp [h], rfl⟩
      · rintro ⟨pre, h, h2⟩
        have := List.append_eq_nil_iff.mp h.symm
        simp [this]
    | succ n =>
      simp only [dropB]
      constructor
      · intro h; cases h
      · rintro ⟨pre, h, h2⟩
        have := (List.append_eq_nil_iff.mp h.symm).1
        subst this; simp at h2
  | cons c s ih =>
    cases n with
    | zero =>
      simp only [dropB]
      constructor
      · intro h; injection h with h; exact ⟨[], by simp [h], rfl⟩
      · rintro ⟨pre, h, h2⟩
        rw [blen_eq_zero] at h2
        subst h2; simp [h]
    | succ n =>
      simp only [dropB]
      have hp := c.utf8Size_pos
      split
      · next hle =>
        rw [ih]
        constructor
        · rintro ⟨pre, h, h2⟩
          exact ⟨c :: pre, by simp [h], by simp; omega⟩
        · rintro ⟨pre, h, h2⟩
          cases pre with
          | nil => simp at h2
          | cons c' pre =>
            simp at h h2
            obtain ⟨rfl, h⟩ := h
            exact ⟨pre, h, by omega⟩
      · next hle =>
        constructor
        · intro h; cases h
        · rintro ⟨pre, h, h2⟩
          cases pre with
          | nil => simp at h2
          | cons c' pre =>
            simp at h h2
            obtain ⟨rfl, h⟩ := h
            omega

theorem takeB_eq_some {s : Str} {n : Nat} {t : Str} :
    takeB s n = some t ↔ ∃ post, s = t ++ post ∧ blen t = n := by
  induction s generalizing n t with
  | nil =>
    cases n with
    | zero =>
      simp only [takeB]
      constructor
      · intro h; injection h with h; subst h; exact ⟨[], rfl, rfl⟩
      · rintro ⟨post, h, h2⟩
        rw [blen_eq_zero] at h2; rw [h2]
    | succ n =>
      simp only [takeB]
      constructor
      · intro h; cases h
      · rintro ⟨post, h, h2⟩
        have := (List.append_eq_nil_iff.mp h.symm).1
        subst this; simp at h2
  | cons c s ih =>
    cases n with
    | zero =>
      simp only [takeB]
      constructor
      · intro h; injection h with h; subst h; exact ⟨_, rfl, rfl⟩
      · rintro ⟨pre, h, h2⟩
        rw [blen_eq_zero] at h2; rw [h2]
    | succ n =>
      simp only [takeB]
      have hp := c.utf8Size_pos
      split
      · next hle =>
        constructor
        · intro h
          obtain ⟨u, hu, rfl⟩ := Option.map_eq_some_iff.mp h
          obtain ⟨post, e, e2⟩ := ih.mp hu
          exact ⟨post, by simp [e], by simp; omega⟩
        · rintro ⟨post, h, h2⟩
          cases t with
          | nil => simp at h2
          | cons c' t =>
            simp at h h2
            obtain ⟨rfl, h⟩ := h
            rw [ih.mpr ⟨post, h, by omega⟩]; rfl
      · next hle =>
        constructor
        · intro h; cases h
        · rintro ⟨post, h, h2⟩
          cases t with
          | nil => simp at h2
          | cons c' t =>
            simp at h h2
            obtain ⟨rfl, h⟩ := h
            omega

/-- A slice is the text between two character boundaries. -/
theorem slice_eq_some {s : Str} {m n : Nat} {t : Str} :
    slice s m n = some t ↔ ∃ pre post, s = pre ++ (t ++ post) ∧ blen pre = m ∧ n = m + blen t := by
  unfold slice
  split
  · next h =>
    constructor
    · intro e
      obtain ⟨u, e1, e2⟩ := Option.bind_eq_some_iff.mp e
      obtain ⟨pre, rfl, h1⟩ := dropB_eq_some.mp e1
      obtain ⟨post, rfl, h2⟩ := takeB_eq_some.mp e2
      exact ⟨pre, post, rfl, h1, by omega⟩
    · rintro ⟨pre, post, e, h1, h2⟩
      rw [Option.bind_eq_some_iff]
      exact ⟨t ++ post, dropB_eq_some.mpr ⟨pre, e, h1⟩, takeB_eq_some.mpr ⟨post, rfl, by omega⟩⟩
  · next h =>
    constructor
    · intro e; cases e
    · rintro ⟨pre, post, e, h1, h2⟩; omega

/-- Byte offset `n` is a character boundary of `s`. -/
def Boundary (s : Str) (n : Nat) : Prop := ∃ pre post, s = pre ++ post ∧ blen pre = n

theorem append_cmp {a b c d : Str} (h : a ++ b = c ++ d) (hl : blen a ≤ blen c) :
    ∃ e, c = a ++ e ∧ b = e ++ d := by
  rcases List.append_eq_append_iff.mp h with ⟨e, h1, h2⟩ | ⟨e, h1, h2⟩
  · exact ⟨e, h1, h2⟩
  · have : blen e = 0 := by rw [h1] at hl; simp at hl; omega
    rw [blen_eq_zero] at this; subst this
    exact ⟨[], by simpa using h1.symm, by simpa using h2.symm⟩

theorem append_blen_inj {a b c d : Str} (h : a ++ b = c ++ d) (hl : blen a = blen c) :
    a = c ∧ b = d := by
  obtain ⟨e, h1, h2⟩ := append_cmp h (Nat.le_of_eq hl)
  have : blen e = 0 := by rw [h1] at hl; simp at hl; omega
  rw [blen_eq_zero] at this; subst this
  exact ⟨by simpa using h1.symm, by simpa using h2⟩

theorem Boundary.slice {s : Str} {m n : Nat} (hm : Boundary s m) (hn : Boundary s n) (h : m ≤ n) :
    ∃ t, slice s m n = some t := by
  obtain ⟨p1, q1, e1, h1⟩ := hm
  obtain ⟨p2, q2, e2, h2⟩ := hn
  obtain ⟨t, h3, h4⟩ := append_cmp (e1.symm.trans e2) (by omega)
  refine ⟨t, slice_eq_some.mpr ⟨p1, q2, by rw [e1, h4], h1, ?_⟩⟩
  rw [h3] at h2; simp at h2; omega

theorem boundary_of_slice {s : Str} {m n : Nat} {t : Str} (h : slice s m n = some t) :
    Boundary s m ∧ Boundary s n ∧ m ≤ n ∧ n ≤ blen s := by
  obtain ⟨pre, post, e, h1, h2⟩ := slice_eq_some.mp h
  refine ⟨⟨pre, _, e, h1⟩, ⟨pre ++ t, post, by simp [e], by simp [h1, h2]⟩, by omega, ?_⟩
  rw [e]; simp; omega

theorem Boundary.le {s : Str} {n : Nat} (h : Boundary s n) : n ≤ blen s := by
  obtain ⟨p, q, rfl, rfl⟩ := h; simp

theorem boundary_zero (s : Str) : Boundary s 0 := ⟨[], s, rfl, rfl⟩
theorem boundary_len (s : Str) : Boundary s (blen s) := ⟨s, [], by simp, rfl⟩

end Upon
