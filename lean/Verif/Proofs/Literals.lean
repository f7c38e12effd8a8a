import Verif.Proofs.ParseBase
import Mathlib.Data.List.Induction
/-
Literals.
-/
namespace Upon
namespace Parser

variable {cx : LexCx}

/-! Numbers -/

/-- One more character of a number. -/
def digitStep (base : Nat) (n : Nat) (c : Char) : Option Nat :=
  if c = '_' then some n
  else (Spec.digitVal c).bind fun d => if d < base then some (n * base + d) else none

theorem digitVal_underscore : Spec.digitVal '_' = none := by decide

theorem digits_iff {base : Nat} {ds : Str} {n : Nat} :
    Spec.Digits base ds n ↔ ds.foldlM (digitStep base) 0 = some n := by
  constructor
  · intro h
    induction h with
    | nil => rfl
    | under _ ih => simp [List.foldlM_append, ih, digitStep]
    | @digit ds n c d _ hv hd ih =>
      have : c ≠ '_' := by rintro rfl; rw [digitVal_underscore] at hv; cases hv
      simp [List.foldlM_append, ih, digitStep, this, hv, hd]
  · intro h
    induction ds using List.reverseRecOn generalizing n with
    | nil => simp at h; subst h; exact .nil
    | append_singleton ds c ih =>
      rw [List.foldlM_append] at h
      cases hm : ds.foldlM (digitStep base) 0 with
      | none => rw [hm] at h; simp at h
      | some m =>
        rw [hm] at h
        simp only [Option.bind_eq_bind, Option.bind_some, List.foldlM_cons, List.foldlM_nil] at h
        have h' : digitStep base m c = some n := by
          cases hs : digitStep base m c with
          | none => rw [hs] at h; simp at h
          | some k => rw [hs] at h; simpa using h
        unfold digitStep at h'
        split at h'
        · rename_i hc; subst hc; injection h' with h'; subst h'; exact .under (ih hm)
        · cases hv : Spec.digitVal c with
          | none => rw [hv] at h'; simp at h'
          | some d =>
            rw [hv] at h'
            simp only [Option.bind_some] at h'
            split at h'
            · injection h' with h'; subst h'; exact .digit (ih hm) hv (by assumption)
            · cases h'

theorem foldlM_mono {base : Nat} (hb : 1 ≤ base) {ds : Str} {n m : Nat}
    (h : ds.foldlM (digitStep base) n = some m) : n ≤ m := by
  induction ds generalizing n with
  | nil => simp at h; omega
  | cons c ds ih =>
    rw [List.foldlM_cons] at h
    cases hs : digitStep base n c with
    | none => rw [hs] at h; simp at h
    | some k =>
      rw [hs] at h
      have := ih (by simpa using h)
      have : n ≤ k := by
        unfold digitStep at hs
        split at hs
        · injection hs with hs; omega
        · cases hv : Spec.digitVal c with
          | none => rw [hv] at hs; simp at hs
          | some d =>
            rw [hv] at hs
            simp only [Option.bind_some] at hs
            split at hs
            · injection hs with hs
              have : n * 1 ≤ n * base := Nat.mul_le_mul_left _ hb
              omega
            · cases hs
      omega

theorem toDigit_eq (radix : Nat) (c : Char) :
    toDigit radix c = (Spec.digitVal c).bind fun d => if d < radix then some d else none := by
  unfold toDigit Spec.digitVal
  rfl

def negOf : Sign → Bool
  | .neg => true
  | .pos => false

theorem inI64_iff (i : Int) : inI64 i = true ↔ Spec.FitsI64 i := by
  simp [inI64, Spec.FitsI64]
  omega

/-- The characters of the source from byte `i` on are one byte long, at least `n` of them. -/
def AsciiAt (src : Str) (i n : Nat) : Prop :=
  ∃ pre t post, src = pre ++ t ++ post ∧ blen pre = i ∧ (∀ c ∈ t, c.utf8Size = 1) ∧ n ≤ t.length

theorem blen_ascii {t : Str} (h : ∀ c ∈ t, c.utf8Size = 1) : blen t = t.length := by
  induction t with
  | nil => rfl
  | cons c t ih =>
    have := ih (fun d hd => h d (List.mem_cons_of_mem _ hd))
    simp [blen, h c (by simp), this]; omega

theorem AsciiAt.span {src : Str} {i n j : Nat} (h : AsciiAt src i n) (hj : j < n) :
    SpanOK src ⟨i + j, i + j + 1⟩ := by
  obtain ⟨pre, t, post, e, h1, h2, h3⟩ := h
  have ht : t = t.take j ++ [t[j]] ++ t.drop (j + 1) := by simp
  have hj' : j < t.length := by omega
  refine ⟨[t[j]], ?_⟩
  refine slice_eq_some.mpr ⟨pre ++ t.take j, t.drop (j + 1) ++ post, ?_, ?_, ?_⟩
  · rw [e]
    have : pre ++ List.take j t ++ [t[j]] ++ (List.drop (j + 1) t ++ post) =
        pre ++ (t.take j ++ [t[j]] ++ t.drop (j + 1)) ++ post := by simp only [List.append_assoc]
    rw [← List.append_assoc (pre ++ _), this, ← ht]
  · have : blen (t.take j) = j := by
      rw [blen_ascii (fun c hc => h2 c (List.mem_of_mem_take hc))]; simp; omega
    simp [h1, this]
  · simp [blen, h2 t[j] (by simp)]

theorem signed_succ (sign : Sign) (n d base : Nat) :
    (match sign with
      | .pos => Spec.signed (negOf sign) n * (base : Int) + d
      | .neg => Spec.signed (negOf sign) n * (base : Int) - d) = Spec.signed (negOf sign) (n * base + d) := by
  cases sign
  · simp only [Spec.signed, negOf, if_true]
    push_cast
    rw [Int.neg_mul]; omega
  · simp [Spec.signed, negOf]

theorem fits_mono {b : Bool} {n m : Nat} (h : n ≤ m) (hm : Spec.FitsI64 (Spec.signed b m)) :
    Spec.FitsI64 (Spec.signed b n) := by
  unfold Spec.FitsI64 Spec.signed at *
  cases b <;> simp at * <;> omega

theorem signed_mul (b : Bool) (n base : Nat) :
    Spec.signed b n * (base : Int) = Spec.signed b (n * base) := by
  cases b <;> simp [Spec.signed, Int.neg_mul]

/-- The fold over the digits. -/
theorem foldDigits_spec (hne : cx.source ≠ []) {span : Span} {sign : Sign} {i radix : Nat} (hr : 1 ≤ radix)
    (hsp : SpanOK cx.source span) :
    ∀ (ds : Str) (j n : Nat), AsciiAt cx.source span.m (i + j + ds.length) →
      Spec.FitsI64 (Spec.signed (negOf sign) n) →
      (∃ m, ds.foldlM (digitStep radix) n = some m ∧ Spec.FitsI64 (Spec.signed (negOf sign) m) ∧
        foldDigits cx span sign i radix j (Spec.signed (negOf sign) n) ds = .ok (Spec.signed (negOf sign) m)) ∨
      ((∀ m, ds.foldlM (digitStep radix) n = some m → ¬ Spec.FitsI64 (Spec.signed (negOf sign) m)) ∧
        ∃ e, foldDigits cx span sign i radix j (Spec.signed (negOf sign) n) ds = .err e) := by
  intro ds
  induction ds with
  | nil => intro j n _ hf; left; exact ⟨n, rfl, hf, rfl⟩
  | cons c ds ih =>
    intro j n ha hf
    have ha' : AsciiAt cx.source span.m (i + (j + 1) + ds.length) := by
      have e : i + (j + 1) + ds.length = i + j + (c :: ds).length := by simp; omega
      rw [e]; exact ha
    by_cases hc : c = '_'
    · subst hc
      have e1 : foldDigits cx span sign i radix j (Spec.signed (negOf sign) n) ('_' :: ds) =
          foldDigits cx span sign i radix (j + 1) (Spec.signed (negOf sign) n) ds := by
        simp [foldDigits]
      have e2 : ('_' :: ds).foldlM (digitStep radix) n = ds.foldlM (digitStep radix) n := by
        simp [List.foldlM_cons, digitStep]
      rw [e1, e2]
      exact ih (j + 1) n ha' hf
    · cases hd : toDigit radix c with
      | none =>
        right
        refine ⟨?_, ?_⟩
        · intro m hm
          rw [List.foldlM_cons] at hm
          have : digitStep radix n c = none := by
            unfold digitStep
            rw [if_neg hc]
            rw [toDigit_eq] at hd
            cases hv : Spec.digitVal c with
            | none => rfl
            | some d =>
              rw [hv] at hd
              simp only [Option.bind_some] at hd ⊢
              split at hd
              · cases hd
              · rename_i h; rw [if_neg h]
          rw [this] at hm; cases hm
        · obtain ⟨e, he⟩ := errAt (cx := cx) hne (α := Int)
            (ha.span (j := i + j) (by simp)) s!"invalid digit for base {radix} literal"
          refine ⟨e, ?_⟩
          rw [foldDigits, if_neg hc]
          simp only [hd]
          rw [← he]
          simp [Nat.add_assoc]
      | some d =>
        have hst : digitStep radix n c = some (n * radix + d) := by
          unfold digitStep
          rw [if_neg hc]
          rw [toDigit_eq] at hd
          cases hv : Spec.digitVal c with
          | none => rw [hv] at hd; cases hd
          | some d' =>
            rw [hv] at hd
            simp only [Option.bind_some] at hd ⊢
            split at hd
            · rename_i h; injection hd with hd; subst hd; rw [if_pos h]
            · cases hd
        have e2 : (c :: ds).foldlM (digitStep radix) n = ds.foldlM (digitStep radix) (n * radix + d) := by
          rw [List.foldlM_cons, hst]; rfl
        obtain ⟨er, her⟩ := errAt (cx := cx) hne (α := Int) hsp
          s!"base {radix} literal out of range for 64-bit integer"
        by_cases h1 : Spec.FitsI64 (Spec.signed (negOf sign) n * (radix : Int))
        · by_cases h2 : Spec.FitsI64 (Spec.signed (negOf sign) (n * radix + d))
          · have e1 : foldDigits cx span sign i radix j (Spec.signed (negOf sign) n) (c :: ds) =
                foldDigits cx span sign i radix (j + 1) (Spec.signed (negOf sign) (n * radix + d)) ds := by
              rw [foldDigits, if_neg hc]
              simp only [hd]
              rw [if_neg (by simp [(inI64_iff _).mpr h1])]
              have e3 := signed_succ sign n d radix
              cases sign <;> simp only at e3 ⊢ <;> rw [e3, if_neg (by simp [(inI64_iff _).mpr h2])]
            rw [e1, e2]
            exact ih (j + 1) _ ha' h2
          · right
            refine ⟨fun m hm hf' => h2 (fits_mono (foldlM_mono hr (by rw [← e2]; exact hm)) hf'), er, ?_⟩
            rw [foldDigits, if_neg hc]
            simp only [hd]
            rw [if_neg (by simp [(inI64_iff _).mpr h1])]
            have h2' : inI64 (Spec.signed (negOf sign) (n * radix + d)) = false := by
              rw [← Bool.not_eq_true, inI64_iff]; exact h2
            have e3 := signed_succ sign n d radix
            cases sign <;> simp only at e3 ⊢ <;> rw [e3, if_pos (by simp [h2'])] <;> exact her
        · right
          refine ⟨fun m hm hf' => h1 ?_, er, ?_⟩
          · rw [signed_mul]
            refine fits_mono ?_ hf'
            have := foldlM_mono hr (by rw [← e2]; exact hm)
            omega
          · rw [foldDigits, if_neg hc]
            simp only [hd]
            have h1' : inI64 (Spec.signed (negOf sign) n * (radix : Int)) = false := by
              rw [← Bool.not_eq_true, inI64_iff]; exact h1
            rw [if_pos (by simp [h1'])]; exact her

theorem radixOf_spec (raw : Str) : ∃ i radix, radixOf raw = (i, radix) ∧ 1 ≤ radix ∧ i ≤ raw.length ∧
    ∀ n, Spec.IntLit raw n ↔ Spec.Digits radix (raw.drop i) n := by
  by_cases hb : ∃ r, raw = '0' :: 'b' :: r
  · obtain ⟨r, rfl⟩ := hb
    refine ⟨2, 2, rfl, by omega, by simp, fun n => ⟨?_, fun h => .bin h⟩⟩
    intro h
    cases h with
    | bin h => exact h
    | dec h _ _ _ => exact absurd rfl (h r)
  by_cases ho : ∃ r, raw = '0' :: 'o' :: r
  · obtain ⟨r, rfl⟩ := ho
    refine ⟨2, 8, rfl, by omega, by simp, fun n => ⟨?_, fun h => .oct h⟩⟩
    intro h
    cases h with
    | oct h => exact h
    | dec _ h _ _ => exact absurd rfl (h r)
  by_cases hx : ∃ r, raw = '0' :: 'x' :: r
  · obtain ⟨r, rfl⟩ := hx
    refine ⟨2, 16, rfl, by omega, by simp, fun n => ⟨?_, fun h => .hex h⟩⟩
    intro h
    cases h with
    | hex h => exact h
    | dec _ _ h _ => exact absurd rfl (h r)
  refine ⟨0, 10, ?_, by omega, by omega, fun n => ⟨?_, fun h => ?_⟩⟩
  · unfold radixOf
    split
    · exact absurd ⟨_, rfl⟩ hb
    · exact absurd ⟨_, rfl⟩ ho
    · exact absurd ⟨_, rfl⟩ hx
    · rfl
  · intro h
    cases h with
    | bin h => exact absurd ⟨_, rfl⟩ hb
    | oct h => exact absurd ⟨_, rfl⟩ ho
    | hex h => exact absurd ⟨_, rfl⟩ hx
    | dec _ _ _ h => exact h
  · exact .dec (fun r e => hb ⟨r, e⟩) (fun r e => ho ⟨r, e⟩) (fun r e => hx ⟨r, e⟩) h

theorem intLit_unique {raw : Str} {n m : Nat} (h1 : Spec.IntLit raw n) (h2 : Spec.IntLit raw m) : n = m := by
  obtain ⟨i, radix, _, _, _, h⟩ := radixOf_spec raw
  have a := digits_iff.mp ((h n).mp h1)
  have b := digits_iff.mp ((h m).mp h2)
  rw [a] at b; injection b

theorem negF64_eq (f : BitVec 64) : negF64 f = Spec.flipSign true f := by
  simp [negF64, Spec.flipSign]

/-- Number literals: the value, or an error. -/
theorem parseLiteralNumber_spec (hne : cx.source ≠ []) {raw : Str} {span : Span} {sign : Sign}
    (hsp : SpanOK cx.source span) (ha : AsciiAt cx.source span.m raw.length) :
    (∃ v, Spec.NumLit cx.env raw (negOf sign) v ∧
      parseLiteralNumber cx raw span sign = .ok ⟨v, span⟩) ∨
    ((∀ v, ¬ Spec.NumLit cx.env raw (negOf sign) v) ∧
      ∃ e, parseLiteralNumber cx raw span sign = .err e) := by
  obtain ⟨i, radix, hr, hr1, hi, hlit⟩ := radixOf_spec raw
  have hz : Spec.FitsI64 (Spec.signed (negOf sign) 0) := by
    cases sign <;> simp [Spec.FitsI64, Spec.signed, negOf]
  have hz' : Spec.signed (negOf sign) 0 = 0 := by cases sign <;> simp [Spec.signed, negOf]
  have hfold := foldDigits_spec (cx := cx) hne (sign := sign) (i := i) hr1 hsp (raw.drop i) 0 0
    (by rw [List.length_drop]; have : i + 0 + (raw.length - i) = raw.length := by omega
        rw [this]; exact ha) hz
  rw [hz'] at hfold
  rcases hfold with ⟨m, h1, h2, h3⟩ | ⟨h1, e, h2⟩
  · left
    refine ⟨_, .int ((hlit m).mpr (digits_iff.mpr h1)) h2, ?_⟩
    simp [parseLiteralNumber, parseLiteralInteger, hr, h3]
  · have hno : ∀ n, Spec.IntLit raw n → ¬ Spec.FitsI64 (Spec.signed (negOf sign) n) :=
      fun n hn => h1 n (digits_iff.mp ((hlit n).mp hn))
    have hint : parseLiteralInteger cx raw span sign = .err e := by
      simp [parseLiteralInteger, hr, h2]
    cases hf : cx.env.parseF64 raw with
    | some f =>
      left
      refine ⟨_, .float hno hf, ?_⟩
      simp only [parseLiteralNumber, hint, parseLiteralFloat, hf, pure]
      cases sign
      · simp [negF64_eq, negOf]
      · simp [Spec.flipSign, negOf]
    | none =>
      right
      refine ⟨?_, ?_⟩
      · intro v hv
        cases hv with
        | int h4 h5 => exact hno _ h4 h5
        | float _ h4 => rw [hf] at h4; cases h4
      · obtain ⟨e2, he2⟩ := errAt (cx := cx) hne (α := Literal) hsp "invalid float literal"
        by_cases hd : '.' ∈ raw ∨ '-' ∈ raw ∨ '+' ∈ raw
        · exact ⟨e2, by simp only [parseLiteralNumber, hint, parseLiteralFloat, hf, he2, if_pos hd]⟩
        · exact ⟨e, by simp only [parseLiteralNumber, hint, parseLiteralFloat, hf, he2, if_neg hd]⟩

theorem utf8Size_ascii {c : Char} (h : c.toNat < 128) : c.utf8Size = 1 := by
  unfold Char.utf8Size
  rw [if_pos]
  rw [UInt32.le_iff_toNat_le]
  have : c.val.toNat < 128 := h
  simp; omega

theorem numberChar_ascii {c : Char} (h : isNumberChar c = true) : c.utf8Size = 1 := by
  apply utf8Size_ascii
  have le : ∀ a b : Char, a ≤ b ↔ a.toNat ≤ b.toNat := fun a b => by
    rw [Char.le_def, UInt32.le_iff_toNat_le]; rfl
  simp only [isNumberChar, isDigit, Bool.or_eq_true, Bool.and_eq_true, decide_eq_true_eq, beq_iff_eq, le] at h
  rcases h with (((((h | h) | h) | rfl) | rfl) | rfl) | rfl
  · have := h.2; have e : '9'.toNat = 57 := rfl; omega
  · have := h.2; have e : 'Z'.toNat = 90 := rfl; omega
  · have := h.2; have e : 'z'.toNat = 122 := rfl; omega
  all_goals decide

/-- The text of a number token. -/
theorem number_text {sp : Span} (h : TokOK cx (.number, sp)) :
    ∃ raw, sp.of cx.source = some raw ∧ ∀ c ∈ raw, c.utf8Size = 1 := by
  rcases h.text with h | h | h | ⟨s, h1, h2⟩
  · cases h
  · cases h
  · cases h
  · refine ⟨s, h1, ?_⟩
    obtain ⟨c, r, rfl, h3, h4⟩ := h2
    intro x hx
    rcases List.mem_cons.mp hx with rfl | hx
    · exact numberChar_ascii (by unfold isNumberChar; rw [h3]; rfl)
    · exact numberChar_ascii (h4 x hx)

theorem ascii_self {sp : Span} {raw : Str} (h : sp.of cx.source = some raw) (ha : ∀ c ∈ raw, c.utf8Size = 1) :
    AsciiAt cx.source sp.m raw.length := by
  obtain ⟨pre, post, e, h1, h2⟩ := slice_eq_some.mp h
  exact ⟨pre, raw, post, by simpa using e, h1, ha, Nat.le_refl _⟩

theorem ascii_signed {s sp : Span} {raw t gap : Str} (hs : s.of cx.source = some t) (ht : ∀ c ∈ t, c.utf8Size = 1)
    (h : sp.of cx.source = some raw) (ha : ∀ c ∈ raw, c.utf8Size = 1)
    (hg : slice cx.source s.n sp.m = some gap) (hb : ∀ c ∈ gap, c = ' ' ∨ c = '\t') :
    AsciiAt cx.source (s.combine sp).m raw.length := by
  have h1 := Lexer.slice_join hs (Lexer.slice_join hg h)
  obtain ⟨pre, post, e, a1, a2⟩ := slice_eq_some.mp h1
  have l1 := (boundary_of_slice hs).2.2.1
  have l2 := (boundary_of_slice hg).2.2.1
  refine ⟨pre, t ++ (gap ++ raw), post, by simpa using e, ?_, ?_, by simp; omega⟩
  · rw [a1]; simp only [Span.combine]; omega
  · intro c hc
    rcases List.mem_append.mp hc with hc | hc
    · exact ht c hc
    · rcases List.mem_append.mp hc with hc | hc
      · rcases hb c hc with rfl | rfl <;> decide
      · exact ha c hc

/-- The text of a sign. -/
theorem sign_text {tk : Token} {sp : Span} (h : TokOK cx (tk, sp)) (ht : tk = .plus ∨ tk = .minus) :
    ∃ t, sp.of cx.source = some t ∧ ∀ c ∈ t, c.utf8Size = 1 := by
  rcases h.text with h | h | h | ⟨s, h1, h2⟩
  · rcases ht with rfl | rfl <;> cases h
  · rcases ht with rfl | rfl <;> cases h
  · rcases ht with rfl | rfl <;> cases h
  · refine ⟨s, h1, ?_⟩
    rcases ht with rfl | rfl <;> (simp only [Spec.TokText] at h2; subst h2; decide)

/-! Strings -/

theorem escape_spec (c : Char) :
    (Spec.escape c = some '\n' ∧ c = 'n') ∨ (Spec.escape c = some '\r' ∧ c = 'r') ∨
    (Spec.escape c = some '\t' ∧ c = 't') ∨ (Spec.escape c = some '\\' ∧ c = '\\') ∨
    (Spec.escape c = some '"' ∧ c = '"') ∨
    (Spec.escape c = none ∧ c ≠ 'n' ∧ c ≠ 'r' ∧ c ≠ 't' ∧ c ≠ '\\' ∧ c ≠ '"') := by
  unfold Spec.escape
  split <;> simp_all

theorem unescape_spec (hne : cx.source ≠ []) : ∀ (k : Nat) (s : Str) (i : Nat) (acc pre post : Str), s.length ≤ k →
    cx.source = pre ++ s ++ post → blen pre = i → (∀ v c, s = v ++ [c] → c = '"') →
    (∃ t, Spec.Unescaped s t ∧ unescape cx i acc s = .ok (acc.reverse ++ t)) ∨
    ((∀ t, ¬ Spec.Unescaped s t) ∧ ∃ e, unescape cx i acc s = .err e) := by
  intro k
  induction k with
  | zero =>
    intro s i acc pre post hk _ _ _
    have : s = [] := List.length_eq_zero_iff.mp (by omega)
    subst this
    left; exact ⟨[], .nil, by simp [unescape]⟩
  | succ k ih =>
    intro s i acc pre post hk hsrc hi hend
    cases s with
    | nil => left; exact ⟨[], .nil, by simp [unescape]⟩
    | cons c rest =>
      have hend' : ∀ v d, rest = v ++ [d] → d = '"' := fun v d e => hend (c :: v) d (by simp [e])
      have next : ∀ acc', 
          (∃ t, Spec.Unescaped rest t ∧ unescape cx (i + c.utf8Size) acc' rest = .ok (acc'.reverse ++ t)) ∨
          ((∀ t, ¬ Spec.Unescaped rest t) ∧ ∃ e, unescape cx (i + c.utf8Size) acc' rest = .err e) := by
        intro acc'
        refine ih rest _ acc' (pre ++ [c]) post (by simp at hk; omega) (by simp [hsrc]) ?_ hend'
        simp [blen, hi]
      by_cases hq : c = '"'
      · subst hq
        have e1 : unescape cx i acc ('"' :: rest) = unescape cx (i + '"'.utf8Size) acc rest := by
          rw [unescape.eq_def]; simp
        rw [e1]
        rcases next acc with ⟨t, h1, h2⟩ | ⟨h1, h2⟩
        · left; exact ⟨t, .stray h1, h2⟩
        · right
          refine ⟨?_, h2⟩
          intro t ht
          cases ht with
          | char _ h _ => exact absurd rfl h
          | stray h => exact h1 _ h
      · by_cases hb : c = '\\'
        · subst hb
          cases rest with
          | nil => exact absurd (hend [] '\\' rfl) (by decide)
          | cons esc rest' =>
            have u : '\\'.utf8Size = 1 := by decide
            have hend'' : ∀ v d, rest' = v ++ [d] → d = '"' := fun v d e => hend' (esc :: v) d (by simp [e])
            have next' : ∀ acc', 
                (∃ t, Spec.Unescaped rest' t ∧ unescape cx (i + 1 + esc.utf8Size) acc' rest' = .ok (acc'.reverse ++ t)) ∨
                ((∀ t, ¬ Spec.Unescaped rest' t) ∧ ∃ e, unescape cx (i + 1 + esc.utf8Size) acc' rest' = .err e) := by
              intro acc'
              refine ih rest' _ acc' (pre ++ ['\\', esc]) post (by simp at hk; omega) (by simp [hsrc]) ?_ hend''
              simp [blen, hi, u]; omega
            have known : ∀ d, Spec.escape esc = some d →
                unescape cx i acc ('\\' :: esc :: rest') = unescape cx (i + 1 + esc.utf8Size) (d :: acc) rest' →
                (∃ t, Spec.Unescaped ('\\' :: esc :: rest') t ∧
                  unescape cx i acc ('\\' :: esc :: rest') = .ok (acc.reverse ++ t)) ∨
                ((∀ t, ¬ Spec.Unescaped ('\\' :: esc :: rest') t) ∧
                  ∃ e, unescape cx i acc ('\\' :: esc :: rest') = .err e) := by
              intro d hd e1
              rw [e1]
              rcases next' (d :: acc) with ⟨t, h1, h2⟩ | ⟨h1, h2⟩
              · left; exact ⟨d :: t, .esc hd h1, by rw [h2]; simp⟩
              · right
                refine ⟨?_, h2⟩
                intro t ht
                cases ht with
                | char h => exact absurd rfl h
                | esc _ h => exact h1 _ h
            rcases escape_spec esc with ⟨h, rfl⟩ | ⟨h, rfl⟩ | ⟨h, rfl⟩ | ⟨h, rfl⟩ | ⟨h, rfl⟩ | ⟨h, h1, h2, h3, h4, h5⟩
            · exact known _ h (by simp [unescape])
            · exact known _ h (by simp [unescape])
            · exact known _ h (by simp [unescape])
            · exact known _ h (by simp [unescape])
            · exact known _ h (by simp [unescape])
            · right
              refine ⟨?_, ?_⟩
              · intro t ht
                cases ht with
                | char h => exact absurd rfl h
                | esc h' _ => rw [h] at h'; cases h'
              · cases rest' with
                | nil => exact absurd (hend ['\\'] esc rfl) h5
                | cons d rest'' =>
                  have hsp : SpanOK cx.source ⟨i + 1, i + 1 + esc.utf8Size⟩ := by
                    refine ⟨[esc], slice_eq_some.mpr ⟨pre ++ ['\\'], d :: rest'' ++ post, by simp [hsrc], ?_, ?_⟩⟩
                    · simp [blen, hi, u]
                    · simp [blen]
                  obtain ⟨e, he⟩ := errAt (cx := cx) hne (α := Str) hsp "unknown escape character"
                  exact ⟨e, by rw [unescape]; simp only [if_neg hq, if_true, if_neg h1, if_neg h2, if_neg h3, if_neg h4, if_neg h5, he]⟩
        · have e1 : unescape cx i acc (c :: rest) = unescape cx (i + c.utf8Size) (c :: acc) rest := by
            rw [unescape.eq_def]; simp [hq, hb]
          rw [e1]
          rcases next (c :: acc) with ⟨t, h1, h2⟩ | ⟨h1, h2⟩
          · left; exact ⟨c :: t, .char hb hq h1, by rw [h2]; simp⟩
          · right
            refine ⟨?_, h2⟩
            intro t ht
            cases ht with
            | char _ _ h => exact h1 _ h
            | esc => exact absurd rfl hb
            | stray => exact absurd rfl hq

theorem unescaped_snoc {s t : Str} (h : Spec.Unescaped s t) : Spec.Unescaped (s ++ ['"']) t := by
  induction h with
  | nil => exact .stray .nil
  | char h1 h2 _ ih => exact .char h1 h2 ih
  | esc h _ ih => exact .esc h ih
  | stray _ ih => exact .stray ih

theorem unescaped_init : ∀ (k : Nat) {s t : Str}, s.length ≤ k → Spec.Unescaped (s ++ ['"']) t →
    (∀ x, s ≠ x ++ ['\\']) → Spec.Unescaped s t := by
  intro k
  induction k with
  | zero =>
    intro s t hk h _
    have : s = [] := List.length_eq_zero_iff.mp (by omega)
    subst this
    cases h with
    | char _ h _ => exact absurd rfl h
    | stray h => cases h; exact .nil
  | succ k ih =>
    intro s t hk h hb
    cases s with
    | nil =>
      cases h with
      | char _ h _ => exact absurd rfl h
      | stray h => cases h; exact .nil
    | cons c s =>
      have hk' : s.length ≤ k := by simpa using hk
      rw [List.cons_append] at h
      generalize hu : s ++ ['"'] = u at h
      cases h with
      | char h1 h2 h3 =>
        subst hu
        exact .char h1 h2 (ih hk' h3 (fun x e => hb (c :: x) (by simp [e])))
      | stray h3 =>
        subst hu
        exact .stray (ih hk' h3 (fun x e => hb ('"' :: x) (by simp [e])))
      | @esc c' d s' t' h1 h2 =>
        cases s with
        | nil => exact absurd rfl (hb [])
        | cons e s =>
          rw [List.cons_append] at hu
          injection hu with he1 he2
          subst he1 he2
          exact .esc h1 (ih (by simp at hk'; omega) h2 (fun x e' => hb ('\\' :: e :: x) (by simp [e'])))

theorem unescaped_plain {s t : Str} (h : Spec.Unescaped s t) (h1 : '\\' ∉ s) (h2 : '"' ∉ s) : s = t := by
  induction h with
  | nil => rfl
  | char _ _ _ ih => rw [ih (by simp_all) (by simp_all)]
  | esc => simp at h1
  | stray => simp at h2

theorem unescaped_self {s : Str} (h1 : '\\' ∉ s) (h2 : '"' ∉ s) : Spec.Unescaped s s := by
  induction s with
  | nil => exact .nil
  | cons c s ih =>
    simp at h1 h2
    exact .char (fun e => h1.1 e.symm) (fun e => h2.1 e.symm) (ih h1.2 h2.2)

/-- String literals: the text, or an error. -/
theorem parseString_spec (hne : cx.source ≠ []) {sp : Span} (h : TokOK cx (.string, sp)) :
    ∃ raw, sp.of cx.source = some raw ∧
    ((∃ s, Spec.StrLit raw s ∧ (∀ s', Spec.StrLit raw s' → s' = s) ∧ parseString cx sp = .ok s) ∨
      ((∀ s, ¬ Spec.StrLit raw s) ∧ ∃ e, parseString cx sp = .err e)) := by
  rcases h.text with h | h | h | ⟨raw, h1, h2⟩
  · cases h
  · cases h
  · cases h
  obtain ⟨body, rfl, h3, h4, h5⟩ := h2
  refine ⟨_, h1, ?_⟩
  obtain ⟨pre, post, e, a1, a2⟩ := slice_eq_some.mp h1
  have strlit : ∀ s, Spec.StrLit ('"' :: (body ++ ['"'])) s ↔ Spec.Unescaped body s := by
    intro s
    constructor
    · rintro ⟨b, hb, hu⟩
      injection hb with _ hb
      have := (List.append_inj' hb rfl).1
      subst this; exact hu
    · intro hu; exact ⟨body, rfl, hu⟩
  simp only [strlit]
  by_cases hb : '\\' ∈ ('"' :: (body ++ ['"']) : Str)
  · have e1 : parseString cx sp = unescape cx sp.m [] ('"' :: (body ++ ['"'])) := by
      simp only [parseString, text, show sp.of cx.source = _ from h1, Res.ofOption, Res.ok_bind, if_pos hb]
    rcases unescape_spec (cx := cx) hne _ ('"' :: (body ++ ['"'])) sp.m [] pre post (Nat.le_refl _)
        (by simpa using e) a1 (by
          intro v c hv
          have : ('"' :: body) ++ ['"'] = v ++ [c] := by simpa using hv
          have := (List.append_inj' this rfl).2
          simpa using this.symm) with ⟨t, b1, b2⟩ | ⟨b1, b2⟩
    · left
      have hu : Spec.Unescaped body t := by
        cases b1 with
        | char _ h _ => exact absurd rfl h
        | stray h => exact unescaped_init _ (Nat.le_refl _) h h5
      refine ⟨t, hu, ?_, by rw [e1, b2]; simp⟩
      intro s' hs'
      exact unescaped_functional hs' hu
    · right
      exact ⟨fun s hs => b1 s (.stray (unescaped_snoc hs)), by rw [e1]; exact b2⟩
  · left
    have n1 : '\\' ∉ body := fun h => hb (by simp [h])
    have n2 : '"' ∉ body := by
      intro hq
      obtain ⟨x, y, rfl⟩ := List.append_of_mem hq
      obtain ⟨z, hz⟩ := h4 ('"' :: x) y (by simp) (by simp)
      cases z with
      | nil => simp at hz
      | cons z0 z => simp at hz; exact n1 (by rw [hz.2]; simp)
    refine ⟨body, unescaped_self n1 n2, fun s' hs' => (unescaped_plain hs' n1 n2).symm, ?_⟩
    have u : '"'.utf8Size = 1 := by decide
    have e2 : slice ('"' :: (body ++ ['"'])) 1 (blen ('"' :: (body ++ ['"'])) - 1) = some body := by
      refine slice_eq_some.mpr ⟨['"'], ['"'], by simp, by simp [blen, u], ?_⟩
      simp [blen, u]; omega
    simp only [parseString, text, show sp.of cx.source = _ from h1, Res.ofOption, Res.ok_bind, if_neg hb]
    rw [if_pos (by simp [blen, u]), e2]
where
  unescaped_functional {s t t' : Str} (h : Spec.Unescaped s t) (h' : Spec.Unescaped s t') : t = t' := by
    induction h generalizing t' with
    | nil => cases h'; rfl
    | char h1 h2 _ ih =>
      cases h' with
      | char _ _ h => rw [ih h]
      | esc => exact absurd rfl h1
      | stray => exact absurd rfl h2
    | esc h1 _ ih =>
      cases h' with
      | char h => exact absurd rfl h
      | esc h2 h3 => rw [h1] at h2; injection h2 with h2; rw [h2, ih h3]
    | stray _ ih =>
      cases h' with
      | char _ h => exact absurd rfl h
      | stray h => exact ih h

theorem parseUsize_eq (env : Env) (s : Str) :
    parseUsize env s = if Spec.decimal s < 2 ^ env.usizeBits then some (Spec.decimal s) else none := rfl

end Parser
end Upon
