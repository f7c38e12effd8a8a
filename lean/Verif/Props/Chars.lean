import Verif.Spec.Chars
/-
The classes of characters that trimming and tokens (C05, C06) speak of are the ones meant.
-/
namespace Upon
open Spec

theorem char_eq_iff (c d : Char) : c = d ↔ c.toNat = d.toNat :=
  ⟨fun h => h ▸ rfl, fun h => Char.ext (UInt32.toNat_inj.mp h)⟩

/-- **C05** What trimming removes is white space in the sense of Unicode. -/
theorem C05_white (c : Char) : isWhite c = true ↔ c.toNat ∈ whiteSpace := by
  unfold isWhite whiteSpace
  simp only [Bool.or_eq_true, Bool.and_eq_true, decide_eq_true_eq, beq_iff_eq, List.mem_cons, List.not_mem_nil, or_false]
  omega

/-- **C05** Trimming at the start removes the longest prefix of white space. -/
theorem C05_trim_start (s : Str) : ∃ a, s = a ++ trimStart s ∧ (∀ c ∈ a, c.toNat ∈ whiteSpace) ∧
    ∀ c r, trimStart s = c :: r → c.toNat ∉ whiteSpace := by
  unfold trimStart
  refine ⟨s.takeWhile isWhite, (List.takeWhile_append_dropWhile).symm, ?_, ?_⟩
  · intro c hc
    rw [← C05_white]
    induction s with
    | nil => cases hc
    | cons d r ih =>
      rw [List.takeWhile_cons] at hc
      cases h : isWhite d with
      | false => simp [h] at hc
      | true =>
        simp only [h, if_true, List.mem_cons] at hc
        rcases hc with rfl | hc
        · exact h
        · exact ih hc
  · intro c r hr
    rw [← C05_white]
    induction s with
    | nil => cases hr
    | cons d s ih =>
      rw [List.dropWhile_cons] at hr
      cases h : isWhite d with
      | true => exact ih (by simpa [h] using hr)
      | false => simp [h] at hr; rw [← hr.1, h]; simp

/-- **C05** Trimming at the end removes the longest suffix of white space. -/
theorem C05_trim_end (s : Str) : ∃ b, s = trimEnd s ++ b ∧ (∀ c ∈ b, c.toNat ∈ whiteSpace) ∧
    ∀ r c, trimEnd s = r ++ [c] → c.toNat ∉ whiteSpace := by
  obtain ⟨a, h1, h2, h3⟩ := C05_trim_start s.reverse
  refine ⟨a.reverse, ?_, by simpa using h2, ?_⟩
  · have := congrArg List.reverse h1
    simpa [trimStart, trimEnd] using this
  · intro r c h
    refine h3 c r.reverse ?_
    have := congrArg List.reverse h
    simpa [trimStart, trimEnd] using this

/-- **C06** A name starts with `_` or a character that has the Unicode property `XID_Start`, -/
theorem C06_name_start (env : Env) (c : Char) : isIdentStart env c = true ↔ c = '_' ∨ env.xidStart c = true := by
  simp [isIdentStart]

/-- **C06** and goes on with characters that have `XID_Continue`. -/
theorem C06_name_char (env : Env) (c : Char) : isIdentChar env c = true ↔ env.xidContinue c = true := Iff.rfl

/-- **C06** Digits. -/
theorem C06_digit (c : Char) : isDigit c = true ↔ c ∈ digitChars := by
  unfold isDigit digitChars
  simp only [Bool.and_eq_true, decide_eq_true_eq, List.mem_cons, List.not_mem_nil, or_false, Char.le_def, UInt32.le_iff_toNat_le, char_eq_iff]
  show 48 ≤ c.toNat ∧ c.toNat ≤ 57 ↔ c.toNat = 48 ∨ c.toNat = 49 ∨ c.toNat = 50 ∨ c.toNat = 51 ∨ c.toNat = 52 ∨ c.toNat = 53 ∨ c.toNat = 54 ∨
    c.toNat = 55 ∨ c.toNat = 56 ∨ c.toNat = 57
  omega

/-- **C06** Characters of numbers. -/
theorem C06_number_char (c : Char) : isNumberChar c = true ↔ c ∈ numberChars := by
  unfold isNumberChar numberChars
  simp only [Bool.or_eq_true, List.mem_append, C06_digit, digitChars, Bool.and_eq_true, decide_eq_true_eq, beq_iff_eq, List.mem_cons, List.not_mem_nil,
    or_false, Char.le_def, UInt32.le_iff_toNat_le, char_eq_iff]
  have h (d : Char) : d.val.toNat = d.toNat := rfl
  simp only [h, Char.reduceToNat]
  omega

/-- **C06** The keywords are the reserved words. -/
theorem C06_keyword (s : Str) : s ∈ keywords ↔ String.ofList s ∈ reserved := by
  unfold keywords reserved
  have h (x : String) : String.ofList s = x ↔ s = x.toList :=
    ⟨fun e => by rw [← e, String.toList_ofList], fun e => by rw [e, String.ofList_toList]⟩
  simp only [List.mem_cons, List.not_mem_nil, or_false, h]
  grind

/-- **C06** Inside a tag, blanks are spaces and tabs only. -/
theorem C06_blank (c : Char) : isBlank c = true ↔ c = ' ' ∨ c = '\t' := by
  unfold isBlank
  simp only [Bool.or_eq_true, beq_iff_eq]
  exact or_comm

/-- The no-break space and the tab are white space, the zero-width space is not. -/
example : isWhite '\u00a0' = true ∧ isWhite '\t' = true ∧ isWhite '\u200b' = false := by decide
example : trimEnd "a b \r\n".toList = "a b".toList := by decide
example : trimStart "\u2003 a b ".toList = "a b ".toList := by decide

end Upon
