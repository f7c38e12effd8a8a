import Verif.Spec.Filters
import Verif.Spec.Output
import Verif.Props.Include
/-
C32: what the default formatter prints.
-/
namespace Upon
open Spec
variable {σ : Type} {env : Env}

/-! Decimal numerals -/

theorem decimal_snoc (s : Str) (c : Char) : decimal (s ++ [c]) = decimal s * 10 + (c.toNat - '0'.toNat) := by
  rw [decimal, List.foldl_append]; rfl

theorem isDigit_range {c : Char} : c.isDigit = true ↔ '0' ≤ c ∧ c ≤ '9' := by
  simp only [Char.isDigit, Bool.and_eq_true, decide_eq_true_eq]
  rfl

theorem digit_cases {c : Char} (h : '0' ≤ c ∧ c ≤ '9') : ∃ d, d < 10 ∧ c = Nat.digitChar d ∧ c.toNat - '0'.toNat = d := by
  have h1 : 48 ≤ c.val.toNat := h.1
  have h2 : c.val.toNat ≤ 57 := h.2
  have hd : ∀ d, d < 10 → (Nat.digitChar d).toNat = 48 + d := by decide
  refine ⟨c.val.toNat - 48, by omega, ?_, rfl⟩
  apply Char.ext
  apply UInt32.toNat_inj.mp
  have := hd (c.val.toNat - 48) (by omega)
  show c.val.toNat = (Nat.digitChar (c.val.toNat - 48)).toNat
  omega

theorem decimal_toDigits (n : Nat) : decimal (Nat.toDigits 10 n) = n := by
  have h := @Nat.ofDigitChars_ten_toDigits n
  rw [Nat.ofDigitChars_eq_foldl] at h
  have e : (fun (n : Nat) (c : Char) => n * 10 + (c.toNat - '0'.toNat)) =
      fun sofar c => 10 * sofar + (c.toNat - '0'.toNat) := by
    funext n c; rw [Nat.mul_comm]
  rw [decimal, e]; exact h

theorem toDigits_leading (n : Nat) : ∀ c r, Nat.toDigits 10 n = c :: r → c = '0' → r = [] := by
  induction n using Nat.strongRecOn with
  | ind n ih =>
    intro c r h hc
    by_cases hn : n < 10
    · rw [Nat.toDigits_of_lt_base hn] at h; cases h; rfl
    · rw [Nat.toDigits_of_base_le (by decide) (by omega)] at h
      cases ht : Nat.toDigits 10 (n / 10) with
      | nil => exact absurd ht Nat.toDigits_ne_nil
      | cons c' r' =>
        rw [ht] at h
        cases h
        have := ih (n / 10) (by omega) _ _ ht hc
        subst this hc
        have hd := decimal_toDigits (n / 10)
        rw [ht] at hd
        have : decimal ['0'] = 0 := rfl
        omega

theorem numeral_toDigits (n : Nat) : Numeral n (Nat.toDigits 10 n) where
  digits c h := isDigit_range.mp (Nat.isDigit_of_mem_toDigits (by decide) (by decide) h)
  value := decimal_toDigits n
  leading := toDigits_leading n
  some := Nat.toDigits_ne_nil

theorem digits_unique (r : Str) : ∀ s, s.reverse = r → (∀ c ∈ s, '0' ≤ c ∧ c ≤ '9') → s ≠ [] →
    (∀ c t, s = c :: t → c = '0' → t = []) → s = Nat.toDigits 10 (decimal s) := by
  induction r with
  | nil => intro s h _ hne _; exact absurd (List.reverse_eq_nil_iff.mp h) hne
  | cons c r ih =>
    intro s h hd hne hl
    have hs : s = r.reverse ++ [c] := by rw [← List.reverse_cons, ← h, List.reverse_reverse]
    generalize ht : r.reverse = t at hs
    obtain ⟨d, hd1, hd2, hd3⟩ := digit_cases (hd c (by rw [hs]; simp))
    have hdec : decimal s = decimal t * 10 + d := by rw [hs, decimal_snoc, hd3]
    rw [hdec]
    cases t with
    | nil =>
      have : decimal ([] : Str) * 10 + d = d := by simp [decimal]
      rw [this, Nat.toDigits_of_lt_base hd1, hs, hd2]; rfl
    | cons c' t' =>
      have hdt : ∀ x ∈ c' :: t', '0' ≤ x ∧ x ≤ '9' := fun x hx => hd x (by rw [hs]; simp only [List.mem_append]; exact .inl hx)
      have hc' : c' ≠ '0' := by
        intro e
        have := hl c' (t' ++ [c]) (by rw [hs]; rfl) e
        cases t' <;> cases this
      have hrec := ih (c' :: t') (by rw [← ht, List.reverse_reverse]) hdt (by simp)
        (fun x y e ex => by cases e; exact absurd ex hc')
      have hpos : 0 < decimal (c' :: t') := by
        rcases Nat.eq_zero_or_pos (decimal (c' :: t')) with e | e
        · rw [e, Nat.toDigits_zero] at hrec
          cases hrec; exact absurd rfl hc'
        · exact e
      rw [Nat.toDigits_of_base_le (by decide) (by omega)]
      have e1 : (decimal (c' :: t') * 10 + d) / 10 = decimal (c' :: t') := by omega
      have e2 : (decimal (c' :: t') * 10 + d) % 10 = d := by omega
      rw [e1, e2, ← hrec, ← hd2]
      exact hs

/-- Each natural number has exactly one numeral. -/
theorem numeral_iff (n : Nat) (s : Str) : Numeral n s ↔ s = Nat.toDigits 10 n := by
  constructor
  · intro h
    have := digits_unique _ s rfl h.digits h.some h.leading
    rwa [h.value] at this
  · rintro rfl; exact numeral_toDigits n

theorem showInt_ofNat (n : Nat) : showInt (n : Int) = Nat.toDigits 10 n := by
  show (Int.repr (Int.ofNat n)).toList = _
  rw [Int.repr, Nat.toList_repr]

theorem showInt_negSucc (n : Nat) : showInt (Int.negSucc n) = '-' :: Nat.toDigits 10 (n + 1) := by
  show (Int.repr (Int.negSucc n)).toList = _
  rw [Int.repr, String.toList_append, Nat.toList_repr]; rfl

theorem intText_showInt (i : Int) : IntText i (showInt i) := by
  cases i with
  | ofNat n => exact showInt_ofNat n ▸ .nonneg (numeral_toDigits n)
  | negSucc n =>
    rw [showInt_negSucc]
    exact .neg (n := n + 1) (by omega) (numeral_toDigits (n + 1))

theorem intPieces_flatten (i : Int) : (intPieces i).flatten = showInt i := by
  cases i with
  | ofNat n => rw [intPieces, if_neg (by simp)]; simp
  | negSucc n =>
    rw [intPieces, if_pos (Int.negSucc_lt_zero n), showInt_negSucc]
    show ['-'] ++ (showInt ((n + 1 : Nat) : Int) ++ []) = _
    rw [showInt_ofNat]; simp

/-- **C32** Integers print as decimal text: digits without leading zeros, with a minus sign exactly when
negative. -/
theorem C32_integer (i : Int) (s : Str) : s = showInt i ↔ IntText i s := by
  constructor
  · rintro rfl; exact intText_showInt i
  · intro h
    cases h with
    | nonneg h => rw [(numeral_iff _ _).mp h, showInt_ofNat]
    | neg hn h =>
      rename_i n t
      obtain ⟨m, rfl⟩ : ∃ m, n = m + 1 := ⟨n - 1, by omega⟩
      have : (-((m + 1 : Nat) : Int)) = Int.negSucc m := rfl
      rw [this, showInt_negSucc, (numeral_iff _ _).mp h]

/-- Different integers print differently. -/
theorem C32_integer_inj {i j : Int} (h : showInt i = showInt j) : i = j := by
  have hm : ∀ n t, Nat.toDigits 10 n ≠ '-' :: t := by
    intro n t e
    have := (numeral_toDigits n).digits '-' (by rw [e]; simp)
    exact absurd this (by decide)
  cases i with
  | ofNat n =>
    have e1 := showInt_ofNat n
    change showInt (Int.ofNat n) = _ at e1
    rw [e1] at h
    cases j with
    | ofNat m =>
      have e2 := showInt_ofNat m
      change showInt (Int.ofNat m) = _ at e2
      rw [e2] at h
      rw [← decimal_toDigits n, h, decimal_toDigits]
    | negSucc m => rw [showInt_negSucc] at h; exact absurd h (hm _ _)
  | negSucc n =>
    rw [showInt_negSucc] at h
    cases j with
    | ofNat m =>
      have e2 := showInt_ofNat m
      change showInt (Int.ofNat m) = _ at e2
      rw [e2] at h
      exact absurd h.symm (hm _ _)
    | negSucc m =>
      rw [showInt_negSucc] at h
      have h := (List.cons.inj h).2
      have : n + 1 = m + 1 := by rw [← decimal_toDigits (n + 1), h, decimal_toDigits]
      rw [Nat.succ.inj this]

/-! The default formatter -/

/-- Values with no printed form. -/
def Spec.Container : Value → Prop
  | .list _ | .map _ => True
  | _ => False

theorem prints_or_container (v : Value) : (∃ s, Prints env v s) ∨ Container v := by
  cases v with
  | none => exact .inl ⟨_, .none⟩
  | bool b => cases b <;> exact .inl ⟨_, by constructor⟩
  | integer i => exact .inl ⟨_, .integer (intText_showInt i)⟩
  | float f => exact .inl ⟨_, .float⟩
  | string s => exact .inl ⟨_, .string⟩
  | list l => exact .inr trivial
  | map l => exact .inr trivial

theorem run_pieces (sink : Sink σ) : ∀ (ts : List Str) (s : σ), ∃ s' ok, Writes sink s ts s' ok ∧
    (FmtProg.writeAll ts).run sink s = (s', if ok then .ok () else .error none)
  | [], s => ⟨s, true, .done, rfl⟩
  | t :: ts, s => by
    rw [FmtProg.writeAll, FmtProg.run]
    cases h : (sink.write s t).2 with
    | false => exact ⟨_, false, .fail h, rfl⟩
    | true =>
      obtain ⟨s', ok, h1, h2⟩ := run_pieces sink ts (sink.write s t).1
      exact ⟨s', ok, .next h h1, h2⟩

theorem run_string : ∀ (ts : List Str) (s : Str), (FmtProg.writeAll ts).run stringSink s = (s ++ ts.flatten, .ok ())
  | [], s => by simp [FmtProg.writeAll, FmtProg.run]
  | t :: ts, s => by
    rw [FmtProg.writeAll, FmtProg.run]
    show (FmtProg.writeAll ts).run stringSink (s ++ t) = _
    rw [run_string ts, List.flatten_cons, List.append_assoc]

/-- **C32** On a string, the default formatter succeeds exactly for values with a printed form, and
appends that form and nothing else. -/
theorem C32_default (v : Value) (s s' : Str) :
    (fmtDefault env v).run stringSink s = (s', .ok ()) ↔ ∃ t, Prints env v t ∧ s' = s ++ t := by
  have ok := fun ts => run_string ts s
  have one : ∀ t : Str, [t].flatten = t := fun t => by simp
  constructor
  · intro h
    cases v with
    | none => cases h; exact ⟨_, .none, (List.append_nil _).symm⟩
    | bool b => rw [fmtDefault, ok, one] at h; cases h; cases b <;> exact ⟨_, by constructor, rfl⟩
    | integer i => rw [fmtDefault, ok, intPieces_flatten] at h; cases h; exact ⟨_, .integer (intText_showInt i), rfl⟩
    | float f => rw [fmtDefault, ok] at h; cases h; exact ⟨_, .float, rfl⟩
    | string t => rw [fmtDefault, ok, one] at h; cases h; exact ⟨_, .string, rfl⟩
    | list l => cases h
    | map l => cases h
  · rintro ⟨t, h, rfl⟩
    cases h with
    | none => rw [List.append_nil]; rfl
    | integer h => rw [(C32_integer _ _).mpr h, fmtDefault, ok, intPieces_flatten]
    | true_ => rw [fmtDefault, ok, one]; rfl
    | false_ => rw [fmtDefault, ok, one]; rfl
    | float => rw [fmtDefault, ok]
    | string => rw [fmtDefault, ok, one]

/-- **C32** Lists and maps: an error naming the type, and nothing is written, on any output. -/
theorem C32_container (v : Value) (h : Container v) (sink : Sink σ) (s : σ) :
    (fmtDefault env v).run sink s =
      (s, .error (some s!"expression evaluated to unformattable type {typeName v}")) := by
  cases v <;> first | exact absurd h id | rfl

/-- **C32** None prints nothing: no write happens, on any output. -/
theorem C32_none (sink : Sink σ) (s : σ) : (fmtDefault env .none).run sink s = (s, .ok ()) := rfl

/-- **C32** On any output, a value with a printed form is written piece by piece, the pieces making up that form, up to the first
write that fails; printing fails exactly if one does. -/
theorem C32_any_output {v : Value} {t : Str} (h : Prints env v t) (sink : Sink σ) (s : σ) :
    ∃ pieces s' ok, pieces.flatten = t ∧ Writes sink s pieces s' ok ∧
      (fmtDefault env v).run sink s = (s', if ok then .ok () else .error none) := by
  have key : ∀ (ts : List Str) (t : Str), ts.flatten = t → fmtDefault env v = FmtProg.writeAll ts → ∃ pieces s' ok, pieces.flatten = t ∧ Writes sink s pieces s' ok ∧
      (fmtDefault env v).run sink s = (s', if ok then .ok () else .error none) := by
    intro ts t ht hv
    obtain ⟨s', ok, h1, h2⟩ := run_pieces sink ts s
    exact ⟨ts, s', ok, ht, h1, by rw [hv]; exact h2⟩
  cases h with
  | none => exact key [] _ rfl rfl
  | integer h => exact key _ _ ((intPieces_flatten _).trans ((C32_integer _ _).mpr h).symm) rfl
  | true_ => exact key _ _ (List.append_nil _) rfl
  | false_ => exact key _ _ (List.append_nil _) rfl
  | float => exact key _ _ rfl rfl
  | string => exact key _ _ (List.append_nil _) rfl

/-- **C32** Strings, and integers that are not negative, are written in one go. -/
theorem C32_one_write (sink : Sink σ) (s : σ) (v : Value) (t : Str) (h : v = .string t ∨ ∃ n : Nat, v = .integer n ∧ Numeral n t) :
    (fmtDefault env v).run sink s = ((sink.write s t).1, if (sink.write s t).2 then .ok () else .error none) := by
  have key : (FmtProg.writeAll [t]).run sink s = ((sink.write s t).1, if (sink.write s t).2 then .ok () else .error none) := by
    rw [FmtProg.writeAll, FmtProg.run]
    cases (sink.write s t).2 <;> rfl
  rcases h with rfl | ⟨n, rfl, h⟩
  · exact key
  · rw [fmtDefault, intPieces, if_neg (by omega), showInt_ofNat, ← (numeral_iff _ _).mp h]
    exact key

/-- **C32** So, in a render to a string with the default formatter, `{{ e }}` appends the printed form of
the value of `e`… -/
theorem C32_emit {cfg : RenderCfg Str} (hd : cfg.defaultFormatter = fmtDefault cfg.env) (hs : cfg.sink = stringSink)
    {k : Nat} {st : Stack} {src : Str} {name : Option Str} (hl : Live cfg k st) {e : Expr} {sp' : Span}
    (he : ∀ fn recv sp, e ≠ .call fn none recv sp) (hin : ExprIn src e) (hne : src ≠ []) (w : World Str) {v : Cow}
    (hv : valueOf cfg src st e = .ok v) {t : Str} (ht : Prints cfg.env v.val t) (res : RunRes Str) :
    Piece cfg k name src [.inlineExpr e sp'] st w res ↔ res = .ok { w with out := w.out ++ t } := by
  rw [((C30_default hl he hin hne w res).1 v hv), formats, hd, hs]
  have := (C32_default v.val w.out (w.out ++ t)).mpr ⟨t, ht, rfl⟩
  rw [this]

/-- **C32** … and a list or a map is an error at `e`, with nothing written. -/
theorem C32_emit_container {cfg : RenderCfg Str} (hd : cfg.defaultFormatter = fmtDefault cfg.env)
    {k : Nat} {st : Stack} {src : Str} {name : Option Str} (hl : Live cfg k st) {e : Expr} {sp' : Span}
    (he : ∀ fn recv sp, e ≠ .call fn none recv sp) (hin : ExprIn src e) (hne : src ≠ []) (w : World Str) {v : Cow}
    (hv : valueOf cfg src st e = .ok v) (hc : Container v.val) (res : RunRes Str) :
    Piece cfg k name src [.inlineExpr e sp'] st w res ↔
      ∃ p, Pretty.build cfg.env src e.span = some p ∧
        res = .err (Err.attachName ⟨.format, none,
          some s!"expression evaluated to unformattable type {typeName v.val}", some p⟩ name) w := by
  rw [((C30_default hl he hin hne w res).1 v hv), formats, hd, C32_container _ hc]

end Upon
