import Verif.Props.Literals
import Verif.Props.Format
/-
C10, C11 end to end: what a literal renders as.
-/
namespace Upon
open Spec

/-- A compiled template that only shows a literal renders as the printed form of the literal. -/
theorem lit_renders {env : Env} {r : Renderer} {src : Str} {v : Value} {sp : Span} (ht : r.template = litTemplate src v sp)
    (hd : r.engine.defaultFormatter = fmtDefault env) {b : SState} (hb : r.base = .ok b) {s : Str} (hs : Prints env v s) :
    r.ToString env (.ok s) := by
  refine .ok b ⟨s, []⟩ hb ⟨4, ?_⟩
  have h := (C32_default v [] s).mpr ⟨s, hs, rfl⟩
  have hd' : (r.cfg env stringSink).defaultFormatter = fmtDefault env := hd
  have hk : (r.cfg env stringSink).sink = stringSink := rfl
  rw [ht]
  simp only [initVM, run, step, litTemplate, execInstr, emit, List.getElem?_cons_zero, List.getElem?_cons_succ, hd', hk, h, List.getElem?_nil,
    List.length_cons, List.length_nil, if_true, checkDepth, Nat.not_lt_zero, gt_iff_lt, if_false, Cow.val, Nat.zero_add, Nat.reduceAdd,
    Bool.false_eq_true]

/-- The printed form of a number is a literal for it. -/
theorem digits_decimal : ∀ (m : Nat) (s : Str), s.length = m → (∀ c ∈ s, '0' ≤ c ∧ c ≤ '9') → Digits 10 s (decimal s)
  | 0, s, h, _ => by rw [List.length_eq_zero_iff.mp h]; exact .nil
  | m + 1, s, h, hd => by
    have hne : s ≠ [] := by rintro rfl; cases h
    rw [← List.dropLast_concat_getLast hne] at hd ⊢
    have hl : s.dropLast.length = m := by rw [List.length_dropLast]; omega
    have hc := hd (s.getLast hne) (by simp)
    rw [decimal_snoc]
    refine .digit (digits_decimal m _ hl fun c hc => hd c (by simp [hc])) (by rw [digitVal, if_pos hc]) ?_
    have h2 : (s.getLast hne).val.toNat ≤ 57 := hc.2
    show (s.getLast hne).val.toNat - 48 < 10
    omega

theorem intLit_numeral {n : Nat} {s : Str} (h : Numeral n s) : IntLit s n := by
  have hl (x : Char) (hx : ¬ ('0' ≤ x ∧ x ≤ '9')) (r : Str) : s ≠ '0' :: x :: r := by
    rintro rfl
    exact hx (h.digits x (by simp))
  have := digits_decimal _ s rfl h.digits
  rw [h.value] at this
  exact .dec (hl _ (by decide)) (hl _ (by decide)) (hl _ (by decide)) this

/-- The default formatter of a new engine. -/
theorem default_formatter {env : Env} {e : Engine} (he : Engine.new env = some e) : e.defaultFormatter = fmtDefault env := by
  rw [Engine.new, Engine.withSyntax] at he
  cases ha : AC.new Syn.default with
  | none => rw [ha] at he; cases he
  | some a => rw [ha] at he; cases he; rfl

/-- **C10** An integer literal, in any base, renders as the decimal form of the integer it denotes. -/
theorem C10_rendered {env : Env} {e : Engine} (he : Engine.new env = some e) {raw sign : Str} {n : Nat}
    (h : IntLit raw n) (hd : ∃ c r, raw = c :: r ∧ isDigit c = true) (hsign : sign ∈ [[], ['+'], ['-']])
    (hf : FitsI64 (signed (sign == ['-']) n)) {s : Str} (hs : IntText (signed (sign == ['-']) n) s) :
    ∃ t, e.compile env (emitting (sign ++ raw)) = .ok t ∧
      ∀ r : Renderer, r.engine = e → r.template = t → (∃ b, r.base = .ok b) → r.ToString env (.ok s) := by
  refine ⟨_, C10_exact he h hd hsign hf, fun r h1 h2 ⟨b, hb⟩ => ?_⟩
  exact lit_renders h2 (h1 ▸ default_formatter he) hb (.integer hs)

/-- **C10** Every 64-bit integer can be written: its decimal form is a literal that renders as it stands. -/
theorem C10_decimal {env : Env} {e : Engine} (he : Engine.new env = some e) {i : Int} (hf : FitsI64 i) {s : Str} (hs : IntText i s) :
    ∃ t, e.compile env (emitting s) = .ok t ∧
      ∀ r : Renderer, r.engine = e → r.template = t → (∃ b, r.base = .ok b) → r.ToString env (.ok s) := by
  have digit {n : Nat} {s : Str} (h : Numeral n s) : ∃ c r, s = c :: r ∧ isDigit c = true := by
    cases s with
    | nil => exact absurd rfl h.some
    | cons c r =>
      refine ⟨c, r, rfl, ?_⟩
      have := h.digits c (by simp)
      rw [isDigit, Bool.and_eq_true, decide_eq_true_eq, decide_eq_true_eq]
      exact this
  cases hs with
  | nonneg h => exact C10_rendered he (sign := []) (intLit_numeral h) (digit h) (by decide) hf (.nonneg h)
  | neg hn h => exact C10_rendered he (sign := ['-']) (intLit_numeral h) (digit h) (by decide) hf (.neg hn h)

/-- **C11** Every text that does not end in a backslash can be written: as a quoted literal it renders as it stands. -/
theorem C11_rendered {env : Env} {e : Engine} (he : Engine.new env = some e) {s : Str} (hs : ∀ x, s ≠ x ++ ['\\']) :
    ∃ t, e.compile env (emitting (quote s)) = .ok t ∧
      ∀ r : Renderer, r.engine = e → r.template = t → (∃ b, r.base = .ok b) → r.ToString env (.ok s) := by
  rcases C11_roundtrip he s with ⟨h, _⟩ | ⟨_, x, h⟩
  · exact ⟨_, h, fun r h1 h2 ⟨b, hb⟩ => lit_renders h2 (h1 ▸ default_formatter he) hb .string⟩
  · exact absurd h (hs x)

/-- **C11** Every text can be written: `{{ <literal> }}` renders as it, with the literal that quotes the text and, if the text ends in a
backslash, has one more quote. -/
theorem C11_every_text {env : Env} {e : Engine} (he : Engine.new env = some e) (s : Str) :
    ∃ t, e.compile env (emitting (quoted s)) = .ok t ∧
      ∀ r : Renderer, r.engine = e → r.template = t → (∃ b, r.base = .ok b) → r.ToString env (.ok s) :=
  ⟨_, (C11_string he (Lit.quoted_text env s) _).mpr ⟨s, Lit.quoted_lit s, rfl⟩,
    fun _ h1 h2 ⟨_, hb⟩ => lit_renders h2 (h1 ▸ default_formatter he) hb .string⟩

/-- One backslash. -/
example : quoted ['\\'] = "\"\\\\\"\"".toList := by decide

/-- The smallest integer renders as it stands. -/
example : ∃ e, Engine.new asciiEnv = some e ∧ ∃ t, e.compile asciiEnv (emitting "-9223372036854775808".toList) = .ok t ∧
    (Renderer.new e t none (.borrowed (.map []))).ToString asciiEnv (.ok "-9223372036854775808".toList) := by
  obtain ⟨e, he⟩ := default_engine asciiEnv
  obtain ⟨t, h1, h2⟩ := C10_decimal he (i := -9223372036854775808) (by unfold FitsI64; decide) (s := showInt (-9223372036854775808))
    ((C32_integer _ _).mp rfl)
  have hs : showInt (-9223372036854775808) = "-9223372036854775808".toList := by decide +kernel
  rw [hs] at h1 h2
  exact ⟨e, he, t, h1, h2 _ rfl rfl ⟨_, rfl⟩⟩

/-- Binary digits render in decimal. -/
example : ∃ e, Engine.new asciiEnv = some e ∧ ∃ t, e.compile asciiEnv (emitting "-0b10_1".toList) = .ok t ∧
    (Renderer.new e t none (.borrowed (.map []))).ToString asciiEnv (.ok "-5".toList) := by
  obtain ⟨e, he⟩ := default_engine asciiEnv
  obtain ⟨t, h1, h2⟩ := C10_rendered he (raw := "0b10_1".toList) (n := 5) (sign := ['-'])
    (.bin (.digit (d := 1) (.under (.digit (d := 0) (.digit (d := 1) .nil (by decide) (by decide)) (by decide) (by decide)))
      (by decide) (by decide))) ⟨'0', _, rfl, by decide⟩ (by decide) (by unfold FitsI64; decide) (s := "-5".toList)
    (by refine .neg (n := 5) (by decide) ?_; rw [numeral_iff]; decide +kernel)
  exact ⟨e, he, t, h1, h2 _ rfl rfl ⟨_, rfl⟩⟩

/-- A quoted text with quotes and a newline. -/
example : ∃ e, Engine.new asciiEnv = some e ∧ ∃ t, e.compile asciiEnv (emitting (quote "say \"hi\"\n".toList)) = .ok t ∧
    (Renderer.new e t none (.borrowed (.map []))).ToString asciiEnv (.ok "say \"hi\"\n".toList) := by
  obtain ⟨e, he⟩ := default_engine asciiEnv
  obtain ⟨t, h1, h2⟩ := C11_rendered he (s := "say \"hi\"\n".toList) (by
    intro x h
    have := congrArg List.getLast? h
    simp at this)
  exact ⟨e, he, t, h1, h2 _ rfl rfl ⟨_, rfl⟩⟩

end Upon
