import Verif.Props.C04_C06
/-
Concrete cases for C04-C06, C37, C39: the hypotheses are satisfiable, and the counterexamples for
closing delimiters that end in whitespace.
-/
namespace Upon

theorem default_noWhite : Spec.NoWhiteEnd Syn.default := by
  intro p hp he d c e
  have h : ∀ p ∈ Syn.default, ∀ c ∈ p.2, isWhite c = false := by decide
  exact h p hp c (by rw [e]; simp)

/-- Syntaxes whose closing delimiters do not end in whitespace have tidy texts only. -/
theorem tidy_of_noWhite {syn : Syn} (h : Spec.NoWhiteEnd syn) (src : Str) : Spec.Tidy syn src :=
  fun p hp he _ _ _ _ _ _ _ _ _ _ => h p hp he

theorem default_tidy (src : Str) : Spec.Tidy defaultBuilder.build src := tidy_of_noWhite default_noWhite src

/-- The default engine's lexer on any text. -/
theorem default_setup (env : Env) (src : Str) :
    ∃ a, Spec.Setup defaultBuilder ⟨env, a, src⟩ := by
  obtain ⟨a, h, _⟩ := C02_total default_built
  exact ⟨a, default_built, h⟩

/-- Calls the lexer until the end (for examples). -/
def lexAll (cx : LexCx) : Nat → Lexer → Option (List (Token × Span))
  | 0, _ => none
  | n + 1, lx =>
    match lx.nextToken cx with
    | .ok (some t, lx) => (lexAll cx n lx).map (t :: ·)
    | .ok (none, _) => some []
    | _ => none

theorem lexAll_lexes {cx : LexCx} : ∀ {n : Nat} {lx : Lexer} {ts : List (Token × Span)},
    lexAll cx n lx = some ts → ∃ lx', Spec.Lexes cx lx ts lx' ∧ ∃ fin, lx'.nextToken cx = .ok (none, fin) := by
  intro n
  induction n with
  | zero => intro lx ts h; cases h
  | succ n ih =>
    intro lx ts h
    simp only [lexAll] at h
    split at h
    · next t lx1 hx =>
      cases hr : lexAll cx n lx1 with
      | none => simp [hr] at h
      | some ts' =>
        simp [hr] at h
        obtain ⟨lx', h1, h2⟩ := ih hr
        subst h
        exact ⟨lx', .some hx h1, h2⟩
    · next hx => injection h with h; subst h; exact ⟨lx, .none, _, hx⟩
    · cases h

theorem lexAll_tokens {cx : LexCx} {n : Nat} {ts : List (Token × Span)}
    (h : lexAll cx n Lexer.new = some ts) : Spec.Tokens cx ts := by
  obtain ⟨lx, h1, h2⟩ := lexAll_lexes h
  exact ⟨lx, h1, h2⟩

set_option maxRecDepth 100000 in
/-- `a {{- b.1 }}` : the text loses its trailing blank; the tokens are in order and closed. -/
example : ∃ a, Spec.Setup defaultBuilder ⟨Spec.asciiEnv, a, "a {{- b.1 }}".toList⟩ ∧
    Spec.Tokens ⟨Spec.asciiEnv, a, "a {{- b.1 }}".toList⟩
      [(.raw, ⟨0, 1⟩), (.beginExpr, ⟨2, 5⟩), (.ident, ⟨6, 7⟩), (.dot, ⟨7, 8⟩), (.index, ⟨8, 9⟩),
        (.endExpr, ⟨10, 12⟩)] := by
  obtain ⟨a, ha⟩ := default_setup Spec.asciiEnv "a {{- b.1 }}".toList
  refine ⟨a, ha, lexAll_tokens (n := 9) ?_⟩
  have h := ha.searcher
  have key : (AC.new Syn.default).bind (fun a => lexAll ⟨Spec.asciiEnv, a, "a {{- b.1 }}".toList⟩ 9 Lexer.new) =
      some [(.raw, ⟨0, 1⟩), (.beginExpr, ⟨2, 5⟩), (.ident, ⟨6, 7⟩), (.dot, ⟨7, 8⟩), (.index, ⟨8, 9⟩),
        (.endExpr, ⟨10, 12⟩)] := by decide +kernel
  have h' : AC.new Syn.default = some a := h
  rw [h'] at key
  exact key

/-- A syntax whose expressions end in a blank. -/
def whiteBuilder : SyntaxBuilder := ⟨some ("{{".toList, "}} ".toList), none, none⟩

theorem white_built : Spec.Built whiteBuilder := .expr (x := "{{".toList) (y := "}} ".toList) .new rfl

/-- A text without trimming tags is tidy in any syntax. -/
theorem tidy_of_no_trim {syn : Syn} {src : Str}
    (h : ∀ q ∈ syn, Spec.isEnd q.1 = false → Spec.isTrim q.1 = true → ¬ q.2 <:+: src) : Spec.Tidy syn src :=
  fun _ _ _ q hq h1 h2 before white behind e _ _ =>
    absurd ⟨before ++ _ ++ white, behind, e.symm⟩ (h q hq h1 h2)

/-- Between closing delimiters that end in whitespace and other tags, whitespace does no harm … -/
example : Spec.Tidy whiteBuilder.build "{{ a -}}  {{ b }}  ".toList := tidy_of_no_trim (by decide +kernel)

/-- A text in which no trimming opening delimiter stands behind whitespace is tidy in any syntax. -/
theorem tidy_of_no_white {syn : Syn} {src : Str}
    (h : ∀ q ∈ syn, Spec.isEnd q.1 = false → Spec.isTrim q.1 = true → ∀ c ∈ src, isWhite c = true → ¬ (c :: q.2) <:+: src) :
    Spec.Tidy syn src := by
  intro p _ _ q hq h1 h2 before white behind e hne hw
  rcases List.eq_nil_or_concat white with h0 | ⟨w, c, h0⟩
  · exact absurd h0 hne
  · have h0' : white = w ++ [c] := by simpa using h0
    exact absurd ⟨before ++ p.2 ++ w, behind, by rw [e, h0']; simp⟩
      (h q hq h1 h2 c (by rw [e, h0']; simp) (hw c (by rw [h0']; simp)))

/-- … nor whitespace with other text behind it. -/
example : Spec.Tidy whiteBuilder.build "{{ a }} x{{- b }} ".toList := tidy_of_no_white (by decide +kernel)

set_option maxRecDepth 100000 in
/-- **C04/C06** are false without the restriction on closing delimiters: with the delimiters `{{`
and `}} `, the text `{{ a }}  {{- b }} ` is lexed without an error and the raw token between the two
tags has the byte range 8..7. -/
theorem C04_false_white_end : ∃ (b : SyntaxBuilder) (cx : LexCx) (ts : List (Token × Span)),
    Spec.Setup b cx ∧ Spec.Tokens cx ts ∧ Spec.Closed ts ∧ ∃ t ∈ ts, t.2.n < t.2.m := by
  obtain ⟨a, ha, _⟩ := C02_total white_built
  have key : (AC.new whiteBuilder.build).bind (fun a =>
      lexAll ⟨Spec.asciiEnv, a, "{{ a }}  {{- b }} ".toList⟩ 9 Lexer.new) =
      some [(.beginExpr, ⟨0, 2⟩), (.ident, ⟨3, 4⟩), (.endExpr, ⟨5, 8⟩), (.raw, ⟨8, 7⟩),
        (.beginExpr, ⟨9, 12⟩), (.ident, ⟨13, 14⟩), (.endExpr, ⟨15, 18⟩)] := by decide +kernel
  rw [ha] at key
  refine ⟨whiteBuilder, ⟨Spec.asciiEnv, a, "{{ a }}  {{- b }} ".toList⟩, _, ⟨white_built, ha⟩,
    lexAll_tokens key, ?_, (.raw, ⟨8, 7⟩), by simp, by decide⟩
  intro xs t ys e hb
  rcases xs with _ | ⟨_, _ | ⟨_, _ | ⟨_, _ | ⟨_, _ | ⟨_, _ | ⟨_, _ | ⟨_, xs⟩⟩⟩⟩⟩⟩⟩ <;> simp at e
  all_goals (try (obtain ⟨rfl, rfl⟩ := e; simp [Spec.isBeginTag] at hb))
  all_goals
    first
    | (obtain ⟨_, rfl, rfl⟩ := e; simp [Spec.isEndTag, Spec.isBeginTag] at *; done)
    | (obtain ⟨_, _, rfl, rfl⟩ := e; simp [Spec.isEndTag, Spec.isBeginTag] at *; done)
    | (obtain ⟨_, _, _, rfl, rfl⟩ := e; simp [Spec.isEndTag, Spec.isBeginTag] at *; done)
    | (obtain ⟨_, _, _, _, rfl, rfl⟩ := e; simp [Spec.isEndTag, Spec.isBeginTag] at *; done)
    | (obtain ⟨_, _, _, _, _, rfl, rfl⟩ := e; simp [Spec.isEndTag, Spec.isBeginTag] at *; done)
    | (obtain ⟨_, _, _, _, _, _, rfl, rfl⟩ := e; simp [Spec.isEndTag, Spec.isBeginTag] at *; done)
    | (simp [Spec.isEndTag]; done)

end Upon
