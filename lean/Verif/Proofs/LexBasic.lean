import Verif.Proofs.AC.Search
import Verif.Spec.Lexing
/-
Basic lemmas on the lexer's character loops and errors.
-/
namespace Upon

/-- Errors can be built whenever the source is nonempty and the span can be sliced. -/
theorem splitLinesAux_ne_nil (s cur : Str) (h : s ≠ [] ∨ cur ≠ []) : splitLinesAux s cur ≠ [] := by
  induction s generalizing cur with
  | nil =>
    rcases h with h | h
    · exact absurd rfl h
    · cases cur with
      | nil => exact absurd rfl h
      | cons c cur => simp [splitLinesAux]
  | cons c s ih =>
    simp only [splitLinesAux]
    split
    · simp
    · exact ih _ (Or.inr (by simp))

theorem pretty_isSome (env : Env) {source : Str} {sp : Span} {t : Str} (hne : source ≠ [])
    (h : sp.of source = some t) : ∃ p, Pretty.build env source sp = some p := by
  have hl : splitLines source ≠ [] := splitLinesAux_ne_nil _ _ (Or.inl hne)
  obtain ⟨last, hlast⟩ : ∃ l, (splitLines source).getLast? = some l := by
    cases hg : (splitLines source).getLast? with
    | none => exact absurd (List.getLast?_eq_none_iff.mp hg) hl
    | some l => exact ⟨l, rfl⟩
  simp only [Pretty.build, h, Option.bind_eq_bind, Option.bind_some, hlast]
  cases (splitLines source)[(toLnCol env (splitLines source) sp.m).1]? <;> simp

theorem throwAt_err {α : Type} (env : Env) (kind : ErrKind) (reason : Option String) {source : Str} {sp : Span}
    {t : Str} (hne : source ≠ []) (h : sp.of source = some t) :
    ∃ e, (throwAt env kind reason source sp : Res α) = .err e := by
  obtain ⟨p, hp⟩ := pretty_isSome env hne h
  refine ⟨{ kind, name := none, reason, pretty := some p }, ?_⟩
  simp only [throwAt, hp]

theorem errSyntax_err {α : Type} (env : Env) (reason : String) {source : Str} {sp : Span} {t : Str}
    (hne : source ≠ []) (h : sp.of source = some t) :
    ∃ e, (errSyntax env reason source sp : Res α) = .err e := throwAt_err _ _ _ hne h

namespace Lexer

theorem lexWhile_eq (pred : Char → Bool) (j : Nat) (s : Str) :
    lexWhile pred j s = j + blen (s.takeWhile pred) := by
  induction s generalizing j with
  | nil => simp [lexWhile]
  | cons c s ih =>
    simp only [lexWhile, List.takeWhile_cons]
    split <;> simp [ih, Nat.add_assoc]

/-- The loop for string literals: `done` is the text of the literal so far without the opening
quote, whose last character (or the opening quote) is `curr`. -/
theorem lexString_spec (cx : LexCx) (i : Nat) :
    ∀ (rest : Str) (done : Str) (curr : Char) (j : Nat),
    (∃ z, '"' :: done = z ++ [curr]) →
    (∀ c ∈ done, c ≠ '\n' ∧ c ≠ '\r') →
    (∀ x y, '"' :: done = x ++ '"' :: y → x ≠ [] → ∃ z, x = z ++ ['\\']) →
    (∃ body post, lexString cx i curr j rest = .ok (.string, j + blen body + 1) ∧
      rest = body ++ '"' :: post ∧ Spec.TokText cx.env .string ('"' :: (done ++ body ++ ['"']))) ∨
    (∃ a b, rest = a ++ b ∧ lexString cx i curr j rest = errUndelimitedString cx i (j + blen a)) ∨
    lexString cx i curr j rest = errUndelimitedString cx i (blen cx.source) := by
  intro rest
  induction rest with
  | nil => intro done curr j _ _ _; right; right; rfl
  | cons c rest ih =>
    intro done curr j hcur hnl hq
    simp only [lexString]
    split
    · right; left; exact ⟨[], c :: rest, rfl, by simp⟩
    · next hc =>
      simp only [not_or] at hc
      split
      · next hq2 =>
        left
        obtain ⟨rfl, hne⟩ := hq2
        refine ⟨[], rest, by simp, rfl, done, by simp, hnl, hq, ?_⟩
        intro x hx
        obtain ⟨z, hz⟩ := hcur
        rw [hx] at hz
        have : ('"' :: x) ++ ['\\'] = z ++ [curr] := by simpa using hz
        have := (List.append_inj' this rfl).2
        simp at this
        exact hne this.symm
      · next hq2 =>
        have := ih (done ++ [c]) c (j + c.utf8Size) ⟨'"' :: done, by simp⟩
          (by
            intro x hx
            rcases List.mem_append.mp hx with hx | hx
            · exact hnl x hx
            · simp at hx; subst hx; exact ⟨hc.2, hc.1⟩)
          (by
            intro x y e hx
            have e' : ('"' :: done) ++ [c] = x ++ '"' :: y := by simpa using e
            rcases List.eq_nil_or_concat y with rfl | ⟨y', d, rfl⟩
            · have e2 := List.append_inj' e' rfl
              have hc' : c = '"' := by simpa using e2.2
              obtain ⟨z, hz⟩ := hcur
              have : curr = '\\' := by
                apply Classical.byContradiction
                intro hne
                exact hq2 ⟨hc', hne⟩
              exact ⟨z, by rw [← e2.1, hz, this]⟩
            · have e3 : ('"' :: done) ++ [c] = (x ++ '"' :: y') ++ [d] := by simpa using e'
              exact hq x y' (List.append_inj' e3 rfl).1 hx)
        rcases this with ⟨body, post, h1, h2, h3⟩ | ⟨a, b, h1, h2⟩ | h1
        · left
          refine ⟨c :: body, post, ?_, by simp [h2], ?_⟩
          · rw [h1]; simp [Nat.add_assoc]
          · simpa using h3
        · right; left
          exact ⟨c :: a, b, by simp [h1], by rw [h2]; simp [Nat.add_assoc]⟩
        · right; right; exact h1

theorem span_of {cx : LexCx} {pre t post : Str} (h : cx.source = pre ++ (t ++ post)) {m n : Nat}
    (hm : blen pre = m) (hn : n = m + blen t) : (Span.mk m n).of cx.source = some t :=
  slice_eq_some.mpr ⟨pre, post, h, hm, hn⟩

theorem mem_takeWhile {p : Char → Bool} {s : Str} {c : Char} (h : c ∈ s.takeWhile p) : p c = true := by
  induction s with
  | nil => simp at h
  | cons d s ih =>
    rw [List.takeWhile_cons] at h
    split at h
    · next hd =>
      rcases List.mem_cons.mp h with h | h
      · rw [h]; exact hd
      · exact ih h
    · simp at h

/-- Whether a path is being read, in a state of the lexer. -/
def pathOf : BlockState → Bool
  | .path => true
  | .unknown => false

theorem dropWhile_stop (p : Char → Bool) (s : Str) (c : Char) (r : Str) (h : s.dropWhile p = c :: r) :
    p c = false := by
  induction s with
  | nil => simp at h
  | cons d s ih =>
    rw [List.dropWhile_cons] at h
    split at h
    · exact ih h
    · next hd => injection h with h1 h2; subst h1; simpa using hd

/-- One token inside a tag: its text, or an error. -/
theorem lexChar_spec (cx : LexCx) (bs : BlockState) (i : Nat) (pre : Str) (c : Char) (rest : Str)
    (hsrc : cx.source = pre ++ (c :: rest)) (hi : blen pre = i) :
    (∃ tk t post, lexChar cx bs i c rest = .ok (tk, i + blen t) ∧ c :: rest = t ++ post ∧
      Spec.TokText cx.env tk t ∧ Spec.TokStop cx.env tk post ∧ Spec.TokFits (pathOf bs) tk ∧ t ≠ []) ∨
    ∃ e, lexChar cx bs i c rest = .err e := by
  have hne : cx.source ≠ [] := by rw [hsrc]; simp
  have single : ∀ (tk : Token) (d : Char), d.utf8Size = 1 → Spec.TokText cx.env tk [d] →
      Spec.TokStop cx.env tk rest → Spec.TokFits (pathOf bs) tk → c = d → (pure (tk, i + 1) : Res (Token × Nat)) = .ok (tk, i + blen [c]) ∧
        c :: rest = [c] ++ rest ∧ Spec.TokText cx.env tk [c] ∧ Spec.TokStop cx.env tk rest ∧
        Spec.TokFits (pathOf bs) tk ∧ [c] ≠ [] := by
    intro tk d h1 h2 h4 h5 h3
    subst h3
    exact ⟨by simp [h1], rfl, h2, h4, h5, by simp⟩
  unfold lexChar
  by_cases h : c = '.'
  · rw [if_pos h]; exact Or.inl ⟨_, _, _, single .dot '.' (by decide) rfl (by simp [Spec.TokStop]) (by simp [Spec.TokFits]) h⟩
  rw [if_neg h]; have hn1 := h; clear h
  by_cases h : c = '|'
  · rw [if_pos h]; exact Or.inl ⟨_, _, _, single .pipe '|' (by decide) rfl (by simp [Spec.TokStop]) (by simp [Spec.TokFits]) h⟩
  rw [if_neg h]; have hn2 := h; clear h
  by_cases h : c = ','
  · rw [if_pos h]; exact Or.inl ⟨_, _, _, single .comma ',' (by decide) rfl (by simp [Spec.TokStop]) (by simp [Spec.TokFits]) h⟩
  rw [if_neg h]; have hn3 := h; clear h
  by_cases h : c = ':'
  · rw [if_pos h]; exact Or.inl ⟨_, _, _, single .colon ':' (by decide) rfl (by simp [Spec.TokStop]) (by simp [Spec.TokFits]) h⟩
  rw [if_neg h]; have hn4 := h; clear h
  by_cases h : c = '+'
  · rw [if_pos h]; exact Or.inl ⟨_, _, _, single .plus '+' (by decide) rfl (by simp [Spec.TokStop]) (by simp [Spec.TokFits]) h⟩
  rw [if_neg h]; have hn5 := h; clear h
  by_cases h : c = '-'
  · rw [if_pos h]; exact Or.inl ⟨_, _, _, single .minus '-' (by decide) rfl (by simp [Spec.TokStop]) (by simp [Spec.TokFits]) h⟩
  rw [if_neg h]; have hn6 := h; clear h
  by_cases h : c = '?'
  · rw [if_pos h]
    subst h
    have h1 : '?'.utf8Size = 1 := by decide
    have h2 : '.'.utf8Size = 1 := by decide
    unfold lexQuestionDot
    split
    · next r =>
      left
      exact ⟨.questionDot, ['?', '.'], r, by simp [h1, h2], rfl, rfl, by simp [Spec.TokStop], by simp [Spec.TokFits], by simp⟩
    · next d r _ =>
      right
      exact errSyntax_err _ _ hne (span_of (t := ['?', d]) (post := r) (by simpa using hsrc) hi
        (by simp [h1, Nat.add_assoc]))
    · right
      refine errSyntax_err _ _ hne (span_of (t := ['?']) (post := []) (by simpa using hsrc) hi ?_)
      rw [hsrc]; simp [hi]
  rw [if_neg h]; have hn7 := h; clear h
  by_cases h : c = '"'
  · rw [if_pos h]
    subst h
    have h1 : '"'.utf8Size = 1 := by decide
    rcases lexString_spec cx i rest [] '"' (i + 1) ⟨[], rfl⟩ (by simp)
      (by
        intro x y e hx
        cases x with
        | nil => exact absurd rfl hx
        | cons a x => simp at e) with ⟨body, post, e1, e2, e3⟩ | ⟨a, b, e1, e2⟩ | e1
    · left
      refine ⟨.string, '"' :: (body ++ ['"']), post, ?_, by simp [e2], by simpa using e3,
        by simp [Spec.TokStop], by simp [Spec.TokFits], by simp⟩
      rw [e1]; simp [h1]; omega
    · right
      rw [e2]
      exact errSyntax_err _ _ hne (span_of (t := '"' :: a) (post := b) (by simp [hsrc, e1]) hi
        (by simp [h1, Nat.add_assoc]))
    · right
      rw [e1]
      refine errSyntax_err _ _ hne (span_of (t := '"' :: rest) (post := []) (by simpa using hsrc) hi ?_)
      rw [hsrc]; simp [hi]
  have split_while : ∀ p : Char → Bool, c :: rest = (c :: rest.takeWhile p) ++ rest.dropWhile p := by
    intro p; simp [List.takeWhile_append_dropWhile]
  rw [if_neg h]; have hn8 := h; clear h
  by_cases h : isDigit c = true
  · rw [if_pos h]
    left
    cases bs with
    | path =>
      refine ⟨.index, c :: rest.takeWhile isDigit, _, ?_, split_while _, ⟨by simp, ?_⟩,
        ?_, by simp [Spec.TokFits, pathOf], by simp⟩
      · simp [lexWhile_eq, Nat.add_assoc]
      · intro x hx
        rcases List.mem_cons.mp hx with rfl | hx
        · exact h
        · exact mem_takeWhile hx
      · cases hd : rest.dropWhile isDigit with
        | nil => simp [Spec.TokStop]
        | cons d r => simpa [Spec.TokStop] using dropWhile_stop _ _ _ _ hd
    | unknown =>
      refine ⟨.number, c :: rest.takeWhile isNumberChar, _, ?_, split_while _,
        ⟨c, _, rfl, h, fun x hx => mem_takeWhile hx⟩, ?_, by simp [Spec.TokFits, pathOf], by simp⟩
      · simp [lexWhile_eq, Nat.add_assoc]
      · cases hd : rest.dropWhile isNumberChar with
        | nil => simp [Spec.TokStop]
        | cons d r => simpa [Spec.TokStop] using dropWhile_stop _ _ _ _ hd
  rw [if_neg h]; have hn9 := h; clear h
  by_cases h : isBlank c = true
  · rw [if_pos h]
    left
    refine ⟨.whitespace, c :: rest.takeWhile isBlank, _, ?_, split_while _, ⟨by simp, ?_⟩, ?_, by simp [Spec.TokFits],
      by simp⟩
    · simp [lexWhile_eq, Nat.add_assoc]
    · intro x hx
      have hb : isBlank x = true := by
        rcases List.mem_cons.mp hx with rfl | hx
        · exact h
        · exact mem_takeWhile hx
      simp [isBlank] at hb
      exact hb.symm
    · cases hd : rest.dropWhile isBlank with
      | nil => simp [Spec.TokStop]
      | cons d r =>
        have := dropWhile_stop _ _ _ _ hd
        simp [isBlank] at this
        exact ⟨this.2, this.1⟩
  rw [if_neg h]; have hn10 := h; clear h
  by_cases h : isIdentStart cx.env c = true
  · rw [if_pos h]
    left
    obtain ⟨t, ht⟩ : ∃ t, t = c :: rest.takeWhile (isIdentChar cx.env) := ⟨_, rfl⟩
    have hj : lexWhile (isIdentChar cx.env) (i + c.utf8Size) rest = i + blen t := by
      simp [ht, lexWhile_eq, Nat.add_assoc]
    have hs : slice cx.source i (i + blen t) = some t :=
      slice_eq_some.mpr ⟨pre, rest.dropWhile (isIdentChar cx.env), by
        rw [hsrc, ht]; simp [List.takeWhile_append_dropWhile], hi, rfl⟩
    refine ⟨if t ∈ keywords then .keyword else .ident, t, rest.dropWhile (isIdentChar cx.env), ?_, ?_, ?_, ?_, ?_, ?_⟩
    · simp only [lexIdentOrKeyword, hj, hs, Res.ofOption, Res.ok_bind, Res.pure_eq]
    · rw [ht]; exact split_while _
    · have hw : Spec.Word cx.env t := by
        refine ⟨c, _, ht, ?_, h, fun x hx => mem_takeWhile hx⟩
        rintro (hp | hp)
        · simp at hp
          simp [isBlank] at hn10
          tauto
        · exact hn9 hp
      split
      · next hk => exact ⟨hk, hw⟩
      · next hk => exact ⟨hk, hw⟩
    · cases hd : rest.dropWhile (isIdentChar cx.env) with
      | nil => split <;> simp [Spec.TokStop]
      | cons d r =>
        have := dropWhile_stop _ _ _ _ hd
        split <;> simpa [Spec.TokStop] using this
    · split <;> simp [Spec.TokFits]
    · rw [ht]; simp
  · rw [if_neg h]
    right
    exact errSyntax_err _ _ hne (span_of (t := [c]) (post := rest) (by simpa using hsrc) hi (by simp))

end Lexer
end Upon
