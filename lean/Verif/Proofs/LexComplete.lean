import Verif.Proofs.LexTiles
/-
The lexer accepts every text that is laid out as specified.
-/
namespace Upon

theorem Trimmed.unique {l r : Bool} {t a u b a' u' b' : Str} (h : Spec.Trimmed l r t a u b)
    (h' : Spec.Trimmed l r t a' u' b') : a = a' ∧ u = u' ∧ b = b' := by
  have key : ∀ {a u b a' u' b' : Str}, Spec.Trimmed l r t a u b → Spec.Trimmed l r t a' u' b' →
      a.length ≤ a'.length → a = a' := by
    intro a u b a' u' b' h h' hl
    have e : a ++ (u ++ b) = a' ++ (u' ++ b') := by
      rw [← List.append_assoc, ← List.append_assoc, ← h.split, ← h'.split]
    obtain ⟨z, hz⟩ : ∃ z, a' = a ++ z := by
      obtain ⟨z, hz⟩ := (List.prefix_of_prefix_length_le (l₁ := a) (l₂ := a') (l₃ := a ++ (u ++ b))
        ⟨_, rfl⟩ ⟨_, e.symm⟩ hl)
      exact ⟨z, hz.symm⟩
    subst hz
    have e2 : u ++ b = z ++ (u' ++ b') := by
      have : a ++ (u ++ b) = a ++ (z ++ (u' ++ b')) := by rw [e]; simp
      exact List.append_cancel_left this
    cases z with
    | nil => simp
    | cons c z =>
      have hc : isWhite c = true := h'.whiteA c (by simp)
      have hl : l = true := by
        cases l with
        | true => rfl
        | false => have := h'.keepA rfl; simp at this
      cases u with
      | cons d u =>
        simp at e2
        have := h.maxA hl d u rfl
        rw [e2.1, hc] at this; cases this
      | nil =>
        have hr : r = true := by
          cases r with
          | true => rfl
          | false => have := h.keepB rfl; subst this; simp at e2
        have ha := h.whole hr rfl
        subst ha
        have hu : u' = [] := by
          rcases List.eq_nil_or_concat u' with h0 | ⟨v, d, h0⟩
          · exact h0
          · have h0' : u' = v ++ [d] := by simpa using h0
            have hd := h'.maxB hr v d h0'
            have : isWhite d = true := h.whiteB d (by
              have : d ∈ ([] ++ b : Str) := by rw [e2, h0']; simp
              simpa using this)
            rw [this] at hd; cases hd
        have := h'.whole hr hu
        simp at this
  have ha : a = a' := by
    rcases Nat.le_total a.length a'.length with hl | hl
    · exact key h h' hl
    · exact (key h' h hl).symm
  subst ha
  have e : u ++ b = u' ++ b' := by
    have : a ++ (u ++ b) = a ++ (u' ++ b') := by
      rw [← List.append_assoc, ← List.append_assoc, ← h.split, ← h'.split]
    exact List.append_cancel_left this
  have key2 : ∀ {u b u' b' : Str}, Spec.Trimmed l r t a u b → Spec.Trimmed l r t a u' b' →
      u ++ b = u' ++ b' → u.length ≤ u'.length → u = u' := by
    intro u b u' b' h h' e hl
    obtain ⟨z, hz⟩ := (List.prefix_of_prefix_length_le (l₁ := u) (l₂ := u') (l₃ := u ++ b)
        ⟨_, rfl⟩ ⟨_, e.symm⟩ hl)
    subst hz
    have e2 : b = z ++ b' := by
      have : u ++ b = u ++ (z ++ b') := by rw [e]; simp
      exact List.append_cancel_left this
    rcases List.eq_nil_or_concat z with h0 | ⟨v, d, h0⟩
    · simp [h0]
    · have h0' : z = v ++ [d] := by simpa using h0
      have hr : r = true := by
        cases r with
        | true => rfl
        | false => have := h.keepB rfl; subst this; rw [h0'] at e2; simp at e2
      have h1 := h'.maxB hr (u ++ v) d (by rw [h0']; simp)
      have h2 := h.whiteB d (by rw [e2, h0']; simp)
      rw [h2] at h1; cases h1
  have hu : u = u' := by
    rcases Nat.le_total u.length u'.length with hl | hl
    · exact key2 h h' e hl
    · exact (key2 h' h e.symm hl).symm
  subst hu
  exact ⟨rfl, rfl, List.append_cancel_left e⟩

namespace Lexer
variable {syn : Syn} {cx : LexCx}

theorem findAt_some (g : Good syn cx) {i : Nat} {k : Kind} {j n : Nat}
    (h : Spec.Chosen syn cx.source i k j n) : findAt cx i = .ok (some (k, j, n)) := by
  rcases findAt_cases g i with ⟨k', j', n', h1, h2⟩ | ⟨h1, h2⟩
  · obtain ⟨rfl, rfl, rfl⟩ := AC.Chosen.unique h h2
    exact h1
  · exact absurd (chosen_occurs h) (h2 _ _ _ h.after)

theorem findAt_none (g : Good syn cx) {i : Nat}
    (h : ∀ k x y, i ≤ x → ¬ Spec.Occurs syn cx.source k x y) : findAt cx i = .ok none := by
  rcases findAt_cases g i with ⟨k', j', n', h1, h2⟩ | ⟨h1, h2⟩
  · exact absurd (chosen_occurs h2) (h _ _ _ h2.after)
  · exact h1

theorem startsWith_some (g : Good syn cx) {i : Nat} {k : Kind} {n : Nat}
    (h : Spec.DelimAt syn cx.source k i n) : startsWith cx i = .ok (some (k, n)) := by
  rcases startsWith_cases g i with ⟨k', n', h1, h2⟩ | ⟨h1, h2⟩
  · obtain ⟨rfl, _, rfl⟩ := AC.Chosen.unique h h2
    exact h1
  · exact absurd (chosen_occurs h) (h2 _ _)

theorem startsWith_none (g : Good syn cx) {i : Nat}
    (h : ∀ k j, ¬ Spec.Occurs syn cx.source k i j) : startsWith cx i = .ok none := by
  rcases startsWith_cases g i with ⟨k', n', h1, h2⟩ | ⟨h1, h2⟩
  · exact absurd (chosen_occurs h2) (h _ _)
  · exact h1

theorem lexWhile_run (p : Char → Bool) : ∀ (r : Str) (j : Nat) (rest : Str), (∀ c ∈ r, p c = true) →
    (∀ c s, rest = c :: s → p c = false) → lexWhile p j (r ++ rest) = j + blen r := by
  intro r
  induction r with
  | nil =>
    intro j rest _ h
    cases rest with
    | nil => simp [lexWhile]
    | cons c s => simp [lexWhile, h c s rfl]
  | cons c r ih =>
    intro j rest h1 h2
    rw [List.cons_append, lexWhile, if_pos (h1 c (by simp)),
      ih _ _ (fun x hx => h1 x (List.mem_cons_of_mem _ hx)) h2]
    simp [Nat.add_assoc]

theorem lexString_run (i : Nat) : ∀ (body : Str) (done : Str) (curr : Char) (j : Nat) (rest : Str),
    (∃ z, '"' :: done = z ++ [curr]) → (∀ c ∈ body, c ≠ '\n' ∧ c ≠ '\r') →
    (∀ x y, '"' :: (done ++ body) = x ++ '"' :: y → x ≠ [] → ∃ z, x = z ++ ['\\']) →
    (∀ x, done ++ body ≠ x ++ ['\\']) →
    lexString cx i curr j (body ++ '"' :: rest) = .ok (.string, j + blen body + 1) := by
  intro body
  induction body with
  | nil =>
    intro done curr j rest hcur _ _ hl
    have hne : curr ≠ '\\' := by
      rintro rfl
      obtain ⟨z, hz⟩ := hcur
      cases z with
      | nil => simp at hz
      | cons a z => simp at hz; exact hl z (by simpa using hz.2)
    simp [lexString, hne]
  | cons c body ih =>
    intro done curr j rest hcur hnl hq hl
    have hc := hnl c (by simp)
    rw [List.cons_append, lexString, if_neg (by rintro (h | h) <;> simp_all)]
    rw [if_neg]
    · rw [ih (done ++ [c]) c (j + c.utf8Size) rest ⟨'"' :: done, by simp⟩
        (fun x hx => hnl x (List.mem_cons_of_mem _ hx)) (by simpa using hq) (by simpa using hl)]
      simp [Nat.add_assoc]
    · rintro ⟨rfl, hne⟩
      obtain ⟨z, hz⟩ := hq ('"' :: done) body (by simp) (by simp)
      obtain ⟨z', hz'⟩ := hcur
      rw [hz] at hz'
      have := (List.append_inj' hz' rfl).2
      simp at this
      exact hne this.symm

/-- The lexer reads the token that stands at the cursor. -/
theorem lexChar_run {bs : BlockState} {i : Nat} {tk : Token} {t rest pre : Str} {c : Char} {s : Str}
    (hsrc : cx.source = pre ++ (t ++ rest)) (hi : blen pre = i) (hc : t ++ rest = c :: s)
    (ht : Spec.TokText cx.env tk t) (hr : Spec.TokStop cx.env tk rest)
    (hf : Spec.TokFits (pathOf bs) tk) :
    lexChar cx bs i c s = .ok (tk, i + blen t) := by
  have word : Spec.Word cx.env t → (∀ c s, rest = c :: s → isIdentChar cx.env c = false) →
      lexChar cx bs i c s = .ok (if t ∈ keywords then .keyword else .ident, i + blen t) := by
    rintro ⟨d, r, rfl, hp, h1, h2⟩ hr
    rw [List.cons_append] at hc
    injection hc with hc1 hc2
    subst hc1 hc2
    simp only [Spec.Punct, List.mem_cons, List.not_mem_nil, or_false, not_or] at hp
    obtain ⟨⟨p1, p2, p3, p4, p5, p6, p7, p8, p9, p10⟩, p11⟩ := hp
    have hb : ¬ isBlank d = true := by simp [isBlank, p9, p10]
    unfold lexChar
    rw [if_neg p1, if_neg p2, if_neg p3, if_neg p4, if_neg p5, if_neg p6, if_neg p7, if_neg p8,
      if_neg p11, if_neg hb, if_pos h1]
    have hj : lexWhile (isIdentChar cx.env) (i + d.utf8Size) (r ++ rest) = i + blen (d :: r) := by
      rw [lexWhile_run _ _ _ _ h2 hr]; simp [Nat.add_assoc]
    have hs : slice cx.source i (i + blen (d :: r)) = some (d :: r) :=
      slice_eq_some.mpr ⟨pre, rest, hsrc, hi, rfl⟩
    simp only [lexIdentOrKeyword, hj, hs, Res.ofOption, Res.ok_bind, Res.pure_eq]
  have digit : ∀ d : Char, isDigit d = true → d ≠ '.' ∧ d ≠ '|' ∧ d ≠ ',' ∧ d ≠ ':' ∧ d ≠ '+' ∧
      d ≠ '-' ∧ d ≠ '?' ∧ d ≠ '"' := by
    intro d hd
    refine ⟨?_, ?_, ?_, ?_, ?_, ?_, ?_, ?_⟩ <;> rintro rfl <;> exact absurd hd (by decide)
  cases tk with
  | dot | pipe | comma | colon | plus | minus =>
    simp only [Spec.TokText] at ht
    subst ht
    simp only [List.cons_append, List.nil_append] at hc
    injection hc with hc1 hc2
    subst hc1
    unfold lexChar
    first
    | exact if_pos rfl
    | (simp; decide)
  | questionDot =>
    simp only [Spec.TokText] at ht
    subst ht
    simp only [List.cons_append, List.nil_append] at hc
    injection hc with hc1 hc2
    subst hc1 hc2
    simp [lexChar, lexQuestionDot]
    decide
  | keyword =>
    obtain ⟨h1, h2⟩ := ht
    rw [word h2 (by rintro d r rfl; exact hr), if_pos h1]
  | ident =>
    obtain ⟨h1, h2⟩ := ht
    rw [word h2 (by rintro d r rfl; exact hr), if_neg h1]
  | whitespace =>
    obtain ⟨h1, h2⟩ := ht
    cases t with
    | nil => exact absurd rfl h1
    | cons d t =>
      rw [List.cons_append] at hc
      injection hc with hc1 hc2
      subst hc1 hc2
      have hw : ∀ x ∈ t, isBlank x = true := by
        intro x hx
        rcases h2 x (List.mem_cons_of_mem _ hx) with rfl | rfl <;> decide
      have hs : ∀ c s, rest = c :: s → isBlank c = false := by
        rintro c s rfl
        simp only [Spec.TokStop] at hr
        simp [isBlank, hr]
      have hl : lexWhile isBlank (i + d.utf8Size) (t ++ rest) = i + blen (d :: t) := by
        rw [lexWhile_run _ _ _ _ hw hs]; simp [Nat.add_assoc]
      rcases h2 d (by simp) with rfl | rfl <;> simp [lexChar, isDigit, isBlank, hl] <;> 
        first | (simpa using hl) | skip
  | index =>
    obtain ⟨h1, h2⟩ := ht
    cases t with
    | nil => exact absurd rfl h1
    | cons d t =>
      rw [List.cons_append] at hc
      injection hc with hc1 hc2
      subst hc1 hc2
      obtain ⟨p1, p2, p3, p4, p5, p6, p7, p8⟩ := digit d (h2 d (by simp))
      have hb : bs = .path := by cases bs <;> simp [Spec.TokFits, pathOf] at hf ⊢
      subst hb
      unfold lexChar
      rw [if_neg p1, if_neg p2, if_neg p3, if_neg p4, if_neg p5, if_neg p6, if_neg p7, if_neg p8,
        if_pos (h2 d (by simp))]
      simp only
      rw [lexWhile_run _ _ _ _ (fun x hx => h2 x (List.mem_cons_of_mem _ hx))
        (by rintro c s rfl; exact hr)]
      simp [Nat.add_assoc]
  | number =>
    obtain ⟨d, t, rfl, h1, h2⟩ := ht
    rw [List.cons_append] at hc
    injection hc with hc1 hc2
    subst hc1 hc2
    obtain ⟨p1, p2, p3, p4, p5, p6, p7, p8⟩ := digit d h1
    have hb : bs = .unknown := by cases bs <;> simp [Spec.TokFits, pathOf] at hf ⊢
    subst hb
    unfold lexChar
    rw [if_neg p1, if_neg p2, if_neg p3, if_neg p4, if_neg p5, if_neg p6, if_neg p7, if_neg p8,
      if_pos h1]
    simp only
    rw [lexWhile_run _ _ _ _ h2 (by rintro c s rfl; exact hr)]
    simp [Nat.add_assoc]
  | string =>
    obtain ⟨body, rfl, h1, h2, h3⟩ := ht
    simp only [List.cons_append, List.append_assoc, List.nil_append] at hc
    injection hc with hc1 hc2
    subst hc1 hc2
    have := lexString_run (cx := cx) i body [] '"' (i + 1) rest ⟨[], rfl⟩ h1 (by simpa using h2)
      (by simpa using h3)
    have hq : '"'.utf8Size = 1 := by decide
    simp [lexChar, this, hq]
    omega
  | _ => simp [Spec.TokText] at ht

theorem lex_at {lx : Lexer} (inv : Inv syn cx lx) (hn : lx.next = none)
    (hlt : lx.cursor < blen cx.source) :
    lex cx lx = match lx.state with
      | .template => lexTemplate cx lx lx.cursor
      | .block b e => lexBlock cx lx .unknown b e lx.cursor
      | .blockPath b e => lexBlock cx lx .path b e lx.cursor
      | .comment b e => lexComment cx lx b e lx.cursor := by
  obtain ⟨pre, post, e1, h1⟩ := inv.bnd
  have hdrop : dropB cx.source lx.cursor = some post := dropB_eq_some.mpr ⟨pre, e1, h1⟩
  cases post with
  | nil => rw [e1] at hlt; simp at hlt; omega
  | cons c rest => simp only [lex, hn, hdrop, Res.ofOption, Res.ok_bind]; rfl

theorem lex_inv (g : Good syn cx) {lx lx' : Lexer} {t : Token × Span} (inv : Inv syn cx lx)
    (h : lex cx lx = .ok (some t, lx')) : Step syn cx lx t lx' ∧ Inv syn cx lx' := by
  rcases lex_cases g inv with ⟨h1, _⟩ | ⟨e, h1⟩ | ⟨t', l, h1, h2, h3⟩
  · rw [h] at h1; simp at h1
  · rw [h] at h1; simp at h1
  · rw [h] at h1
    simp at h1
    obtain ⟨rfl, rfl⟩ := h1
    exact ⟨h2, h3⟩

theorem nextLoop_fuel (g : Good syn cx) : ∀ (n m : Nat) (lx : Lexer), Inv syn cx lx →
    left cx lx < n → left cx lx < m → nextLoop cx n lx = nextLoop cx m lx := by
  intro n
  induction n with
  | zero => intro m lx _ h; omega
  | succ n ih =>
    intro m lx inv h1 h2
    cases m with
    | zero => omega
    | succ m =>
      simp only [nextLoop]
      rcases lex_cases g inv with ⟨h, _⟩ | ⟨e, h⟩ | ⟨t', l, h, h3, h4⟩
      · simp [h]
      · simp [h]
      · have := h3.left_lt g
        simp only [h, Res.ok_bind]
        obtain ⟨tk, sp⟩ := t'
        simp only
        split
        · exact ih m l h4 (by omega) (by omega)
        · rfl

theorem nextToken_lex {lx lx' : Lexer} {t : Token × Span} (h : lex cx lx = .ok (some t, lx'))
    (hw : t.1 ≠ .whitespace) : nextToken cx lx = .ok (some t, lx') := by
  obtain ⟨tk, sp⟩ := t
  simp [nextToken, nextLoop, h, hw]

theorem nextToken_blank (g : Good syn cx) {lx lx' : Lexer} {sp : Span} (inv : Inv syn cx lx)
    (h : lex cx lx = .ok (some (.whitespace, sp), lx')) : nextToken cx lx = nextToken cx lx' := by
  obtain ⟨h1, h2⟩ := lex_inv g inv h
  have h3 := h1.left_lt g
  have h4 := left_le g lx inv
  have h5 : nextToken cx lx = nextLoop cx (blen cx.source) lx' := by
    simp only [nextToken, nextLoop, h, Res.ok_bind, if_true]
  rw [h5]
  exact nextLoop_fuel g _ _ _ h2 (by omega) (by omega)

/-- The lexer reads these tokens and then reaches the end. -/
def Reads (cx : LexCx) (lx : Lexer) (ts : List (Token × Span)) : Prop :=
  ∃ lx' fin, Spec.Lexes cx lx ts lx' ∧ nextToken cx lx' = .ok (none, fin)

theorem Reads.cons {lx lx' : Lexer} {t : Token × Span} {ts : List (Token × Span)}
    (h : lex cx lx = .ok (some t, lx')) (hw : t.1 ≠ .whitespace) (r : Reads cx lx' ts) :
    Reads cx lx (t :: ts) := by
  obtain ⟨l, f, h1, h2⟩ := r
  exact ⟨l, f, .some (nextToken_lex h hw) h1, h2⟩

theorem Reads.blank (g : Good syn cx) {lx lx' : Lexer} {sp : Span} {ts : List (Token × Span)}
    (inv : Inv syn cx lx) (h : lex cx lx = .ok (some (.whitespace, sp), lx')) (r : Reads cx lx' ts) :
    Reads cx lx ts := by
  obtain ⟨l, f, h1, h2⟩ := r
  have hb := nextToken_blank g inv h
  cases h1 with
  | none => exact ⟨lx, f, .none, by rw [hb]; exact h2⟩
  | some h3 h4 => exact ⟨l, f, .some (by rw [hb]; exact h3) h4, h2⟩

theorem modeOf_text {lx : Lexer} {l : Bool} (h : modeOf lx = .text l) :
    lx.state = .template ∧ lx.leftTrim = l := by
  cases hs : lx.state <;> simp [modeOf, hs] at h ⊢
  exact h

theorem modeOf_tag {lx : Lexer} {c : Token} {p : Bool} (h : modeOf lx = .tag c p) :
    ∃ bs b, lx.state = blockOf bs b c ∧ pathOf bs = p := by
  cases hs : lx.state with
  | template => simp [modeOf, hs] at h
  | comment => simp [modeOf, hs] at h
  | block b e => simp [modeOf, hs] at h; obtain ⟨rfl, rfl⟩ := h; exact ⟨.unknown, b, rfl, rfl⟩
  | blockPath b e => simp [modeOf, hs] at h; obtain ⟨rfl, rfl⟩ := h; exact ⟨.path, b, rfl, rfl⟩

theorem modeOf_comment {lx : Lexer} (h : modeOf lx = .comment) : ∃ b e, lx.state = .comment b e := by
  cases hs : lx.state with
  | template => simp [modeOf, hs] at h
  | comment b e => exact ⟨b, e, rfl⟩
  | block b e => simp [modeOf, hs] at h
  | blockPath b e => simp [modeOf, hs] at h

theorem occurs_cursor_lt (g : Good syn cx) {k : Kind} {i j n : Nat} (h : Spec.Occurs syn cx.source k j n)
    (hi : i ≤ j) : i < blen cx.source := by
  have h1 := occurs_lt g.nonEmpty h
  have h2 := (occurs_boundary h).2.le
  omega

theorem lex_block (g : Good syn cx) {lx : Lexer} (inv : Inv syn cx lx) (hn : lx.next = none)
    {bs : BlockState} {b : Span} {c : Token} (hst : lx.state = blockOf bs b c)
    (hlt : lx.cursor < blen cx.source) : lex cx lx = lexBlock cx lx bs b c lx.cursor := by
  rw [lex_at inv hn hlt, hst]
  cases bs <;> rfl

/-- The token at the cursor inside a tag. -/
theorem lex_inner (g : Good syn cx) {lx : Lexer} (inv : Inv syn cx lx) (hn : lx.next = none)
    {bs : BlockState} {b : Span} {c : Token} (hst : lx.state = blockOf bs b c)
    (free : ∀ k j, ¬ Spec.Occurs syn cx.source k lx.cursor j) {tk : Token} {t : Str}
    (h : Spec.TokAt cx.env cx.source (pathOf bs) lx.cursor tk t) :
    lex cx lx = .ok (some (tk, ⟨lx.cursor, lx.cursor + blen t⟩),
      { lx with cursor := lx.cursor + blen t, state := nextBlock bs tk b c }) := by
  obtain ⟨rest, h1, h2, h3, h4⟩ := h
  obtain ⟨pre, e, hp⟩ := dropB_eq_some.mp h1
  have hlt : lx.cursor < blen cx.source := by
    have : t ≠ [] := by
      rintro rfl
      cases tk <;> simp [Spec.TokText, Spec.Word, keywords] at h2
    have := blen_pos this
    rw [e]; simp; omega
  rw [lex_block g inv hn hst hlt]
  cases ht : t ++ rest with
  | nil => rw [e, ht] at hlt; simp at hlt; omega
  | cons d s =>
    have hc := lexChar_run (bs := bs) (cx := cx) e hp ht h2 h3 h4
    simp only [lexBlock, startsWith_none g free, Res.ok_bind, h1, ht, Res.ofOption, hc, Res.pure_eq]
    obtain ⟨c0, st0, l0, n0⟩ := lx
    simp only at hst
    subst hst
    cases bs <;> cases tk <;> rfl

theorem not_begin_of_close {k : Kind} {c : Token} (h : Spec.tokenOf k = c)
    (hc : c = .endExpr ∨ c = .endBlock ∨ c = .endComment) :
    Token.fromKind k = (c, Spec.isTrim k) ∧ c.isBeginTag = false := by
  refine ⟨by rw [fromKind_eq, h], ?_⟩
  rcases hc with rfl | rfl | rfl <;> rfl

theorem opening_token {k : Kind} (h : Spec.isEnd k = false) :
    (Spec.tokenOf k).isBeginTag = true := by
  rw [isEnd_eq] at h; simpa using h

theorem Layout.reads (g : Good syn cx) {m : Spec.Mode} {i : Nat} {ts : List (Token × Span)}
    (h : Spec.Layout syn cx.env cx.source m i ts) : ∀ lx : Lexer, Inv syn cx lx → lx.next = none →
      lx.cursor = i → modeOf lx = m → Reads cx lx ts := by
  induction h with
  | done =>
    intro lx inv hn hc hm
    refine ⟨lx, lx, .none, ?_⟩
    obtain ⟨pre, post, e1, h1⟩ := inv.bnd
    have hdrop : dropB cx.source lx.cursor = some post := dropB_eq_some.mpr ⟨pre, e1, h1⟩
    have : post = [] := by
      have := congrArg blen e1
      simp at this
      exact blen_eq_zero.mp (by omega)
    simp [nextToken, nextLoop, lex, hn, hdrop, this, Res.ofOption]
  | @textEnd l i t a u free text ne trim =>
    intro lx inv hn hc hm
    subst hc
    obtain ⟨hst, hl⟩ := modeOf_text hm
    subst hl
    have hlt : lx.cursor < blen cx.source := by
      obtain ⟨_, _, _, _, h⟩ := slice_eq_some.mp text
      have := blen_pos ne
      omega
    obtain ⟨a', u', b', h1, h2⟩ := trimRawToken_spec (cx := cx)
          { lx with cursor := blen cx.source } (rt := false) text nofun
    obtain ⟨rfl, rfl, rfl⟩ := Trimmed.unique trim h1
    have hlex : lex cx lx = .ok (some (.raw, ⟨lx.cursor + blen a, lx.cursor + blen a + blen u⟩),
        { lx with cursor := blen cx.source, leftTrim := false }) := by
      rw [lex_at inv hn hlt, hst]
      simp only [lexTemplate, findAt_none g free, Res.ok_bind, h2]
      simp [hst]
    refine Reads.cons hlex (by simp) ?_
    refine ⟨_, { lx with cursor := blen cx.source, leftTrim := false }, .none, ?_⟩
    have hdrop : dropB cx.source (blen cx.source) = some [] :=
        dropB_eq_some.mpr ⟨cx.source, by simp, rfl⟩
    simp [nextToken, nextLoop, lex, hn, hdrop, Res.ofOption]
  | @textTag l i k j n t a u b rest next opening text ne trim tail ih =>
    intro lx inv hn hc hm
    subst hc
    obtain ⟨hst, hl⟩ := modeOf_text hm
    subst hl
    have hocc := chosen_occurs next
    have hlt := occurs_cursor_lt g hocc next.after
    have hij : lx.cursor ≠ j := by
      obtain ⟨_, _, _, _, h⟩ := slice_eq_some.mp text
      have := blen_pos ne
      omega
    have hb := opening_token opening
    obtain ⟨e, hp⟩ := fromKind_pair (fromKind_eq k)
    obtain ⟨a', u', b', h1, h2⟩ := trimRawToken_spec (cx := cx)
      { lx with cursor := n, state := enter (Spec.tokenOf k) ⟨j, n⟩ e, next := some (Spec.tokenOf k, ⟨j, n⟩) }
      (rt := Spec.isTrim k) text
      (nw_of_begin g (inv.tmpl hst hlt) hocc (fromKind_eq k) hb text (by have := next.after; omega))
    obtain ⟨rfl, rfl, rfl⟩ := Trimmed.unique trim h1
    have hlex : lex cx lx = .ok (some (.raw, ⟨lx.cursor + blen a, lx.cursor + blen a + blen u⟩),
        ⟨n, enter (Spec.tokenOf k) ⟨j, n⟩ e, false, some (Spec.tokenOf k, ⟨j, n⟩)⟩) := by
      rw [lex_at inv hn hlt, hst]
      simp only [enter] at h2
      simp [lexTemplate, findAt_some g next, fromKind_eq, hb, hp, Res.ofOption, hij, enter, h2]
    obtain ⟨_, inv1⟩ := lex_inv g inv hlex
    have hlex2 : lex cx ⟨n, enter (Spec.tokenOf k) ⟨j, n⟩ e, false, some (Spec.tokenOf k, ⟨j, n⟩)⟩ =
        .ok (some (Spec.tokenOf k, ⟨j, n⟩), ⟨n, enter (Spec.tokenOf k) ⟨j, n⟩ e, false, none⟩) := by
      simp [lex]
    obtain ⟨_, inv2⟩ := lex_inv g inv1 hlex2
    refine Reads.cons hlex (by simp) (Reads.cons hlex2 (tokenOf_ne k).1 ?_)
    exact ih _ inv2 rfl rfl (inside_enter (fromKind_eq k) hb hp _ _ _ _)
  | @tag l i k n rest next opening tail ih =>
    intro lx inv hn hc hm
    subst hc
    obtain ⟨hst, hl⟩ := modeOf_text hm
    have hocc := chosen_occurs next
    have hlt := occurs_cursor_lt g hocc (Nat.le_refl _)
    have hb := opening_token opening
    obtain ⟨e, hp⟩ := fromKind_pair (fromKind_eq k)
    have hlex : lex cx lx = .ok (some (Spec.tokenOf k, ⟨lx.cursor, n⟩),
        { lx with cursor := n, state := enter (Spec.tokenOf k) ⟨lx.cursor, n⟩ e }) := by
      rw [lex_at inv hn hlt, hst]
      simp [lexTemplate, findAt_some g next, fromKind_eq, hb, hp, Res.ofOption, enter]
    obtain ⟨_, inv1⟩ := lex_inv g inv hlex
    refine Reads.cons hlex (tokenOf_ne k).1 ?_
    exact ih _ inv1 hn rfl (inside_enter (fromKind_eq k) hb hp _ _ _ _)
  | @blank c p i t rest free text tail ih =>
    intro lx inv hn hc hm
    subst hc
    obtain ⟨bs, b, hst, rfl⟩ := modeOf_tag hm
    have hlex := lex_inner g inv hn hst free text
    obtain ⟨_, inv1⟩ := lex_inv g inv hlex
    refine Reads.blank g inv hlex (ih _ inv1 hn rfl ?_)
    rw [modeOf_nextBlock]; rfl
  | @token c p i tk t rest free text real tail ih =>
    intro lx inv hn hc hm
    subst hc
    obtain ⟨bs, b, hst, rfl⟩ := modeOf_tag hm
    have hlex := lex_inner g inv hn hst free text
    obtain ⟨_, inv1⟩ := lex_inv g inv hlex
    exact Reads.cons hlex real (ih _ inv1 hn rfl modeOf_nextBlock)
  | @close c p i k n rest next same tail ih =>
    intro lx inv hn hc hm
    subst hc
    obtain ⟨bs, b, hst, rfl⟩ := modeOf_tag hm
    have hlt := occurs_cursor_lt g (chosen_occurs next) (Nat.le_refl _)
    have he := (inv.blk b c (by cases bs <;> simp [hst, blockOf])).2
    obtain ⟨hk, hb⟩ := not_begin_of_close same (by tauto)
    have hlex : lex cx lx = .ok (some (c, ⟨lx.cursor, n⟩), ⟨n, .template, Spec.isTrim k, none⟩) := by
      rw [lex_block g inv hn hst hlt]
      simp only [lexBlock, startsWith_some g next, Res.ok_bind, hk, hb, Bool.false_eq_true, if_false,
        ne_eq, not_true_eq_false, Res.pure_eq]
      rcases he with rfl | rfl <;> cases bs <;> simp [hn]
    obtain ⟨_, inv1⟩ := lex_inv g inv hlex
    refine Reads.cons hlex ?_ (ih _ inv1 rfl rfl rfl)
    rcases he with rfl | rfl <;> simp
  | @comment i k j n rest next closing ne tail ih =>
    intro lx inv hn hc hm
    subst hc
    obtain ⟨b, e, hst⟩ := modeOf_comment hm
    have he := (inv.cmt _ _ hst).2
    subst he
    have hlt := occurs_cursor_lt g (chosen_occurs next) next.after
    obtain ⟨hk, hb⟩ := not_begin_of_close closing (by simp)
    have hlex : lex cx lx = .ok (some (.raw, ⟨lx.cursor, j⟩),
        ⟨n, .template, Spec.isTrim k, some (.endComment, ⟨j, n⟩)⟩) := by
      rw [lex_at inv hn hlt, hst]
      have : lx.cursor ≠ j := by omega
      simp [lexComment, findAt_some g next, hk, hb, this]
    obtain ⟨_, inv1⟩ := lex_inv g inv hlex
    have hlex2 : lex cx ⟨n, .template, Spec.isTrim k, some (.endComment, ⟨j, n⟩)⟩ =
        .ok (some (.endComment, ⟨j, n⟩), ⟨n, .template, Spec.isTrim k, none⟩) := by simp [lex]
    obtain ⟨_, inv2⟩ := lex_inv g inv1 hlex2
    exact Reads.cons hlex (by simp) (Reads.cons hlex2 (by simp) (ih _ inv2 rfl rfl rfl))
  | @emptyComment i k n rest next closing tail ih =>
    intro lx inv hn hc hm
    subst hc
    obtain ⟨b, e, hst⟩ := modeOf_comment hm
    have he := (inv.cmt _ _ hst).2
    subst he
    have hlt := occurs_cursor_lt g (chosen_occurs next) (Nat.le_refl _)
    obtain ⟨hk, hb⟩ := not_begin_of_close closing (by simp)
    have hlex : lex cx lx = .ok (some (.endComment, ⟨lx.cursor, n⟩),
        ⟨n, .template, Spec.isTrim k, none⟩) := by
      rw [lex_at inv hn hlt, hst]
      simp [lexComment, findAt_some g next, hk, hb, hn]
    obtain ⟨_, inv1⟩ := lex_inv g inv hlex
    exact Reads.cons hlex (by simp) (ih _ inv1 rfl rfl rfl)

/-- Tags are closed by the end of an expression or block. -/
def okMode : Spec.Mode → Prop
  | .tag c _ => c = .endExpr ∨ c = .endBlock
  | _ => True

theorem okMode_inside (k : Kind) : okMode (Spec.inside k) := by cases k <;> simp [Spec.inside, okMode]

theorem inside_text (k : Kind) (l : Bool) : Spec.inside k ≠ .text l := by cases k <;> simp [Spec.inside]

theorem closed_other {t : Token × Span} {ts : List (Token × Span)} (hb : Spec.isBeginTag t.1 = false)
    (hc : Spec.Closed ts) : Spec.Closed (t :: ts) := by
  intro xs t' ys e hb'
  cases xs with
  | nil => simp at e; obtain ⟨rfl, rfl⟩ := e; rw [hb] at hb'; cases hb'
  | cons x xs => simp at e; exact hc xs t' ys e.2 hb'

theorem closed_begin {t : Token × Span} {ts : List (Token × Span)}
    (hy : ∃ y ∈ ts, Spec.isEndTag y.1 = true) (hc : Spec.Closed ts) : Spec.Closed (t :: ts) := by
  intro xs t' ys e hb'
  cases xs with
  | nil => simp at e; obtain ⟨rfl, rfl⟩ := e; exact hy
  | cons x xs => simp at e; exact hc xs t' ys e.2 hb'

theorem closed_nil : Spec.Closed [] := by intro xs t ys e; simp at e

/-- In a layout every tag is closed. -/
theorem Layout.closed {env : Env} {src : Str} {m : Spec.Mode} {i : Nat} {ts : List (Token × Span)}
    (h : Spec.Layout syn env src m i ts) (hm : okMode m) :
    Spec.Closed ts ∧ ((∃ l, m = .text l) ∨ ∃ y ∈ ts, Spec.isEndTag y.1 = true) := by
  induction h with
  | done => exact ⟨closed_nil, Or.inl ⟨_, rfl⟩⟩
  | textEnd => exact ⟨closed_other rfl closed_nil, Or.inl ⟨_, rfl⟩⟩
  | @textTag l i k j n t a u b rest _ _ _ _ _ _ ih =>
    obtain ⟨h1, h2⟩ := ih (okMode_inside k)
    rcases h2 with ⟨l, h2⟩ | h2
    · exact absurd h2 (inside_text _ _)
    · exact ⟨closed_other rfl (closed_begin h2 h1), Or.inl ⟨_, rfl⟩⟩
  | @tag l i k n rest _ _ _ ih =>
    obtain ⟨h1, h2⟩ := ih (okMode_inside k)
    rcases h2 with ⟨l, h2⟩ | h2
    · exact absurd h2 (inside_text _ _)
    · exact ⟨closed_begin h2 h1, Or.inl ⟨_, rfl⟩⟩
  | blank _ _ _ ih => exact ih hm
  | @token c p i tk t rest _ text real tail ih =>
    obtain ⟨_, _, ht, _⟩ := text
    obtain ⟨hb, he⟩ := tokText_not_tag ht
    obtain ⟨h1, h2⟩ := ih hm
    refine ⟨closed_other hb h1, Or.inr ?_⟩
    rcases h2 with ⟨l, h2⟩ | ⟨y, h2, h3⟩
    · cases h2
    · exact ⟨y, List.mem_cons_of_mem _ h2, h3⟩
  | @close c p i k n rest _ same tail ih =>
    obtain ⟨h1, h2⟩ := ih trivial
    refine ⟨closed_other ?_ h1, Or.inr ⟨_, List.mem_cons_self .., ?_⟩⟩ <;>
      rcases hm with rfl | rfl <;> rfl
  | @comment i k j n rest _ closing _ tail ih =>
    obtain ⟨h1, h2⟩ := ih trivial
    exact ⟨closed_other rfl (closed_other rfl h1), Or.inr ⟨(.endComment, ⟨j, n⟩), by simp, rfl⟩⟩
  | @emptyComment i k n rest _ closing tail ih =>
    obtain ⟨h1, h2⟩ := ih trivial
    exact ⟨closed_other rfl h1, Or.inr ⟨_, List.mem_cons_self .., rfl⟩⟩

/-- The lexer reads the tokens of a text, with every tag closed, exactly when the text is laid out
as specified. -/
theorem tokens_iff (g : Good syn cx) (ts : List (Token × Span)) :
    (Spec.Tokens cx ts ∧ Spec.Closed ts) ↔ Spec.Layout syn cx.env cx.source (.text false) 0 ts := by
  constructor
  · rintro ⟨⟨lx, h1, fin, h2⟩, hc⟩
    have r := Lexes.run g h1 (Inv.new syn cx) h2
    have := r.closed_template g hc
    exact (r.layout g (Inv.new syn cx) this).1 rfl
  · intro h
    obtain ⟨lx', fin, h1, h2⟩ := Layout.reads g h Lexer.new (Inv.new syn cx) rfl rfl rfl
    exact ⟨⟨lx', h1, fin, h2⟩, (Layout.closed h trivial).1⟩

/-- What stands before a text: nothing, or a closing delimiter. -/
def Before (syn : Syn) (src : Str) (i : Nat) (l : Bool) : Prop :=
  (i = 0 ∧ l = false) ∨
    ∃ k i', Spec.isEnd k = true ∧ Spec.DelimAt syn src k i' i ∧ l = Spec.isTrim k

/-- What stands after a text: nothing, or an opening delimiter. -/
def After (syn : Syn) (src : Str) (j : Nat) (r : Bool) : Prop :=
  (j = blen src ∧ r = false) ∨
    ∃ k j', Spec.isEnd k = false ∧ Spec.DelimAt syn src k j j' ∧ r = Spec.isTrim k

theorem getLast_cons {α : Type} {a c : α} {xs : List α} (h : xs.getLast? = some c) :
    (a :: xs).getLast? = some c := by
  cases xs with
  | nil => simp at h
  | cons y ys => simpa using h

theorem inside_comment {k : Kind} (h1 : Spec.isEnd k = false) (h2 : Spec.inside k = .comment) :
    Spec.tokenOf k = .beginComment := by
  cases k <;> simp [Spec.inside, Spec.tokenOf, Spec.isEnd] at *

theorem isEnd_of {k : Kind} {c : Token} (h : Spec.tokenOf k = c)
    (hc : c = .endExpr ∨ c = .endBlock ∨ c = .endComment) : Spec.isEnd k = true := by
  rcases hc with rfl | rfl | rfl <;> cases k <;> simp [Spec.tokenOf, Spec.isEnd] at *

theorem before_of (syn : Syn) (src : Str) {k : Kind} {i n : Nat} (he : Spec.isEnd k = true)
    (h : Spec.DelimAt syn src k i n) : ∀ l, Spec.Mode.text (Spec.isTrim k) = .text l → Before syn src n l := by
  intro l hl
  injection hl with hl
  subst hl
  exact Or.inr ⟨k, i, he, h, rfl⟩

/-- Where a raw token outside of comments comes from. -/
theorem Layout.raw {env : Env} {src : Str} {sp : Span} {m : Spec.Mode} {i : Nat} {ts : List (Token × Span)}
    (h : Spec.Layout syn env src m i ts) (hp : ∀ l, m = .text l → Before syn src i l) (hm : okMode m) :
    ∀ xs ys, ts = xs ++ (.raw, sp) :: ys → (m = .comment → xs ≠ []) →
      (∀ c, xs.getLast? = some c → c.1 ≠ .beginComment) →
    ∃ i j l r t a u b', slice src i j = some t ∧ Spec.Trimmed l r t a u b' ∧
      slice src sp.m sp.n = some u ∧ Before syn src i l ∧ After syn src j r := by
  induction h with
  | done => intro xs ys e; simp at e
  | @textEnd l i t a u free text ne trim =>
    intro xs ys e _ _
    cases xs with
    | nil =>
      simp at e
      obtain ⟨rfl, rfl⟩ := e
      exact ⟨i, _, l, false, t, a, u, [], text, trim, (trimmed_slice text trim).1, hp l rfl, Or.inl ⟨rfl, rfl⟩⟩
    | cons x xs => simp at e
  | @textTag l i k j n t a u b' rest next opening text ne trim tail ih =>
    intro xs ys e _ ho
    cases xs with
    | nil =>
      simp at e
      obtain ⟨rfl, rfl⟩ := e
      exact ⟨i, j, l, _, t, a, u, b', text, trim, (trimmed_slice text trim).1, hp l rfl,
        Or.inr ⟨k, n, opening, chosen_delimAt next, rfl⟩⟩
    | cons x xs =>
      simp only [List.cons_append, List.cons.injEq] at e
      obtain ⟨e1, e2⟩ := e
      cases xs with
      | nil =>
        simp at e2
        exact absurd e2.1.1 (tokenOf_ne k).2
      | cons x' xs =>
        simp only [List.cons_append, List.cons.injEq] at e2
        obtain ⟨e2, e3⟩ := e2
        refine ih (fun l hm => absurd hm (inside_text k l)) (okMode_inside k) xs ys e3 ?_ ?_
        · rintro hm rfl
          refine ho x' (by simp) ?_
          rw [← e2]; exact inside_comment opening hm
        · intro c hc; exact ho c (getLast_cons (getLast_cons hc))
  | @tag l i k n rest next opening tail ih =>
    intro xs ys e _ ho
    cases xs with
    | nil =>
      simp at e
      exact absurd e.1.1 (tokenOf_ne k).2
    | cons x xs =>
      simp only [List.cons_append, List.cons.injEq] at e
      obtain ⟨e1, e2⟩ := e
      refine ih (fun l hm => absurd hm (inside_text k l)) (okMode_inside k) xs ys e2 ?_ ?_
      · rintro hm rfl
        refine ho x (by simp) ?_
        rw [← e1]; exact inside_comment opening hm
      · intro c hc; exact ho c (getLast_cons hc)
  | blank _ _ _ ih =>
    intro xs ys e _ ho
    exact ih (by intro l hm; cases hm) hm xs ys e (by intro hm; cases hm) ho
  | @token c p i tk t rest free text real tail ih =>
    intro xs ys e _ ho
    cases xs with
    | nil =>
      simp at e
      obtain ⟨_, _, ht, _⟩ := text
      rw [e.1.1] at ht
      exact ht.elim
    | cons x xs =>
      simp only [List.cons_append, List.cons.injEq] at e
      exact ih (by intro l hm; cases hm) hm xs ys e.2
        (by intro hm; cases hm) (fun c hc => ho c (getLast_cons hc))
  | @close c p i k n rest next same tail ih =>
    intro xs ys e _ ho
    cases xs with
    | nil =>
      simp at e
      rcases hm with rfl | rfl <;> simp at e
    | cons x xs =>
      simp only [List.cons_append, List.cons.injEq] at e
      refine ih (before_of _ _ (isEnd_of same (hm.elim Or.inl fun h => Or.inr (Or.inl h))) next) trivial xs ys e.2
        (by intro hm; cases hm) (fun c hc => ho c (getLast_cons hc))
  | @comment i k j n rest next closing ne tail ih =>
    intro xs ys e hx ho
    cases xs with
    | nil => exact absurd rfl (hx rfl)
    | cons x xs =>
      simp only [List.cons_append, List.cons.injEq] at e
      obtain ⟨e1, e2⟩ := e
      cases xs with
      | nil => simp at e2
      | cons x' xs =>
        simp only [List.cons_append, List.cons.injEq] at e2
        exact ih (before_of _ _ (isEnd_of closing (Or.inr (Or.inr rfl))) (chosen_delimAt next)) trivial xs ys e2.2
          (by intro hm; cases hm) (fun c hc => ho c (getLast_cons (getLast_cons hc)))
  | @emptyComment i k n rest next closing tail ih =>
    intro xs ys e hx ho
    cases xs with
    | nil => exact absurd rfl (hx rfl)
    | cons x xs =>
      simp only [List.cons_append, List.cons.injEq] at e
      exact ih (before_of _ _ (isEnd_of closing (Or.inr (Or.inr rfl))) next) trivial xs ys e.2
        (by intro hm; cases hm) (fun c hc => ho c (getLast_cons hc))

end Lexer
end Upon
