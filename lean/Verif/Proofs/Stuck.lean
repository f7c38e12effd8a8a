import Verif.Spec.Stuck
import Verif.Proofs.LexComplete
import Verif.Proofs.DiagBase
/-
Where the lexer fails (for C52).
-/
namespace Upon
open Spec
namespace Lexer
variable {syn : Syn} {cx : LexCx}

theorem errSyntax_of {α : Type} {m : String} {sp : Span} {e : Err} (h : Reports cx m sp e) :
    (errSyntax cx.env m cx.source sp : Res α) = .err e := by
  obtain ⟨p, hp, rfl⟩ := h
  simp only [errSyntax, throwAt, hp]

/-- String literals that are not closed. -/
theorem lexString_err (i : Nat) {e : Err} :
    ∀ (rest : Str) (done : Str) (curr : Char) (j : Nat), blen cx.source = j + blen rest →
    (∃ z, '"' :: done = z ++ [curr]) →
    (∀ x y, '"' :: done = x ++ '"' :: y → x ≠ [] → ∃ z, x = z ++ ['\\']) →
    lexString cx i curr j rest = .err e →
    ∃ a b, rest = a ++ b ∧ (∀ c ∈ a, c ≠ '\n' ∧ c ≠ '\r') ∧ (∀ x r, b = x :: r → x = '\n' ∨ x = '\r') ∧
      (∀ x y, '"' :: (done ++ a) = x ++ '"' :: y → x ≠ [] → ∃ z, x = z ++ ['\\']) ∧
      Reports cx "undelimited string" ⟨i, j + blen a⟩ e := by
  intro rest
  induction rest with
  | nil =>
    intro done curr j hl hcur hq h
    refine ⟨[], [], rfl, by simp, by simp, by simpa using hq, ?_⟩
    rw [lexString] at h
    have := Diag.reports h
    rw [hl] at this; exact this
  | cons c rest ih =>
    intro done curr j hl hcur hq h
    rw [lexString] at h
    by_cases hc : c = '\r' ∨ c = '\n'
    · rw [if_pos hc] at h
      refine ⟨[], c :: rest, rfl, by simp, ?_, by simpa using hq, by simpa using Diag.reports h⟩
      intro x r hx; injection hx with hx _; subst hx; exact hc.symm
    rw [if_neg hc] at h
    by_cases hq2 : c = '"' ∧ curr ≠ '\\'
    · rw [if_pos hq2] at h; cases h
    rw [if_neg hq2] at h
    simp only [not_or] at hc
    obtain ⟨a, b, rfl, h1, h2, h3, h4⟩ := ih (done ++ [c]) c (j + c.utf8Size) (by rw [hl]; simp [Nat.add_assoc]) ⟨'"' :: done, by simp⟩
      (by
        intro x y e hx
        have e' : ('"' :: done) ++ [c] = x ++ '"' :: y := by simpa using e
        rcases List.eq_nil_or_concat y with rfl | ⟨y', d, rfl⟩
        · have e2 := List.append_inj' e' rfl
          have hc' : c = '"' := by simpa using e2.2
          obtain ⟨z, hz⟩ := hcur
          have : curr = '\\' := by
            apply Classical.byContradiction
            intro hne
            exact hq2 ⟨hc', hne⟩
          exact ⟨z, by rw [← e2.1, hz, this]⟩
        · have e3 : ('"' :: done) ++ [c] = (x ++ '"' :: y') ++ [d] := by simpa using e'
          exact hq x y' (List.append_inj' e3 rfl).1 hx) h
    refine ⟨c :: a, b, rfl, ?_, h2, by simpa using h3, by simpa [Nat.add_assoc] using h4⟩
    intro x hx
    rcases List.mem_cons.mp hx with rfl | hx
    · exact ⟨hc.2, hc.1⟩
    · exact h1 x hx

theorem lexString_stuck (i : Nat) : ∀ (body : Str) (done : Str) (curr : Char) (j : Nat) (rest : Str),
    blen cx.source = j + blen (body ++ rest) →
    (∃ z, '"' :: done = z ++ [curr]) → (∀ c ∈ body, c ≠ '\n' ∧ c ≠ '\r') →
    (∀ x y, '"' :: (done ++ body) = x ++ '"' :: y → x ≠ [] → ∃ z, x = z ++ ['\\']) →
    (∀ x r, rest = x :: r → x = '\n' ∨ x = '\r') →
    lexString cx i curr j (body ++ rest) = errUndelimitedString cx i (j + blen body) := by
  intro body
  induction body with
  | nil =>
    intro done curr j rest hl _ _ _ hr
    cases rest with
    | nil => simp only [List.append_nil, lexString]; rw [hl]; simp
    | cons x r =>
      simp only [List.nil_append, lexString]
      rw [if_pos (hr x r rfl).symm]; simp
  | cons c body ih =>
    intro done curr j rest hl hcur hnl hq hr
    simp only [List.cons_append, lexString]
    have hc := hnl c (by simp)
    rw [if_neg (by rintro (h | h); exacts [hc.2 h, hc.1 h])]
    rw [if_neg]
    · rw [ih (done ++ [c]) c _ rest (by rw [hl]; simp [Nat.add_assoc]) ⟨'"' :: done, by simp⟩ (fun x hx => hnl x (List.mem_cons_of_mem _ hx))
        (by simpa using hq) hr]
      simp [Nat.add_assoc]
    · rintro ⟨rfl, hne⟩
      obtain ⟨z, hz⟩ := hq ('"' :: done) body (by simp) (by simp)
      obtain ⟨z', hz'⟩ := hcur
      rw [hz'] at hz
      have := (List.append_inj' hz rfl).2
      simp at this
      exact hne this

/-- The span of the open tag. -/
def openOf (lx : Lexer) : Option Span :=
  match lx.state with
  | .template => none
  | .block b _ | .blockPath b _ | .comment b _ => some b

theorem openOf_block {lx : Lexer} {bs : BlockState} {b : Span} {e : Token} (h : lx.state = blockOf bs b e) : openOf lx = some b := by
  simp only [openOf, h]; cases bs <;> rfl

theorem not_punct {c : Char} (h1 : c ≠ '.') (h2 : c ≠ '|') (h3 : c ≠ ',') (h4 : c ≠ ':') (h5 : c ≠ '+') (h6 : c ≠ '-') (h7 : c ≠ '?')
    (h8 : c ≠ '"') (h9 : ¬ isDigit c = true) (h10 : ¬ isBlank c = true) : ¬ Punct c := by
  rintro (hp | hp)
  · simp at hp
    simp [isBlank] at h10
    tauto
  · exact h9 hp

/-- Inside a tag, where no delimiter starts. -/
theorem lexChar_err {bs : BlockState} {i : Nat} {c : Char} {rest : Str} {e : Err} {cl : Token} {b : Option Span}
    (hd : dropB cx.source i = some (c :: rest)) (free : ∀ k j, ¬ Occurs syn cx.source k i j)
    (h : lexChar cx bs i c rest = .err e) :
    ∃ m sp, Stuck syn cx.env cx.source b i (.tag cl (pathOf bs)) m sp ∧ Reports cx m sp e := by
  obtain ⟨pre, hs, hi⟩ := dropB_eq_some.mp hd
  unfold lexChar at h
  by_cases h1 : c = '.'
  · rw [if_pos h1] at h; cases h
  rw [if_neg h1] at h
  by_cases h2 : c = '|'
  · rw [if_pos h2] at h; cases h
  rw [if_neg h2] at h
  by_cases h3 : c = ','
  · rw [if_pos h3] at h; cases h
  rw [if_neg h3] at h
  by_cases h4 : c = ':'
  · rw [if_pos h4] at h; cases h
  rw [if_neg h4] at h
  by_cases h5 : c = '+'
  · rw [if_pos h5] at h; cases h
  rw [if_neg h5] at h
  by_cases h6 : c = '-'
  · rw [if_pos h6] at h; cases h
  rw [if_neg h6] at h
  by_cases h7 : c = '?'
  · rw [if_pos h7] at h
    subst h7
    have u : '?'.utf8Size = 1 := by decide
    cases rest with
    | nil =>
      simp only [lexQuestionDot] at h
      refine ⟨_, _, .questionLast free hd, ?_⟩
      have := Diag.reports h
      rw [hs] at this
      simpa [hi, u] using this
    | cons x rest =>
      by_cases hx : x = '.'
      · subst hx; simp only [lexQuestionDot] at h; cases h
      · have e1 : lexQuestionDot cx i (x :: rest) = errUnexpectedCharacter cx i (i + 1 + x.utf8Size) := by
          unfold lexQuestionDot
          split
          · rename_i heq; injection heq with heq _; exact absurd heq hx
          · rename_i heq; injection heq with heq _; subst heq; rfl
          · rename_i heq; cases heq
        rw [e1] at h
        exact ⟨_, _, .question free hd hx, Diag.reports h⟩
  rw [if_neg h7] at h
  by_cases h8 : c = '"'
  · rw [if_pos h8] at h
    subst h8
    have u : '"'.utf8Size = 1 := by decide
    obtain ⟨a, r, rfl, k1, k2, k3, k4⟩ := lexString_err (cx := cx) i rest [] '"' (i + 1) (by rw [hs]; simp [u, hi]; omega) ⟨[], rfl⟩
      (by
        intro x y e hx
        cases x with
        | nil => exact absurd rfl hx
        | cons a x => simp at e) h
    exact ⟨_, _, .string free hd k1 k2 (by simpa using k3), k4⟩
  rw [if_neg h8] at h
  by_cases h9 : isDigit c = true
  · rw [if_pos h9] at h; cases bs <;> cases h
  rw [if_neg h9] at h
  by_cases h10 : isBlank c = true
  · rw [if_pos h10] at h; cases h
  rw [if_neg h10] at h
  by_cases h11 : isIdentStart cx.env c = true
  · rw [if_pos h11] at h
    simp only [lexIdentOrKeyword] at h
    cases hx : slice cx.source i (lexWhile (isIdentChar cx.env) (i + c.utf8Size) rest) <;> rw [hx] at h <;> cases h
  rw [if_neg h11] at h
  exact ⟨_, _, .char free hd (not_punct h1 h2 h3 h4 h5 h6 h7 h8 h9 h10) (by simpa using h11), Diag.reports h⟩

theorem isEnd_true {k : Kind} {tk : Token} {trim : Bool} (hk : Token.fromKind k = (tk, trim)) (hb : ¬ tk.isBeginTag = true) :
    isEnd k = true ∧ tk = tokenOf k := by
  obtain ⟨rfl, _⟩ := fromKind_inv hk
  exact ⟨by rw [isEnd_eq]; simpa using hb, rfl⟩

/-- An error of the lexer. -/
theorem lex_err (g : Good syn cx) {lx : Lexer} {e : Err} (inv : Inv syn cx lx) (h : lex cx lx = .err e) :
    lx.next = none ∧ lx.cursor < blen cx.source ∧
      ∃ m sp, Stuck syn cx.env cx.source (openOf lx) lx.cursor (modeOf lx) m sp ∧ Reports cx m sp e := by
  cases hn : lx.next with
  | some t => simp [lex, hn] at h
  | none =>
    refine ⟨rfl, ?_⟩
    have hlt : lx.cursor < blen cx.source := by
      obtain ⟨pre, post, e1, h1⟩ := inv.bnd
      have hdrop : dropB cx.source lx.cursor = some post := dropB_eq_some.mpr ⟨pre, e1, h1⟩
      cases post with
      | nil => simp [lex, hn, hdrop, Res.ofOption] at h
      | cons c rest =>
        have := c.utf8Size_pos
        rw [e1]; simp; omega
    refine ⟨hlt, ?_⟩
    have blk : ∀ bs b cl, lx.state = blockOf bs b cl → lexBlock cx lx bs b cl lx.cursor = .err e →
        ∃ m sp, Stuck syn cx.env cx.source (openOf lx) lx.cursor (modeOf lx) m sp ∧ Reports cx m sp e := by
      intro bs b cl hst h
      obtain ⟨⟨tb, htb⟩, he⟩ := inv.blk b cl (by cases bs <;> simp [hst, blockOf])
      rw [openOf_block hst, modeOf_block hst]
      rcases startsWith_cases g lx.cursor with ⟨k, j, hf, hc⟩ | ⟨hf, hc⟩
      · obtain ⟨tk, trim, hk⟩ : ∃ tk trim, Token.fromKind k = (tk, trim) := ⟨_, _, rfl⟩
        by_cases hb : tk.isBeginTag = true
        · obtain ⟨er, her⟩ := errUnclosed_err (α := (Token × Nat) × Lexer) (source_ne hlt) htb
            (he.elim Or.inl (fun h => Or.inr (Or.inl h)))
          simp only [lexBlock, hf, Res.ok_bind, hk, hb, if_true, her, Res.err_bind] at h
          injection h with h; subst h
          obtain ⟨rfl, _⟩ := fromKind_inv hk
          refine ⟨_, _, .nested rfl hc (by rw [isEnd_eq, hb]; rfl), ?_⟩
          rcases he with rfl | rfl <;> exact Diag.reports her
        · obtain ⟨k1, rfl⟩ := isEnd_true hk hb
          by_cases hte : tokenOf k = cl
          · rw [hte] at hk hb
            simp only [lexBlock, hf, Res.ok_bind, hk, if_neg hb, ne_eq, not_true_eq_false, if_false, Res.pure_eq] at h
            cases h
          · simp only [lexBlock, hf, Res.ok_bind, hk, if_neg hb, ne_eq, if_pos hte] at h
            cases her : (errUnexpectedToken cx (tokenOf k) lx.cursor j : Res ((Token × Nat) × Lexer)) with
            | ok x => rw [her] at h; cases h
            | crash => rw [her] at h; cases h
            | err e' =>
              rw [her] at h
              simp only [Res.err_bind] at h
              injection h with h; subst h
              exact ⟨_, _, .mismatch hc k1 hte, Diag.reports her⟩
      · obtain ⟨pre, post, e1, h1⟩ := inv.bnd
        have hdrop : dropB cx.source lx.cursor = some post := dropB_eq_some.mpr ⟨pre, e1, h1⟩
        cases post with
        | nil => rw [e1] at hlt; simp at hlt; omega
        | cons c rest =>
          simp only [lexBlock, hf, Res.ok_bind, hdrop, Res.ofOption, Res.pure_eq] at h
          cases hx : lexChar cx bs lx.cursor c rest with
          | ok x => rw [hx] at h; cases h
          | crash => rw [hx] at h; cases h
          | err e' =>
            rw [hx] at h
            injection h with h; subst h
            exact lexChar_err hdrop hc hx
    rw [lex_at inv hn hlt] at h
    cases hst : lx.state with
    | template =>
      rw [hst] at h
      simp only at h
      simp only [modeOf, hst]
      rcases findAt_cases g lx.cursor with ⟨k, i, j, hf, hc⟩ | ⟨hf, hc⟩
      · obtain ⟨tk, trim, hk⟩ : ∃ tk trim, Token.fromKind k = (tk, trim) := ⟨_, _, rfl⟩
        by_cases hb : tk.isBeginTag = true
        · exfalso
          rcases lexTemplate_cases g inv hn hst hlt with ⟨e', h'⟩ | ⟨t, lx', h', _⟩
          · obtain ⟨e1, hp⟩ := fromKind_pair hk
            simp only [lexTemplate, hf, Res.ok_bind, hk, hb, Bool.not_true, Bool.false_eq_true, if_false, hp, Res.ofOption] at h
            split at h
            · cases h
            · have hocc := chosen_occurs hc
              obtain ⟨t, ht⟩ := inv.bnd.slice (occurs_boundary hocc).1 hc.after
              obtain ⟨a, u, b, _, h2⟩ := trimRawToken_spec (cx := cx)
                { lx with cursor := j, state := enter tk ⟨i, j⟩ e1, next := some (tk, ⟨i, j⟩) } (rt := trim) ht
                (nw_of_begin g (inv.tmpl hst hlt) hocc hk hb ht (by have := hc.after; omega))
              simp only [enter] at h2
              rw [h2] at h; cases h
          · rw [h] at h'; cases h'
        · obtain ⟨k1, rfl⟩ := isEnd_true hk hb
          simp only [lexTemplate, hf, Res.ok_bind, hk] at h
          rw [if_pos (by simpa using hb)] at h
          exact ⟨_, _, .close hc k1, Diag.reports h⟩
      · exfalso
        rcases lexTemplate_cases g inv hn hst hlt with ⟨e', h'⟩ | ⟨t, lx', h', _⟩
        · obtain ⟨t, ht⟩ := inv.bnd.slice (boundary_len _) (Nat.le_of_lt hlt)
          obtain ⟨a, u, b, h1, h2⟩ := trimRawToken_spec (cx := cx) { lx with cursor := blen cx.source } (rt := false) ht nofun
          simp only [lexTemplate, hf, Res.ok_bind, h2] at h
          cases h
        · rw [h] at h'; cases h'
    | block b cl => rw [hst] at h; exact blk .unknown b cl hst h
    | blockPath b cl => rw [hst] at h; exact blk .path b cl hst h
    | comment b cl =>
      rw [hst] at h
      simp only at h
      obtain ⟨⟨tb, htb⟩, he⟩ := inv.cmt b cl hst
      subst he
      simp only [modeOf, hst, openOf]
      rcases findAt_cases g lx.cursor with ⟨k, i, j, hf, hc⟩ | ⟨hf, hc⟩
      · obtain ⟨tk, trim, hk⟩ : ∃ tk trim, Token.fromKind k = (tk, trim) := ⟨_, _, rfl⟩
        by_cases hb : tk.isBeginTag = true
        · simp only [lexComment, hf, Res.ok_bind, hk, hb, if_true] at h
          obtain ⟨rfl, _⟩ := fromKind_inv hk
          exact ⟨_, _, .commentNested rfl hc (by rw [isEnd_eq, hb]; rfl), Diag.reports h⟩
        · obtain ⟨k1, rfl⟩ := isEnd_true hk hb
          by_cases hte : tokenOf k = .endComment
          · rw [hte] at hk hb
            simp only [lexComment, hf, Res.ok_bind, hk, if_neg hb, ne_eq, not_true_eq_false, if_false] at h
            split at h <;> cases h
          · simp only [lexComment, hf, Res.ok_bind, hk, if_neg hb, ne_eq, if_pos hte] at h
            exact ⟨_, _, .commentMismatch hc k1 hte, Diag.reports h⟩
      · simp only [lexComment, hf, Res.ok_bind, Res.pure_eq] at h
        cases h

/-! From the lexer to the description. -/

/-- A run of the lexer up to a state. -/
inductive RunTo (syn : Syn) (cx : LexCx) (fin : Lexer) : Lexer → List (Token × Span) → Prop
  | here : RunTo syn cx fin fin []
  | skip {lx sp lx' ts} : Step syn cx lx (.whitespace, sp) lx' → RunTo syn cx fin lx' ts → RunTo syn cx fin lx ts
  | step {lx t lx' ts} : Step syn cx lx t lx' → t.1 ≠ .whitespace → RunTo syn cx fin lx' ts → RunTo syn cx fin lx (t :: ts)

theorem Skip.runTo {lx lx' fin : Lexer} {ts : List (Token × Span)} (h : Skip syn cx lx lx')
    (r : RunTo syn cx fin lx' ts) : RunTo syn cx fin lx ts := by
  induction h with
  | refl => exact r
  | step h1 _ ih => exact .skip h1 (ih r)

theorem nextLoop_err (g : Good syn cx) {e : Err} : ∀ (fuel : Nat) (lx : Lexer), Inv syn cx lx → left cx lx < fuel →
    nextLoop cx fuel lx = .err e → ∃ fin, Skip syn cx lx fin ∧ lex cx fin = .err e := by
  intro fuel
  induction fuel with
  | zero => intro lx _ h; omega
  | succ fuel ih =>
    intro lx inv hf h
    rcases lex_cases g inv with ⟨h', hn, hc⟩ | ⟨e', h'⟩ | ⟨⟨tk, sp⟩, lx', h', hs, inv'⟩
    · simp [nextLoop, h'] at h
    · simp [nextLoop, h'] at h
      subst h
      exact ⟨lx, .refl, h'⟩
    · by_cases hw : tk = .whitespace
      · subst hw
        have hl := hs.left_lt g
        have e : nextLoop cx (fuel + 1) lx = nextLoop cx fuel lx' := by simp [nextLoop, h']
        rw [e] at h
        obtain ⟨fin, h1, h2⟩ := ih lx' inv' (by omega) h
        exact ⟨fin, .step hs h1, h2⟩
      · simp [nextLoop, h', hw] at h

theorem Lexes.runTo (g : Good syn cx) {lx lx' : Lexer} {ts : List (Token × Span)} {e : Err}
    (h : Spec.Lexes cx lx ts lx') (inv : Inv syn cx lx) (hf : nextToken cx lx' = .err e) :
    ∃ fin, RunTo syn cx fin lx ts ∧ Inv syn cx fin ∧ lex cx fin = .err e := by
  induction h with
  | @none lx =>
    have hl := left_le g lx inv
    obtain ⟨fin, h1, h2⟩ := nextLoop_err g _ lx inv (by omega) hf
    exact ⟨fin, h1.runTo .here, h1.inv g inv, h2⟩
  | some hx _ ih =>
    obtain ⟨l1, h1, h2, h3, h4⟩ := nextToken_some g inv hx
    obtain ⟨fin, k1, k2, k3⟩ := ih h4 hf
    exact ⟨fin, h1.runTo (.step h2 h3 k1), k2, k3⟩

theorem RunTo.at_end (g : Good syn cx) {lx fin : Lexer} {ts : List (Token × Span)} (r : RunTo syn cx fin lx ts)
    (hn : lx.next = none) (hc : lx.cursor = blen cx.source) : fin = lx := by
  cases r with
  | here => rfl
  | skip h =>
    have := h.left_lt g
    simp [left, hn, hc] at this
  | step h =>
    have := h.left_lt g
    simp [left, hn, hc] at this

theorem open_enter {k : Kind} {tk e : Token} {trim : Bool} (hk : Token.fromKind k = (tk, trim))
    (hb : tk.isBeginTag = true) (hp : tk.pair = some e) (c : Nat) (n : Option (Token × Span)) (l : Bool) (sp : Span) :
    openOf ⟨c, enter tk sp e, l, n⟩ = some sp := by
  cases k <;> simp [Token.fromKind] at hk <;> obtain ⟨rfl, _⟩ := hk <;>
    simp [Token.isBeginTag, Token.pair] at hb hp <;> subst hp <;> rfl

theorem open_nextBlock {lx : Lexer} {bs : BlockState} {tk : Token} {b : Span} {e : Token} {c : Nat} :
    openOf { lx with cursor := c, state := nextBlock bs tk b e } = some b := by
  cases bs <;> cases tk <;> rfl

theorem modeOf_isComment {lx : Lexer} {b : Span} {e : Token} (h : lx.state = .comment b e) : modeOf lx = .comment := by
  simp only [modeOf, h]

/-- A run is scanned as specified. -/
theorem RunTo.scans (g : Good syn cx) {lx fin : Lexer} {ts : List (Token × Span)}
    (r : RunTo syn cx fin lx ts) (inv : Inv syn cx lx) (hfn : fin.next = none) (hlt' : fin.cursor < blen cx.source) :
    (lx.next = none → Scans syn cx.env cx.source (modeOf fin) (openOf fin) fin.cursor (modeOf lx) (openOf lx) lx.cursor ts) ∧
    (∀ t, lx.next = some t → ∃ ts', ts = t :: ts' ∧
      Scans syn cx.env cx.source (modeOf fin) (openOf fin) fin.cursor (modeOf lx) (openOf lx) lx.cursor ts') := by
  induction r with
  | here => exact ⟨fun _ => .here, fun t h => by rw [hfn] at h; cases h⟩
  | skip hs _ ih =>
    have inv' := hs.inv g inv
    obtain ⟨ih1, ih2⟩ := ih inv'
    generalize ht : (Token.whitespace, _) = t at hs
    cases hs with
    | pending hn =>
      subst ht
      obtain ⟨⟨k, trim, i, h1, _⟩, _⟩ := inv.nx _ _ hn
      exact absurd (fromKind_inv h1).1 (tokenOf_ne k).1
    | openTag hn hst hd hk hb hp =>
      injection ht with ht; subst ht; cases hb
    | rawTag => simp at ht
    | rawEnd => simp at ht
    | rawComment => simp at ht
    | rawCommentEnd => simp at ht
    | @closeTag bs b e k j trim hn hst hd hk =>
      injection ht with ht; subst ht
      exact absurd (fromKind_inv hk).1 (tokenOf_ne k).1
    | @closeComment b e k j trim hn hst hd hk =>
      injection ht with ht; subst ht
      exact absurd (fromKind_inv hk).1 (tokenOf_ne k).1
    | @inner bs b e tk t hn hst hd hs ht' hne hat =>
      refine ⟨fun _ => ?_, fun t h => by rw [hn] at h; cases h⟩
      have := ih1 hn
      injection ht with ht; subst ht
      rw [modeOf_block hst, openOf_block hst]
      rw [modeOf_nextBlock, open_nextBlock] at this
      exact .blank hd hat this
  | step hs hw r ih =>
    have inv' := hs.inv g inv
    obtain ⟨ih1, ih2⟩ := ih inv'
    cases hs with
    | pending hn =>
      refine ⟨fun h => (by rw [hn] at h; cases h), fun t h => ?_⟩
      rw [hn] at h; injection h with h; subst h
      exact ⟨_, rfl, ih1 rfl⟩
    | openTag hn hst hd hk hb hp =>
      refine ⟨fun _ => ?_, fun t h => by rw [hn] at h; cases h⟩
      have := ih1 hn
      rw [inside_enter hk hb hp, open_enter hk hb hp] at this
      obtain ⟨h1, h2⟩ := fromKind_inv hk
      subst h1
      simp only [modeOf, hst, openOf] at this ⊢
      exact .tag hd (by rw [isEnd_eq, hb]; rfl) this
    | rawTag hn hst hd hlt hk hb hp hs ht =>
      refine ⟨fun _ => ?_, fun t h => by rw [hn] at h; cases h⟩
      obtain ⟨ts', e, h⟩ := ih2 _ rfl
      rw [inside_enter hk hb hp, open_enter hk hb hp] at h
      obtain ⟨h1, h2⟩ := fromKind_inv hk
      subst h1 h2
      simp only [modeOf, hst, e, openOf] at h ⊢
      refine .textTag hd (by rw [isEnd_eq, hb]; rfl) hs ?_ ht h
      rintro rfl
      have := (slice_eq_some.mp hs)
      obtain ⟨_, _, _, _, h⟩ := this
      simp at h; omega
    | rawEnd hn hst hd hlt hs ht =>
      have := r.at_end g rfl rfl
      subst this
      simp at hlt'
    | closeTag hn hst hd hk =>
      refine ⟨fun _ => ?_, fun t h => by rw [hn] at h; cases h⟩
      have := ih1 rfl
      obtain ⟨h1, h2⟩ := fromKind_inv hk
      rw [modeOf_block hst]
      subst h2
      exact .close hd h1 this
    | inner hn hst hd hs ht hne hat =>
      refine ⟨fun _ => ?_, fun t h => by rw [hn] at h; cases h⟩
      have := ih1 hn
      rw [modeOf_block hst, openOf_block hst]
      rw [modeOf_nextBlock, open_nextBlock] at this
      exact .token hd hat hw this
    | closeComment hn hst hd hk =>
      refine ⟨fun _ => ?_, fun t h => by rw [hn] at h; cases h⟩
      have := ih1 rfl
      obtain ⟨h1, h2⟩ := fromKind_inv hk
      have he := (inv.cmt _ _ hst).2
      subst h2
      rw [he] at h1
      subst he
      simp only [modeOf_isComment hst]
      exact .emptyComment hd h1 this
    | rawComment hn hst hd hlt hk =>
      refine ⟨fun _ => ?_, fun t h => by rw [hn] at h; cases h⟩
      obtain ⟨ts', e, h⟩ := ih2 _ rfl
      obtain ⟨h1, h2⟩ := fromKind_inv hk
      have he := (inv.cmt _ _ hst).2
      subst h2
      rw [he] at h1
      subst he
      rw [e]
      simp only [modeOf_isComment hst]
      exact .comment hd h1 hlt h
    | rawCommentEnd hn hst hd hlt =>
      have := r.at_end g hn rfl
      subst this
      simp at hlt'

/-! From the description to the lexer. -/

/-- The lexer reads these tokens and then fails. -/
def FailsAfter (cx : LexCx) (lx : Lexer) (ts : List (Token × Span)) (e : Err) : Prop :=
  ∃ lx', Spec.Lexes cx lx ts lx' ∧ nextToken cx lx' = .err e

theorem FailsAfter.cons {lx lx' : Lexer} {t : Token × Span} {ts : List (Token × Span)} {e : Err}
    (h : lex cx lx = .ok (some t, lx')) (hw : t.1 ≠ .whitespace) (r : FailsAfter cx lx' ts e) :
    FailsAfter cx lx (t :: ts) e := by
  obtain ⟨l, h1, h2⟩ := r
  exact ⟨l, .some (nextToken_lex h hw) h1, h2⟩

theorem FailsAfter.blank (g : Good syn cx) {lx lx' : Lexer} {sp : Span} {ts : List (Token × Span)} {e : Err}
    (inv : Inv syn cx lx) (h : lex cx lx = .ok (some (.whitespace, sp), lx')) (r : FailsAfter cx lx' ts e) :
    FailsAfter cx lx ts e := by
  obtain ⟨l, h1, h2⟩ := r
  have hb := nextToken_blank g inv h
  cases h1 with
  | none => exact ⟨lx, .none, by rw [hb]; exact h2⟩
  | some h3 h4 => exact ⟨l, .some (by rw [hb]; exact h3) h4, h2⟩

theorem openOf_tag {lx : Lexer} {bs : BlockState} {b : Span} {c : Token} {o : Option Span} (hst : lx.state = blockOf bs b c)
    (ho : openOf lx = o) : o = some b := by rw [← ho, openOf_block hst]

theorem Scans.reads (g : Good syn cx) {m m' : Mode} {o o' : Option Span} {i i' : Nat} {ts : List (Token × Span)} {e : Err}
    (h : Scans syn cx.env cx.source m' o' i' m o i ts)
    (hf : ∀ lx : Lexer, Inv syn cx lx → lx.next = none → lx.cursor = i' → modeOf lx = m' → openOf lx = o' → nextToken cx lx = .err e) :
    ∀ lx : Lexer, Inv syn cx lx → lx.next = none → lx.cursor = i → modeOf lx = m → openOf lx = o → FailsAfter cx lx ts e := by
  induction h with
  | here => intro lx inv hn hc hm ho; exact ⟨lx, .none, hf lx inv hn hc hm ho⟩
  | @textTag l i k j n t a u b rest next opening text ne trim tail ih =>
    intro lx inv hn hc hm ho
    subst hc
    obtain ⟨hst, hl⟩ := modeOf_text hm
    subst hl
    have hocc := chosen_occurs next
    have hlt := occurs_cursor_lt g hocc next.after
    have hij : lx.cursor ≠ j := by
      obtain ⟨_, _, _, _, h⟩ := slice_eq_some.mp text
      have := blen_pos ne
      omega
    have hb := opening_token opening
    obtain ⟨e, hp⟩ := fromKind_pair (fromKind_eq k)
    obtain ⟨a', u', b', h1, h2⟩ := trimRawToken_spec (cx := cx)
      { lx with cursor := n, state := enter (Spec.tokenOf k) ⟨j, n⟩ e, next := some (Spec.tokenOf k, ⟨j, n⟩) }
      (rt := Spec.isTrim k) text
      (nw_of_begin g (inv.tmpl hst hlt) hocc (fromKind_eq k) hb text (by have := next.after; omega))
    obtain ⟨rfl, rfl, rfl⟩ := Trimmed.unique trim h1
    have hlex : lex cx lx = .ok (some (.raw, ⟨lx.cursor + blen a, lx.cursor + blen a + blen u⟩),
        ⟨n, enter (Spec.tokenOf k) ⟨j, n⟩ e, false, some (Spec.tokenOf k, ⟨j, n⟩)⟩) := by
      rw [lex_at inv hn hlt, hst]
      simp only [enter] at h2
      simp [lexTemplate, findAt_some g next, fromKind_eq, hb, hp, Res.ofOption, hij, enter, h2]
    obtain ⟨_, inv1⟩ := lex_inv g inv hlex
    have hlex2 : lex cx ⟨n, enter (Spec.tokenOf k) ⟨j, n⟩ e, false, some (Spec.tokenOf k, ⟨j, n⟩)⟩ =
        .ok (some (Spec.tokenOf k, ⟨j, n⟩), ⟨n, enter (Spec.tokenOf k) ⟨j, n⟩ e, false, none⟩) := by
      simp [lex]
    obtain ⟨_, inv2⟩ := lex_inv g inv1 hlex2
    refine FailsAfter.cons hlex (by simp) (FailsAfter.cons hlex2 (tokenOf_ne k).1 ?_)
    exact ih _ inv2 rfl rfl (inside_enter (fromKind_eq k) hb hp _ _ _ _) (open_enter (fromKind_eq k) hb hp _ _ _ _)
  | @tag l i k n rest next opening tail ih =>
    intro lx inv hn hc hm ho
    subst hc
    obtain ⟨hst, hl⟩ := modeOf_text hm
    have hocc := chosen_occurs next
    have hlt := occurs_cursor_lt g hocc (Nat.le_refl _)
    have hb := opening_token opening
    obtain ⟨e, hp⟩ := fromKind_pair (fromKind_eq k)
    have hlex : lex cx lx = .ok (some (Spec.tokenOf k, ⟨lx.cursor, n⟩),
        { lx with cursor := n, state := enter (Spec.tokenOf k) ⟨lx.cursor, n⟩ e }) := by
      rw [lex_at inv hn hlt, hst]
      simp [lexTemplate, findAt_some g next, fromKind_eq, hb, hp, Res.ofOption, enter]
    obtain ⟨_, inv1⟩ := lex_inv g inv hlex
    refine FailsAfter.cons hlex (tokenOf_ne k).1 ?_
    exact ih _ inv1 hn rfl (inside_enter (fromKind_eq k) hb hp _ _ _ _) (open_enter (fromKind_eq k) hb hp _ _ _ _)
  | @blank c p o i t rest free text tail ih =>
    intro lx inv hn hc hm ho
    subst hc
    obtain ⟨bs, b, hst, rfl⟩ := modeOf_tag hm
    have := openOf_tag hst ho
    subst this
    have hlex := lex_inner g inv hn hst free text
    obtain ⟨_, inv1⟩ := lex_inv g inv hlex
    refine FailsAfter.blank g inv hlex (ih _ inv1 hn rfl ?_ open_nextBlock)
    rw [modeOf_nextBlock]; rfl
  | @token c p o i tk t rest free text real tail ih =>
    intro lx inv hn hc hm ho
    subst hc
    obtain ⟨bs, b, hst, rfl⟩ := modeOf_tag hm
    have := openOf_tag hst ho
    subst this
    have hlex := lex_inner g inv hn hst free text
    obtain ⟨_, inv1⟩ := lex_inv g inv hlex
    exact FailsAfter.cons hlex real (ih _ inv1 hn rfl modeOf_nextBlock open_nextBlock)
  | @close c p o i k n rest next same tail ih =>
    intro lx inv hn hc hm ho
    subst hc
    obtain ⟨bs, b, hst, rfl⟩ := modeOf_tag hm
    have hlt := occurs_cursor_lt g (chosen_occurs next) (Nat.le_refl _)
    have he := (inv.blk b c (by cases bs <;> simp [hst, blockOf])).2
    obtain ⟨hk, hb⟩ := not_begin_of_close same (by tauto)
    have hlex : lex cx lx = .ok (some (c, ⟨lx.cursor, n⟩), ⟨n, .template, Spec.isTrim k, none⟩) := by
      rw [lex_block g inv hn hst hlt]
      simp only [lexBlock, startsWith_some g next, Res.ok_bind, hk, hb, Bool.false_eq_true, if_false,
        ne_eq, not_true_eq_false, Res.pure_eq]
      rcases he with rfl | rfl <;> cases bs <;> simp [hn]
    obtain ⟨_, inv1⟩ := lex_inv g inv hlex
    refine FailsAfter.cons hlex ?_ (ih _ inv1 rfl rfl rfl rfl)
    rcases he with rfl | rfl <;> simp
  | @comment o i k j n rest next closing ne tail ih =>
    intro lx inv hn hc hm ho
    subst hc
    obtain ⟨b, e, hst⟩ := modeOf_comment hm
    have he := (inv.cmt _ _ hst).2
    subst he
    have hlt := occurs_cursor_lt g (chosen_occurs next) next.after
    obtain ⟨hk, hb⟩ := not_begin_of_close closing (by simp)
    have hlex : lex cx lx = .ok (some (.raw, ⟨lx.cursor, j⟩),
        ⟨n, .template, Spec.isTrim k, some (.endComment, ⟨j, n⟩)⟩) := by
      rw [lex_at inv hn hlt, hst]
      have : lx.cursor ≠ j := by omega
      simp [lexComment, findAt_some g next, hk, hb, this]
    obtain ⟨_, inv1⟩ := lex_inv g inv hlex
    have hlex2 : lex cx ⟨n, .template, Spec.isTrim k, some (.endComment, ⟨j, n⟩)⟩ =
        .ok (some (.endComment, ⟨j, n⟩), ⟨n, .template, Spec.isTrim k, none⟩) := by simp [lex]
    obtain ⟨_, inv2⟩ := lex_inv g inv1 hlex2
    exact FailsAfter.cons hlex (by simp) (FailsAfter.cons hlex2 (by simp) (ih _ inv2 rfl rfl rfl rfl))
  | @emptyComment o i k n rest next closing tail ih =>
    intro lx inv hn hc hm ho
    subst hc
    obtain ⟨b, e, hst⟩ := modeOf_comment hm
    have he := (inv.cmt _ _ hst).2
    subst he
    have hlt := occurs_cursor_lt g (chosen_occurs next) (Nat.le_refl _)
    obtain ⟨hk, hb⟩ := not_begin_of_close closing (by simp)
    have hlex : lex cx lx = .ok (some (.endComment, ⟨lx.cursor, n⟩), ⟨n, .template, Spec.isTrim k, none⟩) := by
      rw [lex_at inv hn hlt, hst]
      simp [lexComment, findAt_some g next, hk, hb, hn]
    obtain ⟨_, inv1⟩ := lex_inv g inv hlex
    exact FailsAfter.cons hlex (by simp) (ih _ inv1 rfl rfl rfl rfl)

theorem nextToken_lex_err {lx : Lexer} {e : Err} (h : lex cx lx = .err e) : nextToken cx lx = .err e := by
  simp [nextToken, nextLoop, h]

theorem lexChar_char {bs : BlockState} {i : Nat} {c : Char} {rest : Str} (mark : ¬ Punct c) (name : isIdentStart cx.env c = false) :
    lexChar cx bs i c rest = errUnexpectedCharacter cx i (i + c.utf8Size) := by
  simp only [Spec.Punct, List.mem_cons, List.not_mem_nil, or_false, not_or] at mark
  obtain ⟨⟨p1, p2, p3, p4, p5, p6, p7, p8, p9, p10⟩, p11⟩ := mark
  have hb : ¬ isBlank c = true := by simp [isBlank, p9, p10]
  unfold lexChar
  rw [if_neg p1, if_neg p2, if_neg p3, if_neg p4, if_neg p5, if_neg p6, if_neg p7, if_neg p8,
    if_neg p11, if_neg hb, if_neg (by simp [name])]

theorem lexChar_question {bs : BlockState} {i : Nat} {rest : Str} :
    lexChar cx bs i '?' rest = lexQuestionDot cx i rest := by
  unfold lexChar
  rw [if_neg (by decide), if_neg (by decide), if_neg (by decide), if_neg (by decide), if_neg (by decide), if_neg (by decide)]
  exact if_pos rfl

theorem lexChar_string {bs : BlockState} {i : Nat} {rest : Str} :
    lexChar cx bs i '"' rest = lexString cx i '"' (i + 1) rest := by
  unfold lexChar
  rw [if_neg (by decide), if_neg (by decide), if_neg (by decide), if_neg (by decide), if_neg (by decide), if_neg (by decide),
    if_neg (by decide)]
  exact if_pos rfl

theorem lexQuestionDot_other {i : Nat} {x : Char} {rest : Str} (hx : x ≠ '.') :
    lexQuestionDot cx i (x :: rest) = errUnexpectedCharacter cx i (i + 1 + x.utf8Size) := by
  unfold lexQuestionDot
  split
  · rename_i heq; injection heq with heq _; exact absurd heq hx
  · rename_i heq; injection heq with heq _; subst heq; rfl
  · rename_i heq; cases heq

theorem errSyntax_bind {α β : Type} {m : String} {sp : Span} {f : α → Res β} :
    ((errSyntax cx.env m cx.source sp : Res α) >>= f) = errSyntax cx.env m cx.source sp := by
  simp only [errSyntax, throwAt]
  cases Pretty.build cx.env cx.source sp <;> rfl

/-- Inside a tag, where no delimiter starts. -/
theorem lex_char_err (g : Good syn cx) {lx : Lexer} {bs : BlockState} {b : Span} {cl : Token} {c : Char} {rest : Str}
    (inv : Inv syn cx lx) (hn : lx.next = none) (hst : lx.state = blockOf bs b cl)
    (free : ∀ k j, ¬ Occurs syn cx.source k lx.cursor j) (hd : dropB cx.source lx.cursor = some (c :: rest))
    {m : String} {sp : Span} (h : lexChar cx bs lx.cursor c rest = errSyntax cx.env m cx.source sp) :
    lex cx lx = errSyntax cx.env m cx.source sp := by
  have hlt : lx.cursor < blen cx.source := by
    obtain ⟨pre, e1, h1⟩ := dropB_eq_some.mp hd
    have := c.utf8Size_pos
    rw [e1]; simp; omega
  rw [lex_block g inv hn hst hlt]
  simp only [lexBlock, startsWith_none g free, Res.ok_bind, hd, Res.ofOption, Res.pure_eq, h, errSyntax_bind]

theorem Stuck.lex (g : Good syn cx) {lx : Lexer} {m : String} {sp : Span} (inv : Inv syn cx lx) (hn : lx.next = none)
    (h : Stuck syn cx.env cx.source (openOf lx) lx.cursor (modeOf lx) m sp) :
    lex cx lx = errSyntax cx.env m cx.source sp := by
  generalize hm : modeOf lx = md at h
  generalize ho : openOf lx = o at h
  cases h with
  | @close l k j n next closing =>
    obtain ⟨hst, _⟩ := modeOf_text hm
    have hlt := occurs_cursor_lt g (chosen_occurs next) next.after
    rw [lex_at inv hn hlt, hst]
    have hb : (tokenOf k).isBeginTag = false := by rw [isEnd_eq] at closing; simpa using closing
    simp only [lexTemplate, findAt_some g next, Res.ok_bind, fromKind_eq, hb, Bool.not_false, if_true]
    rfl
  | @nested b c p k n outer next opening =>
    obtain ⟨bs, b', hst, rfl⟩ := modeOf_tag hm
    have := openOf_tag hst ho
    subst outer
    injection this with this; subst this
    have hlt := occurs_cursor_lt g (chosen_occurs next) (Nat.le_refl _)
    rw [lex_block g inv hn hst hlt]
    obtain ⟨⟨tb, htb⟩, he⟩ := inv.blk sp c (by cases bs <;> simp [hst, blockOf])
    have hb := opening_token opening
    simp only [lexBlock, startsWith_some g next, Res.ok_bind, fromKind_eq, hb, if_true]
    rcases he with rfl | rfl <;> exact errSyntax_bind
  | @mismatch c p k n next closing other =>
    obtain ⟨bs, b', hst, rfl⟩ := modeOf_tag hm
    have hlt := occurs_cursor_lt g (chosen_occurs next) (Nat.le_refl _)
    rw [lex_block g inv hn hst hlt]
    have hb : (tokenOf k).isBeginTag = false := by rw [isEnd_eq] at closing; simpa using closing
    simp only [lexBlock, startsWith_some g next, Res.ok_bind, fromKind_eq, hb, Bool.false_eq_true, if_false, ne_eq, if_pos other]
    exact errSyntax_bind
  | @char c p x rest free text mark name =>
    obtain ⟨bs, b', hst, rfl⟩ := modeOf_tag hm
    refine lex_char_err g inv hn hst free text ?_
    rw [lexChar_char mark name]
    rfl
  | @question c p x rest free text other =>
    obtain ⟨bs, b', hst, rfl⟩ := modeOf_tag hm
    refine lex_char_err g inv hn hst free text ?_
    rw [lexChar_question, lexQuestionDot_other other]
    rfl
  | @questionLast c p free text =>
    obtain ⟨bs, b', hst, rfl⟩ := modeOf_tag hm
    refine lex_char_err g inv hn hst free text ?_
    rw [lexChar_question]
    have u : '?'.utf8Size = 1 := by decide
    obtain ⟨pre, e1, h1⟩ := dropB_eq_some.mp text
    have hl : blen cx.source = lx.cursor + 1 := by rw [e1]; simp [u, h1]
    simp only [lexQuestionDot, hl]
    rfl
  | @string c p body rest free text line last quotes =>
    obtain ⟨bs, b', hst, rfl⟩ := modeOf_tag hm
    refine lex_char_err g inv hn hst free text ?_
    rw [lexChar_string]
    have u : '"'.utf8Size = 1 := by decide
    obtain ⟨pre, e1, h1⟩ := dropB_eq_some.mp text
    have hl : blen cx.source = lx.cursor + 1 + blen (body ++ rest) := by rw [e1]; simp [u, h1]; omega
    rw [lexString_stuck lx.cursor body [] '"' (lx.cursor + 1) rest hl ⟨[], rfl⟩ line (by simpa using quotes) last]
    rfl
  | @commentNested b k j n outer next opening =>
    obtain ⟨b', c, hst⟩ := modeOf_comment hm
    have hlt := occurs_cursor_lt g (chosen_occurs next) next.after
    have he := (inv.cmt _ _ hst).2
    subst he
    have hb' : openOf lx = some b' := by simp only [openOf, hst]
    rw [hb'] at ho; subst outer; injection ho with ho; subst ho
    have hb := opening_token opening
    rw [lex_at inv hn hlt, hst]
    simp only [lexComment, findAt_some g next, Res.ok_bind, fromKind_eq, hb, if_true]
    rfl
  | @commentMismatch k j n next closing other =>
    obtain ⟨b', c, hst⟩ := modeOf_comment hm
    have hlt := occurs_cursor_lt g (chosen_occurs next) next.after
    have he := (inv.cmt _ _ hst).2
    subst he
    have hb : (tokenOf k).isBeginTag = false := by rw [isEnd_eq] at closing; simpa using closing
    rw [lex_at inv hn hlt, hst]
    simp only [lexComment, findAt_some g next, Res.ok_bind, fromKind_eq, hb, Bool.false_eq_true, if_false, ne_eq, if_pos other]
    rfl

/-- Something can be reported where the text is stuck. -/
theorem Stuck.reports (g : Good syn cx) {lx : Lexer} {m : String} {sp : Span} (inv : Inv syn cx lx) (hn : lx.next = none)
    (h : Stuck syn cx.env cx.source (openOf lx) lx.cursor (modeOf lx) m sp) : ∃ e, Reports cx m sp e := by
  have hl := Stuck.lex g inv hn h
  cases hp : Pretty.build cx.env cx.source sp with
  | some p => exact ⟨_, p, hp, rfl⟩
  | none =>
    simp only [errSyntax, throwAt, hp] at hl
    rcases lex_cases g inv with ⟨h', _⟩ | ⟨e', h'⟩ | ⟨_, _, h', _⟩ <;> (rw [hl] at h'; cases h')

/-- The lexer fails exactly where the text is stuck. -/
theorem stops_iff (g : Good syn cx) (ts : List (Token × Span)) (e : Err) :
    Stops cx ts e ↔ ∃ md o i m sp, Scans syn cx.env cx.source md o i (.text false) none 0 ts ∧
      Stuck syn cx.env cx.source o i md m sp ∧ Reports cx m sp e := by
  constructor
  · rintro ⟨lx, h1, h2⟩
    obtain ⟨fin, r, inv, h⟩ := Lexes.runTo g h1 (Inv.new syn cx) h2
    obtain ⟨hn, hlt, m, sp, hs, hr⟩ := lex_err g inv h
    exact ⟨_, _, _, m, sp, (r.scans g (Inv.new syn cx) hn hlt).1 rfl, hs, hr⟩
  · rintro ⟨md, o, i, m, sp, h1, h2, h3⟩
    refine Scans.reads g h1 ?_ Lexer.new (Inv.new syn cx) rfl rfl rfl rfl
    intro lx inv hn hc hm ho
    subst hc hm ho
    exact nextToken_lex_err (by rw [Stuck.lex g inv hn h2, errSyntax_of h3])

end Lexer
end Upon
