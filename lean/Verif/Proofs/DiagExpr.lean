import Verif.Proofs.DiagBase
/-
What the parser complains about in an expression (for C51).
-/
namespace Upon
open Spec
namespace Diag
open Machine (Ctl Pos After Act Blk exprStep afterStep run_append_of run_cons_of run_nil run_cons Done)
open Plain (spoken textAt_of)
open Parser (Parses next_cons next_eof next_err peek_cons peek_eof peek_err Str')

variable {cx : LexCx}

/-! Literals -/

theorem foldDigits_err {span : Span} {sign : Sign} {i radix : Nat} :
    ∀ (ds pre : Str) (n : Nat) (e : Err), Digits radix pre n → FitsI64 (signed (Parser.negOf sign) n) →
      Parser.foldDigits cx span sign i radix pre.length (signed (Parser.negOf sign) n) ds = .err e →
      (∃ a c b n', ds = a ++ c :: b ∧ Digits radix (pre ++ a) n' ∧ FitsI64 (signed (Parser.negOf sign) n') ∧ c ≠ '_' ∧
        (∀ d, digitVal c = some d → radix ≤ d) ∧
        Reports cx s!"invalid digit for base {radix} literal" ⟨span.m + i + (pre ++ a).length, span.m + i + (pre ++ a).length + 1⟩ e) ∨
      (∃ a b n', ds = a ++ b ∧ Digits radix (pre ++ a) n' ∧ ¬ FitsI64 (signed (Parser.negOf sign) n') ∧
        Reports cx s!"base {radix} literal out of range for 64-bit integer" span e) := by
  intro ds
  induction ds with
  | nil => intro pre n e _ _ h; cases h
  | cons c ds ih =>
    intro pre n e hd hf h
    have next : ∀ n', Digits radix (pre ++ [c]) n' → FitsI64 (signed (Parser.negOf sign) n') →
        Parser.foldDigits cx span sign i radix (pre.length + 1) (signed (Parser.negOf sign) n') ds = .err e →
        (∃ a x b n', c :: ds = a ++ x :: b ∧ Digits radix (pre ++ a) n' ∧ FitsI64 (signed (Parser.negOf sign) n') ∧ x ≠ '_' ∧
          (∀ d, digitVal x = some d → radix ≤ d) ∧
          Reports cx s!"invalid digit for base {radix} literal" ⟨span.m + i + (pre ++ a).length, span.m + i + (pre ++ a).length + 1⟩ e) ∨
        (∃ a b n', c :: ds = a ++ b ∧ Digits radix (pre ++ a) n' ∧ ¬ FitsI64 (signed (Parser.negOf sign) n') ∧
          Reports cx s!"base {radix} literal out of range for 64-bit integer" span e) := by
      intro n' h1 h2 h3
      rcases ih (pre ++ [c]) n' e h1 h2 (by simpa using h3) with ⟨a, x, b, n2, rfl, k1, k2, k3, k4, k5⟩ | ⟨a, b, n2, rfl, k1, k2, k3⟩
      · refine Or.inl ⟨c :: a, x, b, n2, rfl, by simpa using k1, k2, k3, k4, ?_⟩
        simpa using k5
      · exact Or.inr ⟨c :: a, b, n2, rfl, by simpa using k1, k2, k3⟩
    rw [Parser.foldDigits] at h
    by_cases hc : c = '_'
    · rw [if_pos hc] at h; subst hc; exact next n (.under hd) hf h
    · rw [if_neg hc] at h
      cases ht : Parser.toDigit radix c with
      | none =>
        rw [ht] at h
        refine Or.inl ⟨[], c, ds, n, rfl, by simpa using hd, hf, hc, ?_, by simpa using reports h⟩
        intro d hv
        rw [Parser.toDigit_eq, hv] at ht
        simp only [Option.bind_some] at ht
        split at ht
        · cases ht
        · omega
      | some x =>
        have hx : digitVal c = some x ∧ x < radix := by
          rw [Parser.toDigit_eq] at ht
          cases hv : digitVal c with
          | none => rw [hv] at ht; cases ht
          | some d =>
            rw [hv] at ht
            simp only [Option.bind_some] at ht
            split at ht
            · injection ht with ht; subst ht; exact ⟨rfl, by assumption⟩
            · cases ht
        have hd' : Digits radix (pre ++ [c]) (n * radix + x) := .digit hd hx.1 hx.2
        rw [ht] at h
        simp only at h
        have out : ¬ FitsI64 (signed (Parser.negOf sign) (n * radix + x)) → 
            Reports cx s!"base {radix} literal out of range for 64-bit integer" span e →
            (∃ a b n', c :: ds = a ++ b ∧ Digits radix (pre ++ a) n' ∧ ¬ FitsI64 (signed (Parser.negOf sign) n') ∧
              Reports cx s!"base {radix} literal out of range for 64-bit integer" span e) :=
          fun h1 h2 => ⟨[c], ds, _, rfl, hd', h1, h2⟩
        have e3 := Parser.signed_succ sign n x radix
        by_cases g1 : inI64 (signed (Parser.negOf sign) n * (radix : Int)) = true
        · rw [if_neg (by simp [g1])] at h
          by_cases g2 : FitsI64 (signed (Parser.negOf sign) (n * radix + x))
          · have g2' := (Parser.inI64_iff _).mpr g2
            refine next _ hd' g2 ?_
            cases sign <;> simp only at e3 h <;> rw [e3, if_neg (by simp [g2'])] at h <;> exact h
          · have g2' : inI64 (signed (Parser.negOf sign) (n * radix + x)) = false := by
              rw [← Bool.not_eq_true, Parser.inI64_iff]; exact g2
            refine Or.inr (out g2 ?_)
            cases sign <;> simp only at e3 h <;> rw [e3, if_pos (by simp [g2'])] at h <;> exact reports h
        · rw [if_pos (by simp [g1])] at h
          refine Or.inr (out ?_ (reports h))
          intro g2
          rw [Parser.inI64_iff, Parser.signed_mul] at g1
          exact g1 (Parser.fits_mono (by omega) g2)

theorem radixOf_written (raw : Str) : ∃ i radix pre, Parser.radixOf raw = (i, radix) ∧ pre.length = i ∧ raw = pre ++ raw.drop i ∧
    InBase raw radix pre (raw.drop i) := by
  by_cases hb : ∃ r, raw = '0' :: 'b' :: r
  · obtain ⟨r, rfl⟩ := hb
    exact ⟨2, 2, _, rfl, rfl, rfl, .bin⟩
  by_cases ho : ∃ r, raw = '0' :: 'o' :: r
  · obtain ⟨r, rfl⟩ := ho
    exact ⟨2, 8, _, rfl, rfl, rfl, .oct⟩
  by_cases hx : ∃ r, raw = '0' :: 'x' :: r
  · obtain ⟨r, rfl⟩ := hx
    exact ⟨2, 16, _, rfl, rfl, rfl, .hex⟩
  refine ⟨0, 10, [], ?_, rfl, rfl, .dec (fun r e => hb ⟨r, e⟩) (fun r e => ho ⟨r, e⟩) (fun r e => hx ⟨r, e⟩)⟩
  unfold Parser.radixOf
  split
  · exact absurd ⟨_, rfl⟩ hb
  · exact absurd ⟨_, rfl⟩ ho
  · exact absurd ⟨_, rfl⟩ hx
  · rfl

theorem parseLiteralNumber_err {raw : Str} {span : Span} {sign : Sign} {e : Err} (ha : ∀ c ∈ raw, c.utf8Size = 1)
    (h : Parser.parseLiteralNumber cx raw span sign = .err e) :
    ∃ m k, BadNumber cx.env raw (Parser.negOf sign) m k ∧ Reports cx m (numberPlace span.m span.n k) e := by
  unfold Parser.parseLiteralNumber at h
  cases hi : Parser.parseLiteralInteger cx raw span sign with
  | ok l => rw [hi] at h; cases h
  | crash => rw [hi] at h; cases h
  | err e1 =>
    rw [hi] at h
    cases hf : Parser.parseLiteralFloat cx raw span sign with
    | ok l => rw [hf] at h; cases h
    | crash => rw [hf] at h; cases h
    | err e2 =>
      have hp : cx.env.parseF64 raw = none := by
        unfold Parser.parseLiteralFloat at hf
        cases hp : cx.env.parseF64 raw with
        | some f => rw [hp] at hf; cases hf
        | none => rfl
      rw [hf] at h
      simp only at h
      split at h
      · rename_i hs
        injection h with h; subst h
        unfold Parser.parseLiteralFloat at hf
        rw [hp] at hf
        exact ⟨_, none, .float hp hs, reports hf⟩
      · rename_i hs
        simp only [not_or] at hs
        injection h with h; subst h
        obtain ⟨i, radix, pre, hr, hl, hpre, hw⟩ := radixOf_written raw
        simp only [Parser.parseLiteralInteger, hr] at hi
        have hz : FitsI64 (signed (Parser.negOf sign) 0) := by cases sign <;> simp [FitsI64, signed, Parser.negOf]
        have hz' : signed (Parser.negOf sign) 0 = 0 := by cases sign <;> simp [signed, Parser.negOf]
        cases hd : Parser.foldDigits cx span sign i radix 0 0 (raw.drop i) with
        | ok l => rw [hd] at hi; cases hi
        | crash => rw [hd] at hi; cases hi
        | err e3 =>
          rw [hd] at hi
          injection hi with hi; subst hi
          rcases foldDigits_err (cx := cx) (span := span) (sign := sign) (i := i) (radix := radix) (raw.drop i) [] 0 e3 .nil hz
            (by rw [hz']; exact hd) with ⟨a, c, b, n', k0, k1, k2, k3, k4, k5⟩ | ⟨a, b, n', k0, k1, k2, k3⟩
          · rw [k0] at hw
            refine ⟨_, _, .digit hp hs.1 hs.2.1 hs.2.2 hw k1 k2 k3 k4, ?_⟩
            have hb : blen (pre ++ a) = (pre ++ a).length := by
              refine Parser.blen_ascii fun x hx => ha x ?_
              rw [hpre, k0, ← List.append_assoc]
              exact List.mem_append_left _ hx
            rw [numberPlace, hb, List.length_append, hl, ← Nat.add_assoc]
            exact k5
          · rw [k0] at hw
            exact ⟨_, _, .range hp hs.1 hs.2.1 hs.2.2 hw k1 k2, k3⟩

theorem escape_none {c : Char} (h1 : c ≠ 'n') (h2 : c ≠ 'r') (h3 : c ≠ 't') (h4 : c ≠ '\\') (h5 : c ≠ '"') : escape c = none := by
  unfold escape
  split <;> first | contradiction | rfl

theorem unescape_err : ∀ (k : Nat) (s : Str) (i : Nat) (acc : Str) (e : Err), s.length ≤ k → Parser.unescape cx i acc s = .err e →
    ∃ a x c b, s = a ++ '\\' :: c :: b ∧ Unescaped a x ∧ escape c = none ∧
      Reports cx "unknown escape character" ⟨i + blen a + 1, i + blen a + 1 + c.utf8Size⟩ e := by
  intro k
  induction k with
  | zero =>
    intro s i acc e hk h
    have : s = [] := List.length_eq_zero_iff.mp (by omega)
    subst this
    rw [Parser.unescape.eq_def] at h; cases h
  | succ k ih =>
    intro s i acc e hk h
    cases s with
    | nil => rw [Parser.unescape.eq_def] at h; cases h
    | cons c rest =>
      have next : (∀ a x, Unescaped a x → ∃ y, Unescaped (c :: a) y) → ∀ acc', Parser.unescape cx (i + c.utf8Size) acc' rest = .err e →
          ∃ a x c' b, c :: rest = a ++ '\\' :: c' :: b ∧ Unescaped a x ∧ escape c' = none ∧
            Reports cx "unknown escape character" ⟨i + blen a + 1, i + blen a + 1 + c'.utf8Size⟩ e := by
        intro hc acc' h
        obtain ⟨a, x, c', b, rfl, h2, h3, h4⟩ := ih rest _ acc' e (by simp at hk; omega) h
        obtain ⟨y, hy⟩ := hc a x h2
        refine ⟨c :: a, y, c', b, rfl, hy, h3, ?_⟩
        simpa [blen, Nat.add_assoc] using h4
      rw [Parser.unescape.eq_def] at h
      simp only at h
      by_cases hq : c = '"'
      · rw [if_pos hq] at h
        subst hq
        exact next (fun a x hu => ⟨x, .stray hu⟩) _ h
      rw [if_neg hq] at h
      by_cases hb : c = '\\'
      · rw [if_pos hb] at h
        subst hb
        have u : '\\'.utf8Size = 1 := by decide
        cases rest with
        | nil => cases h
        | cons esc rest' =>
          simp only at h
          have next' : ∀ d acc', escape esc = some d → Parser.unescape cx (i + 1 + esc.utf8Size) acc' rest' = .err e →
              ∃ a x c b, '\\' :: esc :: rest' = a ++ '\\' :: c :: b ∧ Unescaped a x ∧ escape c = none ∧
                Reports cx "unknown escape character" ⟨i + blen a + 1, i + blen a + 1 + c.utf8Size⟩ e := by
            intro d acc' hd h
            obtain ⟨a, x, c', b, rfl, h2, h3, h4⟩ := ih rest' _ acc' e (by simp at hk; omega) h
            refine ⟨'\\' :: esc :: a, _, c', b, rfl, .esc hd h2, h3, ?_⟩
            simpa [blen, u, Nat.add_assoc] using h4
          by_cases h1 : esc = 'n'
          · rw [if_pos h1] at h; exact next' _ _ (by rw [h1]; rfl) h
          rw [if_neg h1] at h
          by_cases h2 : esc = 'r'
          · rw [if_pos h2] at h; exact next' _ _ (by rw [h2]; rfl) h
          rw [if_neg h2] at h
          by_cases h3 : esc = 't'
          · rw [if_pos h3] at h; exact next' _ _ (by rw [h3]; rfl) h
          rw [if_neg h3] at h
          by_cases h4 : esc = '\\'
          · rw [if_pos h4] at h; exact next' _ _ (by rw [h4]; rfl) h
          rw [if_neg h4] at h
          by_cases h5 : esc = '"'
          · rw [if_pos h5] at h; exact next' _ _ (by rw [h5]; rfl) h
          rw [if_neg h5] at h
          cases rest' with
          | nil => cases h
          | cons d r2 => exact ⟨[], [], esc, d :: r2, rfl, .nil, escape_none h1 h2 h3 h4 h5, reports h⟩
      · rw [if_neg hb] at h
        exact next (fun a x hu => ⟨_, .char hb hq hu⟩) _ h

theorem parseString_err {sp : Span} {e : Err} (ok : TokOK cx (.string, sp)) (h : Parser.parseString cx sp = .err e) (us : List Tok) (N : Item → Prop) :
    ∃ s, Complaint cx.env cx.source us N (.string, sp) "unknown escape character" s ∧ Reports cx "unknown escape character" s e := by
  rcases ok.text with h' | h' | h' | ⟨raw, h1, h2⟩
  · cases h'
  · cases h'
  · cases h'
  obtain ⟨body, rfl, _⟩ := h2
  simp only [Parser.parseString, Parser.text, show sp.of cx.source = _ from h1] at h
  simp only [Res.ofOption, Res.ok_bind] at h
  split at h
  · obtain ⟨a, x, c, b, e1, e2, e3, e4⟩ := unescape_err _ _ _ _ _ (Nat.le_refl _) h
    cases a with
    | nil => simp at e1
    | cons a0 a =>
      injection e1 with e0 e1
      subst e0
      have hu : Unescaped a x := by
        cases e2 with
        | char _ h => exact absurd rfl h
        | stray h => exact h
      refine ⟨_, .escape (body := a) (c := c) (post := b) rfl (by rw [textAt_of h1, e1]; rfl) hu e3, ?_⟩
      have u : '\\'.utf8Size = 1 := by decide
      have p1 : blen ('"' :: (a ++ ['\\'])) = blen ('"' :: a) + 1 := by simp [blen, u]; omega
      have p2 : blen ('"' :: (a ++ ['\\', c])) = blen ('"' :: a) + 1 + c.utf8Size := by simp [blen, u]; omega
      rw [p1, p2]
      simpa [Nat.add_assoc] using e4
  · split at h
    · cases hs : slice ('"' :: (body ++ ['"'])) 1 (blen ('"' :: (body ++ ['"'])) - 1) <;> rw [hs] at h <;> cases h
    · cases h

/-! Expressions -/

/-- The head of the rest is not this token. -/
def Isnt (tk : Token) (ts : List Tok) : Prop := ∀ t ts', ts = t :: ts' → t.1 ≠ tk

theorem it_ident (t : Tok) (h : ∀ s, it cx.source t ≠ .word .ident s) : t.1 ≠ .ident := by
  obtain ⟨tk, sp⟩ := t
  rintro rfl
  exact h _ rfl

theorem parseAccess_reads (hne : cx.source ≠ []) {p : Parser} {args : Bool} {f : After} {st : List Blk} {ts : List Tok} {r : Option Err}
    (h : Abs cx p ts r) (hg : Tg cx ts) :
    Reads cx (.expr .access args f, st) (fun q _ _ => q = (.expr .path args f, st)) ts r (Parser.parseAccess cx p) := by
  rcases parse_reads hne (q := (.expr .access args f, st)) h ⟨.word .ident [], by simp [Machine.step, exprStep]⟩ with
    ⟨e, h1, h2⟩ | ⟨⟨tk, sp⟩, rest, p', rfl, h1, h2⟩
  · exact Or.inl ⟨e, by simp [Parser.parseAccess, h1], h2⟩
  · have ok := hg.str.toks (tk, sp) (by simp)
    have bad : ∀ x : Res (Access × Parser), x = Parser.errUnexpectedToken cx "identifier or index" tk sp →
        Machine.step cx.env (.expr .access args f, st) (it cx.source (tk, sp)) = none →
        Reads cx (.expr .access args f, st) (fun q _ _ => q = (.expr .path args f, st)) ((tk, sp) :: rest) r x := by
      rintro x rfl hs
      obtain ⟨e, h3, hb⟩ := bad_tok (r := r) hg hs (.expected .access (i := .word .ident []) (by simp [Machine.step, exprStep])) (α := Access × Parser)
      exact Or.inl ⟨e, h3, hb⟩
    simp only [Parser.parseAccess, h1, Res.ok_bind]
    cases tk with
    | index =>
      obtain ⟨s, hs⟩ := ok.span
      simp only at hs
      simp only [Parser.text, hs, Res.ofOption, Res.ok_bind, Parser.parseUsize_eq]
      by_cases hd : decimal s < 2 ^ cx.env.usizeBits
      · rw [if_pos hd]
        refine Or.inr ⟨[(.index, sp)], rest, _, p', (.expr .path args f, st), .cons rfl .nil, rfl, rfl, h2, hg.tail rfl, ?_, rfl⟩
        rw [hg.spoken, run_cons_of (by simp only [it, textAt_of hs, Machine.step, exprStep]; rw [if_pos hd])]; rfl
      · rw [if_neg hd]
        obtain ⟨e, h3, hb⟩ := bad_tok (r := r) (q := (.expr .access args f, st)) hg
          (by simp only [it, textAt_of hs, Machine.step, exprStep]; rw [if_neg hd]) (.index rfl (textAt_of hs) (Nat.le_of_not_lt hd)) (α := Access × Parser)
        exact Or.inl ⟨e, h3, hb⟩
    | ident =>
      refine Or.inr ⟨[(.ident, sp)], rest, _, p', (.expr .path args f, st), .cons rfl .nil, rfl, rfl, h2, hg.tail rfl, ?_, rfl⟩
      rw [hg.spoken, run_cons_of (q' := (.expr .path args f, st)) rfl]; rfl
    | _ => exact bad _ rfl rfl

theorem parseVarLoop_reads (hne : cx.source ≠ []) {args : Bool} {f : After} {st : List Blk} {r : Option Err} :
    ∀ (fuel : Nat) (path : List Member) (p : Parser) (ts : List Tok), Abs cx p ts r → Tg cx ts → ts.length < fuel →
    Reads cx (.expr .path args f, st) (fun q rest _ => q = (.expr .path args f, st) ∧ Isnt .dot rest ∧ Isnt .questionDot rest) ts r
      (Parser.parseVarLoop cx fuel path p) := by
  intro fuel
  induction fuel with
  | zero => intro path p ts _ _ h; omega
  | succ fuel ih =>
    intro path p ts h hg hf
    have go : ∀ (op : AccessOp) (tk : Token) (sp : Span) (ts' : List Tok) (p1 : Parser), tk = .dot ∨ tk = .questionDot →
        ts = (tk, sp) :: ts' → Abs cx p1 ts r →
        Reads cx (.expr .path args f, st) (fun q rest _ => q = (.expr .path args f, st) ∧ Isnt .dot rest ∧ Isnt .questionDot rest) ts r
          (do
            let (_, p) ← Parser.expect cx p1 tk
            let (access, p) ← Parser.parseAccess cx p
            Parser.parseVarLoop cx fuel (path ++ [{ op, access, span := sp.combine access.span }]) p) := by
      intro op tk sp ts' p1 hop hts hp1
      subst hts
      refine Reads.bind (expect_seen (q' := (.expr .access args f, st)) hp1 hg (by rcases hop with rfl | rfl <;> rfl)
        (by rcases hop with rfl | rfl <;> rfl)) ?_
      rintro q1 rest sp' p2 a1 a2 ⟨rfl, rfl⟩ _
      refine Reads.bind (parseAccess_reads hne a1 a2) ?_
      rintro q2 rest' a p3 b1 b2 rfl hl
      exact ih _ _ _ b1 b2 (by simp at hf; omega)
    cases ts with
    | nil =>
      cases r with
      | none =>
        obtain ⟨p', h1, h2⟩ := peek_eof h
        simp only [Parser.parseVarLoop, h1, Res.ok_bind]
        exact .pure h2 hg ⟨rfl, (fun t ts' e => by cases e), (fun t ts' e => by cases e)⟩
      | some e => exact Or.inl ⟨e, by simp [Parser.parseVarLoop, peek_err h], .lexer rfl rfl⟩
    | cons t ts =>
      obtain ⟨tk, sp⟩ := t
      obtain ⟨p1, h1, h2⟩ := peek_cons h
      by_cases hd : tk = .dot
      · subst hd; simp only [Parser.parseVarLoop, h1, Res.ok_bind]; exact go .direct .dot sp ts p1 (Or.inl rfl) rfl h2
      · by_cases hq : tk = .questionDot
        · subst hq; simp only [Parser.parseVarLoop, h1, Res.ok_bind]; exact go .optional .questionDot sp ts p1 (Or.inr rfl) rfl h2
        · have e1 : Parser.parseVarLoop cx (fuel + 1) path p = .ok (path, p1) := by
            simp only [Parser.parseVarLoop, h1, Res.ok_bind]
            cases tk <;> first | exact absurd rfl hd | exact absurd rfl hq | rfl
          rw [e1]
          exact .pure h2 hg ⟨rfl, fun t ts' e => by cases e; exact hd, fun t ts' e => by cases e; exact hq⟩

/-- The number after a sign. -/
theorem number_reads (hne : cx.source ≠ []) {p : Parser} {s : Span} {tk : Token} {sign : Sign} {args : Bool} {f : After} {st : List Blk}
    {ts : List Tok} {r : Option Err} (hsign : (tk = .plus ∧ sign = .pos) ∨ (tk = .minus ∧ sign = .neg))
    (h : Abs cx p ts r) (hg : Tg cx ((tk, s) :: ts)) :
    Reads cx (.expr .base args f, st) (fun q _ _ => q = (.expr .lit args f, st)) ((tk, s) :: ts) r
      (do
        let (span, p) ← Parser.expect cx p .number
        let raw ← Parser.text cx span
        let lit ← Parser.parseLiteralNumber cx raw (s.combine span) sign
        pure (BaseExpr.lit lit, p)) := by
  have htk : tk = .plus ∨ tk = .minus := by rcases hsign with ⟨h, _⟩ | ⟨h, _⟩ <;> simp [h]
  have hstep : Machine.step cx.env (.expr .base args f, st) (it cx.source (tk, s)) = some (.expr (.sign (Parser.negOf sign)) args f, st) := by
    rcases hsign with ⟨rfl, rfl⟩ | ⟨rfl, rfl⟩ <;> rfl
  have htk' : isEndTag tk = false := by rcases htk with rfl | rfl <;> rfl
  have hg' : Tg cx ts := hg.tail htk'
  have hzero : Machine.step cx.env (.expr (.sign (Parser.negOf sign)) args f, st) (.word .number "0".toList) ≠ none := by
    simp only [Machine.step, exprStep]
    rw [if_pos (Machine.numLit_zero _)]; simp
  -- the rest after the sign
  cases ts with
  | nil =>
    left
    cases r with
    | none =>
      obtain ⟨p', h1⟩ := next_eof h
      obtain ⟨e, he, hb⟩ := bad_eof (cx := cx) hne (q := (.expr (.sign (Parser.negOf sign)) args f, st)) (α := Span × Parser) (.word (tk := .number)) hzero
      exact ⟨e, by simp [Parser.expect, h1, he, human_token], hb.step hg hstep htk'⟩
    | some e => exact ⟨e, by simp [Parser.expect, next_err h], Bad.step hg hstep (.lexer rfl rfl) htk'⟩
  | cons t ts =>
    obtain ⟨tk', sp⟩ := t
    by_cases hn : tk' = .number
    · subst hn
      obtain ⟨p', h1, h2⟩ := Parser.expect_ok h
      have ok1 := hg.str.toks (tk, s) (by simp)
      have ok2 := hg.str.toks (.number, sp) (by simp)
      obtain ⟨raw, a1, a2⟩ := Parser.number_text ok2
      obtain ⟨t, b1, b2⟩ := Parser.sign_text ok1 htk
      obtain ⟨gap, c1, c2⟩ := hg.str.signs [] tk s sp ts rfl htk
      simp only [h1, Res.ok_bind, Parser.text, show sp.of cx.source = _ from a1, Res.ofOption]
      have hit : it cx.source (.number, sp) = .word .number raw := by rw [it, textAt_of a1]
      rcases Parser.parseLiteralNumber_spec hne (sign := sign) (ok1.span.combine ok2.span) (Parser.ascii_signed b1 b2 a1 a2 c1 c2)
        with ⟨v, d1, d2⟩ | ⟨d1, e, d2⟩
      · rw [d2]
        refine Or.inr ⟨[(tk, s), (.number, sp)], ts, _, p', (.expr .lit args f, st), .cons htk' (.cons rfl .nil), rfl, rfl, h2, hg'.tail rfl, ?_, rfl⟩
        rw [hg.spoken, run_cons_of hstep, hg'.spoken, run_cons_of (by
          rw [hit]; simp only [Machine.step, exprStep]; rw [if_pos ⟨v, d1⟩])]
        rfl
      · rw [d2]
        obtain ⟨m, k, e1, e2⟩ := parseLiteralNumber_err a2 d2
        refine Or.inl ⟨e, rfl, .tok (us := [(tk, s)]) (t := (.number, sp)) (vs := ts) (q' := (.expr (.sign (Parser.negOf sign)) args f, st))
          rfl hg' ?_ ?_ ?_ e2 (.cons htk' .nil)⟩
        · rw [hg.spoken, run_cons_of hstep]; rfl
        · rw [hit]; simp only [Machine.step, exprStep]
          rw [if_neg (by rintro ⟨v, hv⟩; exact d1 v hv)]
        · have l1 := (boundary_of_slice b1).2.2.1
          have l2 := (boundary_of_slice c1).2.2.1
          have l3 := (boundary_of_slice a1).2.2.1
          have hspan : s.combine sp = ⟨s.m, sp.n⟩ := by
            simp only [Span.combine]
            congr 1
            · exact Nat.min_eq_left (by omega)
            · exact Nat.max_eq_right (by omega)
          rw [hspan]
          refine .signed (us' := []) (s := (tk, s)) (neg := Parser.negOf sign) rfl rfl ?_ (by rw [textAt_of a1]; exact e1)
          rcases hsign with ⟨rfl, rfl⟩ | ⟨rfl, rfl⟩ <;> rfl
    · left
      obtain ⟨p', h1, h2⟩ := next_cons h
      obtain ⟨e, h3, hb⟩ := bad_tok (r := r) (q := (.expr (.sign (Parser.negOf sign)) args f, st)) hg'
        (by cases tk' <;> first | exact absurd rfl hn | rfl) (.expected (.word (tk := .number)) hzero) (α := Span × Parser)
      refine ⟨e, ?_, hb.step hg hstep htk'⟩
      simp only [Parser.expect, h1, Res.ok_bind, if_neg hn, Parser.errUnexpectedToken, human_token]
      rw [h3]; rfl

/-- After a name or a literal. -/
def Based (args : Bool) (f : After) (st : List Blk) (q : Machine.State) (rest : List Tok) : Prop :=
  q = (.expr .lit args f, st) ∨ q = (.expr .path args f, st) ∧ Isnt .dot rest ∧ Isnt .questionDot rest

theorem Reads.weaken {α : Type} {q : Machine.State} {post post' : Machine.State → List Tok → α → Prop} {ts : List Tok} {r : Option Err}
    {x : Res (α × Parser)} (h : Reads cx q post ts r x) (hp : ∀ q rest a, post q rest a → post' q rest a) : Reads cx q post' ts r x := by
  rcases h with h | ⟨u, rs, a, p', q', h0, h1, h2, h3, h4, h5, h6⟩
  · exact Or.inl h
  · exact Or.inr ⟨u, rs, a, p', q', h0, h1, h2, h3, h4, h5, hp _ _ _ h6⟩

theorem parseBaseExpr_reads (hne : cx.source ≠ []) {p : Parser} {args : Bool} {f : After} {st : List Blk} {ts : List Tok} {r : Option Err}
    (h : Abs cx p ts r) (hg : Tg cx ts) :
    Reads cx (.expr .base args f, st) (fun q rest _ => Based args f st q rest) ts r (Parser.parseBaseExpr cx p) := by
  have hid : Machine.step cx.env (.expr .base args f, st) (.word .ident []) ≠ none := by simp [Machine.step, exprStep]
  rcases parse_reads hne (q := (.expr .base args f, st)) h ⟨_, hid⟩ with ⟨e, h1, h2⟩ | ⟨⟨tk, sp⟩, rest, p', rfl, h1, h2⟩
  · exact Or.inl ⟨e, by simp [Parser.parseBaseExpr, h1], h2⟩
  have ok := hg.str.toks (tk, sp) (by simp)
  have hl := hg.str.len
  have bad : ∀ x : Res (BaseExpr × Parser), x = Parser.errUnexpectedToken cx "expression" tk sp →
      Machine.step cx.env (.expr .base args f, st) (it cx.source (tk, sp)) = none →
      Reads cx (.expr .base args f, st) (fun q rest _ => Based args f st q rest) ((tk, sp) :: rest) r x := by
    rintro x rfl hs
    obtain ⟨e, h3, hb⟩ := bad_tok (r := r) hg hs (.expected .expression (i := .word .ident []) hid) (α := BaseExpr × Parser)
    exact Or.inl ⟨e, h3, hb⟩
  simp only [Parser.parseBaseExpr, h1, Res.ok_bind]
  cases tk with
  | keyword =>
    obtain ⟨s, kw, a1, a2, a3⟩ := Parser.kw_of ok
    have hit : it cx.source (.keyword, sp) = .word .keyword s := by rw [it, textAt_of a1]
    have lit : s = "true".toList ∨ s = "false".toList → ∀ l : BaseExpr,
        Reads cx (.expr .base args f, st) (fun q rest _ => Based args f st q rest) ((.keyword, sp) :: rest) r (.ok (l, p')) := by
      intro hs l
      refine Or.inr ⟨[(.keyword, sp)], rest, l, p', (.expr .lit args f, st), .cons rfl .nil, rfl, rfl, h2, hg.tail rfl, ?_, Or.inl rfl⟩
      rw [hg.spoken, run_cons_of (by rw [hit]; simp only [Machine.step, exprStep]; rw [if_pos hs])]; rfl
    by_cases hf : s = "false".toList
    · simp only [Parser.parseLiteralBool, Parser.text, a1, Res.ofOption, Res.ok_bind, if_pos hf, Res.pure_eq]
      exact lit (Or.inr hf) _
    · by_cases ht : s = "true".toList
      · simp only [Parser.parseLiteralBool, Parser.text, a1, Res.ofOption, Res.ok_bind, if_neg hf, if_pos ht, Res.pure_eq]
        exact lit (Or.inl ht) _
      · obtain ⟨e, h3, hb⟩ := bad_tok (r := r) (q := (.expr .base args f, st)) hg
          (by rw [hit]; simp only [Machine.step, exprStep]; rw [if_neg (by rintro (h | h); exacts [ht h, hf h])])
          (.keyword (a := String.ofList s) rfl (by rw [textAt_of a1]; simp)) (α := Literal)
        refine Or.inl ⟨e, ?_, hb⟩
        simp only [Parser.parseLiteralBool, Parser.text, a1, Res.ofOption, Res.ok_bind, if_neg hf, if_neg ht, Parser.errUnexpectedKeyword]
        rw [h3]; rfl
  | minus => exact (number_reads hne (Or.inr ⟨rfl, rfl⟩) h2 hg).weaken fun _ _ _ h => Or.inl h
  | plus => exact (number_reads hne (Or.inl ⟨rfl, rfl⟩) h2 hg).weaken fun _ _ _ h => Or.inl h
  | number =>
    obtain ⟨raw, a1, a2⟩ := Parser.number_text ok
    have hit : it cx.source (.number, sp) = .word .number raw := by rw [it, textAt_of a1]
    simp only [Parser.text, a1, Res.ofOption, Res.ok_bind]
    rcases Parser.parseLiteralNumber_spec hne (sign := .pos) ok.span (Parser.ascii_self a1 a2) with ⟨v, d1, d2⟩ | ⟨d1, e, d2⟩
    · simp only at d2
      rw [d2]
      refine Or.inr ⟨[(.number, sp)], rest, _, p', (.expr .lit args f, st), .cons rfl .nil, rfl, rfl, h2, hg.tail rfl, ?_, Or.inl rfl⟩
      rw [hg.spoken, run_cons_of (by rw [hit]; simp only [Machine.step, exprStep]; rw [if_pos ⟨v, d1⟩])]; rfl
    · simp only at d2
      rw [d2]
      obtain ⟨m, k, e1, e2⟩ := parseLiteralNumber_err a2 d2
      refine Or.inl ⟨e, rfl, .tok (us := []) (t := (.number, sp)) (vs := rest) (q' := (.expr .base args f, st)) rfl hg rfl ?_
        (.number rfl hid (by rw [textAt_of a1]; exact e1)) e2⟩
      rw [hit]; simp only [Machine.step, exprStep]
      rw [if_neg (by rintro ⟨v, hv⟩; exact d1 v hv)]
  | string =>
    obtain ⟨raw, a1, hs⟩ := Parser.parseString_spec hne ok
    have hit : it cx.source (.string, sp) = .word .string raw := by rw [it, textAt_of a1]
    rcases hs with ⟨s, b1, _, b2⟩ | ⟨b1, e, b2⟩
    · simp only [Parser.parseLiteralString, b2, Res.ok_bind, Res.pure_eq]
      refine Or.inr ⟨[(.string, sp)], rest, _, p', (.expr .lit args f, st), .cons rfl .nil, rfl, rfl, h2, hg.tail rfl, ?_, Or.inl rfl⟩
      rw [hg.spoken, run_cons_of (by rw [hit]; simp only [Machine.step, exprStep]; rw [if_pos ⟨s, b1⟩])]; rfl
    · obtain ⟨sp', e2, e1⟩ := parseString_err ok b2 [] (fun i => Machine.step cx.env (.expr .base args f, st) i ≠ none)
      refine Or.inl ⟨e, by simp [Parser.parseLiteralString, b2], .tok (us := []) (t := (.string, sp)) (vs := rest)
        (q' := (.expr .base args f, st)) rfl hg rfl ?_ e2 e1⟩
      rw [hit]; simp only [Machine.step, exprStep]
      rw [if_neg (by rintro ⟨v, hv⟩; exact b1 v hv)]
  | ident =>
    have hstep : Machine.step cx.env (.expr .base args f, st) (it cx.source (.ident, sp)) = some (.expr .path args f, st) := rfl
    have hb := parseVarLoop_reads hne (args := args) (f := f) (st := st) (Parser.fuel cx) [] p' rest h2 (hg.tail rfl)
      (by simp at hl; simp [Parser.fuel]; omega)
    rcases hb with ⟨e, b1, b2⟩ | ⟨u, rs, a, p2, q', b0, rfl, b2, b3, b4, b5, rfl, b7⟩
    · exact Or.inl ⟨e, by simp [Parser.parseVar, b1], b2.step hg hstep⟩
    · refine Or.inr ⟨(.ident, sp) :: u, rs, .var ⟨⟨.direct, .key ⟨sp⟩, sp⟩, a⟩, p2, (.expr .path args f, st), .cons rfl b0, rfl, by simp [Parser.parseVar, b2], b3, b4, ?_, Or.inr ⟨rfl, b7⟩⟩
      rw [hg.spoken, run_cons_of hstep]; exact b5
  | _ => exact bad _ rfl rfl

theorem parseArgsLoop_reads (hne : cx.source ≠ []) {f : After} {st : List Blk} {r : Option Err} :
    ∀ (fuel : Nat) (vs : List BaseExpr) (p : Parser) (ts : List Tok), Abs cx p ts r → Tg cx ts → ts.length < fuel →
    Reads cx (.expr .base true f, st) (fun q rest es => Based true f st q rest ∧ Isnt .comma rest ∧ es ≠ []) ts r
      (Parser.parseArgsLoop cx fuel vs p) := by
  intro fuel
  induction fuel with
  | zero => intro _ _ _ _ _ h; omega
  | succ fuel ih =>
    intro vs p ts h hg hf
    rw [Parser.parseArgsLoop]
    refine Reads.bind (parseBaseExpr_reads hne h hg) ?_
    rintro q1 rest b p1 a1 a2 a3 hl
    refine Reads.bind (isNext_reads a1 a2 .comma) ?_
    rintro q2 rest2 c p2 b1 b2 ⟨rfl, rfl, b3, b4⟩ _
    cases c with
    | false => exact .pure b1 b2 ⟨a3, b4 rfl, by simp⟩
    | true =>
      obtain ⟨sp, ts', rfl⟩ := b3 rfl
      refine Reads.bind (expect_seen (q' := (.expr .base true f, st)) b1 b2 rfl ?_) ?_
      · rcases a3 with rfl | ⟨rfl, _⟩ <;> rfl
      · rintro q3 rest3 sp' p3 c1 c2 ⟨rfl, rfl⟩ _
        exact ih _ _ _ c1 c2 (by simp at hl; omega)

theorem parseArgs_reads (hne : cx.source ≠ []) {p : Parser} {span : Span} {f : After} {st : List Blk} {ts : List Tok} {r : Option Err}
    (h : Abs cx p ts r) (hg : Tg cx ts) :
    Reads cx (.expr .base true f, st) (fun q rest _ => Based true f st q rest ∧ Isnt .comma rest) ts r (Parser.parseArgs cx span p) := by
  have hl := hg.str.len
  rw [Parser.parseArgs]
  refine Reads.bind (parseArgsLoop_reads hne (Parser.fuel cx) [] p ts h hg (by simp [Parser.fuel]; omega)) ?_
  rintro q1 rest es p1 a1 a2 ⟨a3, a4, a5⟩ _
  obtain ⟨xs, x, rfl⟩ := Parser.snoc_of_ne a5
  simp only [List.getLast?_append, List.getLast?_singleton, Option.some_or, Res.ofOption, Res.ok_bind]
  exact .pure a1 a2 ⟨a3, a4⟩

/-- The state in which an expression can end, and what stands next cannot continue it. -/
def Ended (cx : LexCx) (f : After) (st : List Blk) (q : Machine.State) (rest : List Tok) : Prop :=
  ∃ p args, q = (.expr p args f, st) ∧ Done p = true ∧
    ∀ t ts', rest = t :: ts' → Machine.step cx.env q (it cx.source t) = afterStep f st (it cx.source t)

theorem after_sign {f : After} {st : List Blk} {tk : Token} (h : tk ≠ .endExpr) (h' : tk ≠ .endBlock) : afterStep f st (.sign tk) = none := by
  cases f <;> cases tk <;> first | rfl | exact absurd rfl h | exact absurd rfl h'

theorem ended {f : After} {st : List Blk} {p : Pos} {args : Bool} (hp : Done p = true) {rest : List Tok}
    (h1 : p = .path → Isnt .dot rest ∧ Isnt .questionDot rest) (h2 : args = true → Isnt .comma rest) (h3 : p = .name → Isnt .colon rest)
    (h4 : Isnt .pipe rest) : Ended cx f st (.expr p args f, st) rest := by
  refine ⟨p, args, rfl, hp, ?_⟩
  rintro ⟨tk, sp⟩ ts' rfl
  have h4 := h4 _ _ rfl
  have hc : tk = .comma → args = false := by
    rintro rfl; cases args with
    | false => rfl
    | true => exact absurd rfl (h2 rfl _ _ rfl)
  cases p with
  | path =>
    have ha := (h1 rfl).1 _ _ rfl
    have hb := (h1 rfl).2 _ _ rfl
    cases tk <;> first
      | rfl
      | exact absurd rfl h4
      | exact absurd rfl ha
      | exact absurd rfl hb
      | (have := hc rfl; subst this; simp only [Machine.step, exprStep, it]; rw [after_sign (by simp) (by simp)]; rfl)
  | lit =>
    cases tk <;> first
      | rfl
      | exact absurd rfl h4
      | (have := hc rfl; subst this; simp only [Machine.step, exprStep, it]; rw [after_sign (by simp) (by simp)]; rfl)
  | name =>
    have ha := h3 rfl _ _ rfl
    cases tk <;> first
      | rfl
      | exact absurd rfl h4
      | exact absurd rfl ha
  | _ => cases hp

theorem parseExprLoop_reads (hne : cx.source ≠ []) {f : After} {st : List Blk} {r : Option Err} :
    ∀ (fuel : Nat) (expr : Expr) (p : Parser) (ts : List Tok) (pos : Pos) (args : Bool), Abs cx p ts r → Tg cx ts → ts.length < fuel →
    Done pos = true → (pos = .path → Isnt .dot ts ∧ Isnt .questionDot ts) → (args = true → Isnt .comma ts) → (pos = .name → Isnt .colon ts) →
    Reads cx (.expr pos args f, st) (fun q rest _ => Ended cx f st q rest) ts r (Parser.parseExprLoop cx fuel expr p) := by
  intro fuel
  induction fuel with
  | zero => intro _ _ _ _ _ _ _ h; omega
  | succ fuel ih =>
    intro expr p ts pos args h hg hf hd h1 h2 h3
    rw [Parser.parseExprLoop]
    refine Reads.bind (isNext_reads h hg .pipe) ?_
    rintro q1 rest b p1 a1 a2 ⟨rfl, rfl, a3, a4⟩ _
    cases b with
    | false => exact .pure a1 a2 (ended hd h1 h2 h3 (a4 rfl))
    | true =>
      obtain ⟨sp, ts', rfl⟩ := a3 rfl
      refine Reads.bind (expect_seen (q' := (.expr .pipe false f, st)) a1 a2 rfl (Machine.step_pipe hd args f st)) ?_
      rintro q2 rest2 sp2 p2 b1 b2 ⟨rfl, rfl⟩ _
      refine Reads.bind (parseIdent_reads hne (q' := (.expr .name false f, st)) b1 b2 (fun s => rfl) ?_) ?_
      · rintro ⟨tk, sp⟩ rs _ hn
        cases tk <;> first | exact absurd rfl hn | rfl
      rintro q3 rest3 name p3 c1 c2 rfl hl3
      refine Reads.bind (isNext_reads c1 c2 .colon) ?_
      rintro q4 rest4 c p4 d1 d2 ⟨rfl, rfl, d3, d4⟩ _
      cases c with
      | false =>
        exact ih _ _ _ .name false d1 d2 (by simp at hf; omega) rfl (by simp) (by simp) (fun _ => d4 rfl)
      | true =>
        obtain ⟨sp5, ts5, rfl⟩ := d3 rfl
        refine Reads.bind (expect_seen (q' := (.expr .base true f, st)) d1 d2 rfl rfl) ?_
        rintro q5 rest5 sp6 p5 e1 e2 ⟨rfl, rfl⟩ _
        refine Reads.bind (parseArgs_reads hne e1 e2) ?_
        rintro q6 rest6 as p6 f1 f2 ⟨f3, f4⟩ hl6
        rcases f3 with rfl | ⟨rfl, f5⟩
        · exact ih _ _ _ .lit true f1 f2 (by simp at hl3 hf; omega) rfl (by simp) (fun _ => f4) (by simp)
        · exact ih _ _ _ .path true f1 f2 (by simp at hl3 hf; omega) rfl (fun _ => f5) (fun _ => f4) (by simp)

theorem parseExpr_reads (hne : cx.source ≠ []) {p : Parser} {f : After} {st : List Blk} {ts : List Tok} {r : Option Err}
    (h : Abs cx p ts r) (hg : Tg cx ts) :
    Reads cx (.expr .base false f, st) (fun q rest _ => Ended cx f st q rest) ts r (Parser.parseExpr cx p) := by
  have hl := hg.str.len
  rw [Parser.parseExpr]
  refine Reads.bind (parseBaseExpr_reads hne h hg) ?_
  rintro q1 rest b p1 a1 a2 a3 hl1
  have hf : rest.length < Parser.fuel cx := by simp [Parser.fuel]; omega
  rcases a3 with rfl | ⟨rfl, a4⟩
  · exact parseExprLoop_reads hne _ _ _ _ .lit false a1 a2 hf rfl (by simp) (by simp) (by simp)
  · exact parseExprLoop_reads hne _ _ _ _ .path false a1 a2 hf rfl (fun _ => a4) (by simp) (by simp)

end Diag
end Upon
