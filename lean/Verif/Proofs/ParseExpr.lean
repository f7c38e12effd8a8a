import Verif.Proofs.Literals
/-
Expressions: the parser agrees with the grammar.
-/
namespace Upon
namespace Parser

variable {cx : LexCx}

/-- Facts about the tokens to come that hold for every suffix of the stream. -/
structure Str' (cx : LexCx) (ts : List Tok) : Prop where
  toks : ∀ t ∈ ts, TokOK cx t
  signs : Signs cx.source ts
  len : ts.length ≤ blen cx.source

theorem Str'.tail {t : Tok} {ts : List Tok} (h : Str' cx (t :: ts)) : Str' cx ts :=
  ⟨fun x hx => h.toks x (List.mem_cons_of_mem _ hx), h.signs.tail, by have := h.len; simp at this; omega⟩

theorem Str'.suffix {a b : List Tok} (h : Str' cx (a ++ b)) : Str' cx b := by
  induction a with
  | nil => exact h
  | cons t a ih => exact ih h.tail

theorem Str'.ne {t : Tok} {ts : List Tok} (h : Str' cx (t :: ts)) : cx.source ≠ [] := by
  have := h.len
  intro e
  rw [e] at this
  simp [blen] at this

theorem parse_parses (hne : cx.source ≠ []) {p : Parser} {ts : List Tok} {r : Option Err}
    (h : Abs cx p ts r) : Parses cx (fun used t => used = [t]) ts r (parse cx p) := by
  cases ts with
  | nil =>
    left
    cases r with
    | none =>
      obtain ⟨p', h1⟩ := next_eof h
      obtain ⟨e, he⟩ := errEof (cx := cx) hne (α := (Token × Span) × Parser) "token"
      exact ⟨e, by simp [parse, h1, he]⟩
    | some e => exact ⟨e, by simp [parse, next_err h]⟩
  | cons t ts =>
    obtain ⟨p', h1, h2⟩ := next_cons h
    exact Or.inr ⟨[t], ts, t, p', rfl, by simp [parse, h1], h2, rfl⟩

theorem parse_ok {p : Parser} {t : Tok} {ts : List Tok} {r : Option Err} (h : Abs cx p (t :: ts) r) :
    ∃ p', parse cx p = .ok (t, p') ∧ Abs cx p' ts r := by
  obtain ⟨p', h1, h2⟩ := next_cons h
  exact ⟨p', by simp [parse, h1], h2⟩

/-! Paths -/

/-- One member access after the dot. -/
def GAccess (cx : LexCx) (used : List Tok) (a : Access) : Prop :=
  (∃ sp, used = [(.ident, sp)] ∧ a = .key ⟨sp⟩) ∨
  ∃ sp s, used = [(.index, sp)] ∧ sp.of cx.source = some s ∧ Spec.decimal s < 2 ^ cx.env.usizeBits ∧
    a = .index ⟨Spec.decimal s, sp⟩

theorem parseAccess_parses (hne : cx.source ≠ []) {p : Parser} {ts : List Tok} {r : Option Err}
    (h : Abs cx p ts r) (hs : Str' cx ts) : Parses cx (GAccess cx) ts r (parseAccess cx p) := by
  rcases parse_parses hne h with ⟨e, h1⟩ | ⟨used, rest, ⟨tk, sp⟩, p', rfl, h1, h2, rfl⟩
  · exact Or.inl ⟨e, by simp [parseAccess, h1]⟩
  · have ok := hs.toks (tk, sp) (by simp)
    by_cases hi : tk = .index
    · subst hi
      obtain ⟨s, hsp⟩ := ok.span
      by_cases hd : Spec.decimal s < 2 ^ cx.env.usizeBits
      · right
        refine ⟨_, rest, .index ⟨Spec.decimal s, sp⟩, p', rfl, ?_, h2, Or.inr ⟨sp, s, rfl, hsp, hd, rfl⟩⟩
        simp [parseAccess, h1, text, show sp.of cx.source = _ from hsp, Res.ofOption, parseUsize_eq, hd]
      · left
        obtain ⟨e, he⟩ := errAt (cx := cx) hne (α := Access × Parser) ok.span
          s!"base 10 literal out of range for unsigned {cx.env.usizeBits}-bit integer"
        refine ⟨e, ?_⟩
        simp [parseAccess, h1, text, show sp.of cx.source = _ from hsp, Res.ofOption, parseUsize_eq, hd]
        exact he
    · by_cases hd : tk = .ident
      · subst hd
        exact Or.inr ⟨_, rest, .key ⟨sp⟩, p', rfl, by simp [parseAccess, h1], h2, Or.inl ⟨sp, rfl, rfl⟩⟩
      · left
        obtain ⟨e, he⟩ := errAt (cx := cx) hne (α := Access × Parser) ok.span
          s!"expected {"identifier or index"}, found {tk.human}"
        refine ⟨e, ?_⟩
        simp only [parseAccess, h1, Res.ok_bind]
        cases tk <;> first | exact absurd rfl hi | exact absurd rfl hd | exact he

theorem parseAccess_ok {p : Parser} {used ts : List Tok} {r : Option Err} {a : Access}
    (h : Abs cx p (used ++ ts) r) (hg : GAccess cx used a) :
    ∃ p', parseAccess cx p = .ok (a, p') ∧ Abs cx p' ts r := by
  rcases hg with ⟨sp, rfl, rfl⟩ | ⟨sp, s, rfl, h1, h2, rfl⟩
  · obtain ⟨p', a1, a2⟩ := parse_ok (t := (.ident, sp)) h
    exact ⟨p', by simp [parseAccess, a1], a2⟩
  · obtain ⟨p', a1, a2⟩ := parse_ok (t := (.index, sp)) h
    exact ⟨p', by simp [parseAccess, a1, text, h1, Res.ofOption, parseUsize_eq, h2], a2⟩

/-- The tokens that continue a path. -/
def isDot (tk : Token) : Bool := tk = .dot || tk = .questionDot

theorem gpath_cons {env : Env} {src : Str} {op : AccessOp} {tk : Token} {sp : Span} {used ts : List Tok}
    {a : Access} {ms : List Member} (hop : (op = .direct ∧ tk = .dot) ∨ (op = .optional ∧ tk = .questionDot))
    {cx : LexCx} (he : cx.env = env) (hsrc : cx.source = src)
    (ha : GAccess cx used a) (h : Spec.GPath env src ts ms) :
    Spec.GPath env src ((tk, sp) :: (used ++ ts)) (⟨op, a, sp.combine a.span⟩ :: ms) := by
  subst he hsrc
  rcases ha with ⟨isp, rfl, rfl⟩ | ⟨isp, s, rfl, h1, h2, rfl⟩
  · exact .key hop h
  · exact .index hop h1 h2 h

theorem parseVarLoop_parses (hne : cx.source ≠ []) : ∀ (fuel : Nat) (path : List Member) (p : Parser)
    (ts : List Tok) (r : Option Err), Abs cx p ts r → Str' cx ts → ts.length < fuel →
    Parses cx (fun used ms => ∃ ms', ms = path ++ ms' ∧ Spec.GPath cx.env cx.source used ms') ts r
      (parseVarLoop cx fuel path p) := by
  intro fuel
  induction fuel with
  | zero => intro path p ts r _ _ h; omega
  | succ fuel ih =>
    intro path p ts r h hs hf
    -- the common part of the two kinds of access
    have go : ∀ (op : AccessOp) (tk : Token) (sp : Span) (ts' : List Tok) (p1 : Parser),
        (op = .direct ∧ tk = .dot) ∨ (op = .optional ∧ tk = .questionDot) →
        ts = (tk, sp) :: ts' → Abs cx p1 ts r →
        Parses cx (fun used ms => ∃ ms', ms = path ++ ms' ∧ Spec.GPath cx.env cx.source used ms') ts r
          (do
            let (_, p) ← expect cx p1 tk
            let (access, p) ← parseAccess cx p
            parseVarLoop cx fuel (path ++ [{ op, access, span := sp.combine access.span }]) p) := by
      intro op tk sp ts' p1 hop hts hp1
      subst hts
      obtain ⟨p2, b1, b2⟩ := expect_ok hp1
      rcases parseAccess_parses hne b2 hs.tail with ⟨e, c1⟩ | ⟨used, rest, a, p3, rfl, c1, c2, c3⟩
      · exact Or.inl ⟨e, by simp [b1, c1]⟩
      · rcases ih (path ++ [⟨op, a, sp.combine a.span⟩]) p3 rest r c2 hs.tail.suffix
            (by simp at hf; omega) with ⟨e, d1⟩ | ⟨used', rest', ms, p4, rfl, d1, d2, ms', rfl, d3⟩
        · exact Or.inl ⟨e, by simp [b1, c1, d1]⟩
        · right
          refine ⟨(tk, sp) :: (used ++ used'), rest', _, p4, by simp, by simp [b1, c1, d1]; rfl, d2,
            ⟨op, a, sp.combine a.span⟩ :: ms', by simp, gpath_cons hop rfl rfl c3 d3⟩
    cases ts with
    | nil =>
      cases r with
      | none =>
        obtain ⟨p', h1, h2⟩ := peek_eof h
        exact Or.inr ⟨[], [], path, p', rfl, by simp [parseVarLoop, h1], h2, [], by simp, .nil⟩
      | some e => exact Or.inl ⟨e, by simp [parseVarLoop, peek_err h]⟩
    | cons t ts =>
      obtain ⟨tk, sp⟩ := t
      obtain ⟨p1, h1, h2⟩ := peek_cons h
      by_cases hd : tk = .dot
      · subst hd
        have := go .direct .dot sp ts p1 (Or.inl ⟨rfl, rfl⟩) rfl h2
        simp only [parseVarLoop, h1, Res.ok_bind]
        exact this
      · by_cases hq : tk = .questionDot
        · subst hq
          have := go .optional .questionDot sp ts p1 (Or.inr ⟨rfl, rfl⟩) rfl h2
          simp only [parseVarLoop, h1, Res.ok_bind]
          exact this
        · right
          refine ⟨[], (tk, sp) :: ts, path, p1, rfl, ?_, h2, [], by simp, .nil⟩
          simp only [parseVarLoop, h1, Res.ok_bind]
          cases tk <;> first | exact absurd rfl hd | exact absurd rfl hq | rfl

theorem parseVarLoop_ok {ts : List Tok} {ms : List Member} (hg : Spec.GPath cx.env cx.source ts ms) :
    ∀ (fuel : Nat) (path : List Member) (p : Parser) (t : Tok) (rest : List Tok) (r : Option Err),
    isDot t.1 = false → Abs cx p (ts ++ t :: rest) r → ts.length < fuel →
    ∃ p', parseVarLoop cx fuel path p = .ok (path ++ ms, p') ∧ Abs cx p' (t :: rest) r := by
  induction hg with
  | nil =>
    intro fuel path p t rest r hd h hf
    obtain ⟨fuel, rfl⟩ : ∃ f, fuel = f + 1 := ⟨fuel - 1, by simp at hf; omega⟩
    obtain ⟨p1, h1, h2⟩ := peek_cons h
    refine ⟨p1, ?_, h2⟩
    obtain ⟨tk, sp⟩ := t
    simp only [parseVarLoop, h1, Res.ok_bind]
    cases tk <;> first | (simp [isDot] at hd; done) | simp
  | @key op tk sp isp ts ms hop _ ih =>
    intro fuel path p t rest r hd h hf
    obtain ⟨fuel, rfl⟩ : ∃ f, fuel = f + 1 := ⟨fuel - 1, by simp at hf; omega⟩
    obtain ⟨p1, h1, h2⟩ := peek_cons h
    obtain ⟨p2, h3, h4⟩ := expect_ok h2
    obtain ⟨p3, h5, h6⟩ := parseAccess_ok (used := [(.ident, isp)]) h4 (Or.inl ⟨isp, rfl, rfl⟩)
    obtain ⟨p4, h7, h8⟩ := ih fuel (path ++ [⟨op, .key ⟨isp⟩, sp.combine isp⟩]) p3 t rest r hd h6
      (by simp at hf; omega)
    refine ⟨p4, ?_, h8⟩
    rcases hop with ⟨rfl, rfl⟩ | ⟨rfl, rfl⟩ <;>
      simp [parseVarLoop, h1, h3, h5, Access.span, h7]
  | @index op tk sp isp s ts ms hop hsp hd' _ ih =>
    intro fuel path p t rest r hd h hf
    obtain ⟨fuel, rfl⟩ : ∃ f, fuel = f + 1 := ⟨fuel - 1, by simp at hf; omega⟩
    obtain ⟨p1, h1, h2⟩ := peek_cons h
    obtain ⟨p2, h3, h4⟩ := expect_ok h2
    obtain ⟨p3, h5, h6⟩ := parseAccess_ok (used := [(.index, isp)]) h4 (Or.inr ⟨isp, s, rfl, hsp, hd', rfl⟩)
    obtain ⟨p4, h7, h8⟩ := ih fuel (path ++ [⟨op, .index ⟨Spec.decimal s, isp⟩, sp.combine isp⟩]) p3 t rest r hd h6
      (by simp at hf; omega)
    refine ⟨p4, ?_, h8⟩
    rcases hop with ⟨rfl, rfl⟩ | ⟨rfl, rfl⟩ <;>
      simp [parseVarLoop, h1, h3, h5, Access.span, h7]

/-! Names and literals -/

theorem number_parses (hne : cx.source ≠ []) {p : Parser} {s : Span} {tk : Token} {sign : Sign}
    {ts : List Tok} {r : Option Err} (hsign : (tk = .plus ∧ sign = .pos) ∨ (tk = .minus ∧ sign = .neg))
    (h : Abs cx p ts r) (hs : Str' cx ((tk, s) :: ts)) :
    Parses cx (fun used b => Spec.GBase cx.env cx.source ((tk, s) :: used) b) ts r
      (do
        let (span, p) ← expect cx p .number
        let raw ← text cx span
        let lit ← parseLiteralNumber cx raw (s.combine span) sign
        pure (.lit lit, p)) := by
  rcases expect_parses hne h hs.tail.toks .number with ⟨e, h1⟩ | ⟨used, rest, sp, p', rfl, h1, h2, rfl⟩
  · exact Or.inl ⟨e, by simp [h1]⟩
  · have ok1 := hs.toks (tk, s) (by simp)
    have ok2 := hs.toks (.number, sp) (by simp)
    have htk : tk = .plus ∨ tk = .minus := by rcases hsign with ⟨h, _⟩ | ⟨h, _⟩ <;> simp [h]
    obtain ⟨raw, a1, a2⟩ := number_text ok2
    obtain ⟨t, b1, b2⟩ := sign_text ok1 htk
    obtain ⟨gap, c1, c2⟩ := hs.signs [] tk s sp rest rfl htk
    rcases parseLiteralNumber_spec hne (sign := sign) (ok1.span.combine ok2.span) (ascii_signed b1 b2 a1 a2 c1 c2)
      with ⟨v, d1, d2⟩ | ⟨_, e, d2⟩
    · right
      refine ⟨_, rest, .lit ⟨v, s.combine sp⟩, p', rfl, ?_, h2, ?_⟩
      · simp [h1, text, show sp.of cx.source = _ from a1, Res.ofOption, d2]
      · rcases hsign with ⟨rfl, rfl⟩ | ⟨rfl, rfl⟩
        · exact .plus a1 d1
        · exact .minus a1 d1
    · exact Or.inl ⟨e, by simp [h1, text, show sp.of cx.source = _ from a1, Res.ofOption, d2]⟩

theorem parseBaseExpr_parses (hne : cx.source ≠ []) {p : Parser} {ts : List Tok} {r : Option Err}
    (h : Abs cx p ts r) (hs : Str' cx ts) :
    Parses cx (Spec.GBase cx.env cx.source) ts r (parseBaseExpr cx p) := by
  rcases parse_parses hne h with ⟨e, h1⟩ | ⟨used, rest, ⟨tk, sp⟩, p1, rfl, h1, h2, rfl⟩
  · exact Or.inl ⟨e, by simp [parseBaseExpr, h1]⟩
  have ok := hs.toks (tk, sp) (by simp)
  have hl := hs.len
  -- all the tokens that do not start an expression
  have bad : ∀ x : Res (BaseExpr × Parser), x = errUnexpectedToken cx "expression" tk sp →
      Parses cx (Spec.GBase cx.env cx.source) ([(tk, sp)] ++ rest) r x := by
    rintro x rfl
    exact Or.inl (errAt (cx := cx) hne (α := BaseExpr × Parser) ok.span _)
  have lift : ∀ {x : Res (BaseExpr × Parser)},
      Parses cx (fun used b => Spec.GBase cx.env cx.source ((tk, sp) :: used) b) rest r x →
      Parses cx (Spec.GBase cx.env cx.source) ([(tk, sp)] ++ rest) r x := by
    rintro x (⟨e, hx⟩ | ⟨used, rest', b, p', rfl, hx, ha, hg⟩)
    · exact Or.inl ⟨e, hx⟩
    · exact Or.inr ⟨(tk, sp) :: used, rest', b, p', by simp, hx, ha, hg⟩
  simp only [parseBaseExpr, h1, Res.ok_bind]
  cases tk with
  | keyword =>
    obtain ⟨s, kw, a1, a2, a3⟩ := kw_of ok
    by_cases hf : s = "false".toList
    · right
      refine ⟨_, rest, .lit ⟨.bool false, sp⟩, p1, rfl, ?_, h2, .false_ ⟨rfl, by rw [← hf]; exact a1⟩⟩
      simp [parseLiteralBool, text, a1, Res.ofOption, hf]
    · by_cases ht : s = "true".toList
      · right
        refine ⟨_, rest, .lit ⟨.bool true, sp⟩, p1, rfl, ?_, h2, .true_ ⟨rfl, by rw [← ht]; exact a1⟩⟩
        simp only [parseLiteralBool, text, a1, Res.ofOption, Res.ok_bind, if_neg hf, if_pos ht, Res.pure_eq]
      · left
        obtain ⟨e, he⟩ := errAt (cx := cx) hne (α := Literal) ok.span s!"unexpected keyword `{String.ofList s}`"
        refine ⟨e, ?_⟩
        simp only [parseLiteralBool, text, a1, Res.ofOption, Res.ok_bind, if_neg hf, if_neg ht, errUnexpectedKeyword]
        rw [he]; rfl
  | minus => exact lift (number_parses hne (Or.inr ⟨rfl, rfl⟩) h2 hs)
  | plus => exact lift (number_parses hne (Or.inl ⟨rfl, rfl⟩) h2 hs)
  | number =>
    obtain ⟨raw, a1, a2⟩ := number_text ok
    rcases parseLiteralNumber_spec hne (sign := .pos) ok.span (ascii_self a1 a2) with ⟨v, d1, d2⟩ | ⟨_, e, d2⟩
    · right
      refine ⟨_, rest, .lit ⟨v, sp⟩, p1, rfl, ?_, h2, .number a1 d1⟩
      simp [text, a1, Res.ofOption, d2]
    · exact Or.inl ⟨e, by simp [text, a1, Res.ofOption, d2]⟩
  | string =>
    obtain ⟨raw, a1, ⟨s, b1, _, b2⟩ | ⟨_, e, b2⟩⟩ := parseString_spec hne ok
    · right
      exact ⟨_, rest, .lit ⟨.string s, sp⟩, p1, rfl, by simp [parseLiteralString, b2], h2, .string a1 b1⟩
    · exact Or.inl ⟨e, by simp [parseLiteralString, b2]⟩
  | ident =>
    rcases parseVarLoop_parses hne (fuel cx) [] p1 rest r h2 hs.tail (by simp at hl; simp [fuel]; omega) with
      ⟨e, b1⟩ | ⟨used, rest', ms, p2, rfl, b1, b2, ms', rfl, b3⟩
    · exact Or.inl ⟨e, by simp [parseVar, b1]⟩
    · right
      exact ⟨(.ident, sp) :: used, rest', _, p2, by simp, by simp [parseVar, b1], b2, .var b3⟩
  | raw => exact bad _ rfl
  | beginExpr => exact bad _ rfl
  | endExpr => exact bad _ rfl
  | beginBlock => exact bad _ rfl
  | endBlock => exact bad _ rfl
  | beginComment => exact bad _ rfl
  | endComment => exact bad _ rfl
  | dot => exact bad _ rfl
  | questionDot => exact bad _ rfl
  | pipe => exact bad _ rfl
  | comma => exact bad _ rfl
  | colon => exact bad _ rfl
  | whitespace => exact bad _ rfl
  | index => exact bad _ rfl

theorem numLit_unique {env : Env} {raw : Str} {b : Bool} {v w : Value} (h1 : Spec.NumLit env raw b v)
    (h2 : Spec.NumLit env raw b w) : v = w := by
  cases h1 with
  | int a1 a2 =>
    cases h2 with
    | int b1 b2 => rw [intLit_unique a1 b1]
    | float b1 b2 => exact absurd a2 (b1 _ a1)
  | float a1 a2 =>
    cases h2 with
    | int b1 b2 => exact absurd b2 (a1 _ b1)
    | float b1 b2 => rw [a2] at b2; injection b2 with b2; rw [b2]

theorem number_ok {p : Parser} {s sp : Span} {tk : Token} {sign : Sign} {raw : Str} {v : Value}
    {ts : List Tok} {r : Option Err} (hsign : (tk = .plus ∧ sign = .pos) ∨ (tk = .minus ∧ sign = .neg))
    (h : Abs cx p ((.number, sp) :: ts) r) (hs : Str' cx ((tk, s) :: (.number, sp) :: ts))
    (hraw : sp.of cx.source = some raw) (hv : Spec.NumLit cx.env raw (negOf sign) v) :
    ∃ p', (do
        let (span, p) ← expect cx p .number
        let raw ← text cx span
        let lit ← parseLiteralNumber cx raw (s.combine span) sign
        pure (BaseExpr.lit lit, p) : Res (BaseExpr × Parser)) = .ok (.lit ⟨v, s.combine sp⟩, p') ∧ Abs cx p' ts r := by
  obtain ⟨p', h1, h2⟩ := expect_ok h
  have ok1 := hs.toks (tk, s) (by simp)
  have ok2 := hs.toks (.number, sp) (by simp)
  have htk : tk = .plus ∨ tk = .minus := by rcases hsign with ⟨h, _⟩ | ⟨h, _⟩ <;> simp [h]
  obtain ⟨raw', a1, a2⟩ := number_text ok2
  have e : raw' = raw := by rw [hraw] at a1; injection a1 with a1; exact a1.symm
  subst e
  obtain ⟨t, b1, b2⟩ := sign_text ok1 htk
  obtain ⟨gap, c1, c2⟩ := hs.signs [] tk s sp ts rfl htk
  rcases parseLiteralNumber_spec hs.ne (sign := sign) (ok1.span.combine ok2.span) (ascii_signed b1 b2 a1 a2 c1 c2)
    with ⟨w, d1, d2⟩ | ⟨d1, _⟩
  · rw [numLit_unique hv d1]
    exact ⟨p', by simp [h1, text, show sp.of cx.source = _ from a1, Res.ofOption, d2], h2⟩
  · exact absurd hv (d1 v)

theorem parseBaseExpr_ok {p : Parser} {ts : List Tok} {b : BaseExpr} (hg : Spec.GBase cx.env cx.source ts b)
    {t : Tok} {rest : List Tok} {r : Option Err} (hd : isDot t.1 = false)
    (h : Abs cx p (ts ++ t :: rest) r) (hs : Str' cx (ts ++ t :: rest)) :
    ∃ p', parseBaseExpr cx p = .ok (b, p') ∧ Abs cx p' (t :: rest) r := by
  cases hg with
  | @true_ sp hk =>
    obtain ⟨p1, h1, h2⟩ := parse_ok (t := (.keyword, sp)) h
    refine ⟨p1, ?_, h2⟩
    have : "true".toList ≠ "false".toList := by decide
    simp only [parseBaseExpr, h1, Res.ok_bind, parseLiteralBool, text, show sp.of cx.source = _ from hk.2, Res.ofOption, if_neg this, if_true, Res.pure_eq]
  | @false_ sp hk =>
    obtain ⟨p1, h1, h2⟩ := parse_ok (t := (.keyword, sp)) h
    refine ⟨p1, ?_, h2⟩
    simp only [parseBaseExpr, h1, Res.ok_bind, parseLiteralBool, text, show sp.of cx.source = _ from hk.2, Res.ofOption, if_true, Res.pure_eq]
  | @number sp raw v hraw hv =>
    obtain ⟨p1, h1, h2⟩ := parse_ok (t := (.number, sp)) h
    have ok := hs.toks (.number, sp) (by simp)
    obtain ⟨raw', a1, a2⟩ := number_text ok
    have e : raw' = raw := by rw [hraw] at a1; injection a1 with a1; exact a1.symm
    subst e
    rcases parseLiteralNumber_spec hs.ne (sign := .pos) ok.span (ascii_self a1 a2) with ⟨w, d1, d2⟩ | ⟨d1, _⟩
    · rw [numLit_unique hv d1]
      exact ⟨p1, by simp [parseBaseExpr, h1, text, a1, Res.ofOption, d2], h2⟩
    · exact absurd hv (d1 v)
  | @plus s sp raw v hraw hv =>
    obtain ⟨p1, h1, h2⟩ := parse_ok (t := (.plus, s)) h
    obtain ⟨p2, h3, h4⟩ := number_ok (Or.inl ⟨rfl, rfl⟩) h2 hs hraw hv
    exact ⟨p2, by simp only [parseBaseExpr, h1, Res.ok_bind]; exact h3, h4⟩
  | @minus s sp raw v hraw hv =>
    obtain ⟨p1, h1, h2⟩ := parse_ok (t := (.minus, s)) h
    obtain ⟨p2, h3, h4⟩ := number_ok (Or.inr ⟨rfl, rfl⟩) h2 hs hraw hv
    exact ⟨p2, by simp only [parseBaseExpr, h1, Res.ok_bind]; exact h3, h4⟩
  | @string sp raw v hraw hv =>
    obtain ⟨p1, h1, h2⟩ := parse_ok (t := (.string, sp)) h
    obtain ⟨raw', a1, ⟨s, b1, b3, b2⟩ | ⟨b1, _⟩⟩ := parseString_spec hs.ne (hs.toks (.string, sp) (by simp))
    · have e : raw' = raw := by rw [hraw] at a1; injection a1 with a1; exact a1.symm
      subst e
      rw [b3 v hv]
      exact ⟨p1, by simp [parseBaseExpr, h1, parseLiteralString, b2], h2⟩
    · have e : raw' = raw := by rw [hraw] at a1; injection a1 with a1; exact a1.symm
      subst e
      exact absurd hv (b1 v)
  | @var sp us ms hp =>
    obtain ⟨p1, h1, h2⟩ := parse_ok (t := (.ident, sp)) h
    have hl := hs.len
    obtain ⟨p2, h3, h4⟩ := parseVarLoop_ok hp (fuel cx) [] p1 t rest r hd h2 (by simp at hl; simp [fuel]; omega)
    exact ⟨p2, by simp [parseBaseExpr, h1, parseVar, h3], h4⟩

/-! Arguments -/

theorem gargs_ne {env : Env} {src : Str} {ts : List Tok} {es : List BaseExpr} (h : Spec.GArgs env src ts es) :
    es ≠ [] := by cases h <;> simp

theorem gbase_ne {env : Env} {src : Str} {ts : List Tok} {e : BaseExpr} (h : Spec.GBase env src ts e) :
    ts ≠ [] := by cases h <;> simp

theorem parseArgsLoop_parses (hne : cx.source ≠ []) : ∀ (fuel : Nat) (vs : List BaseExpr) (p : Parser)
    (ts : List Tok) (r : Option Err), Abs cx p ts r → Str' cx ts → ts.length < fuel →
    Parses cx (fun used es => ∃ es', es = vs ++ es' ∧ Spec.GArgs cx.env cx.source used es') ts r
      (parseArgsLoop cx fuel vs p) := by
  intro fuel
  induction fuel with
  | zero => intro _ _ _ _ _ _ h; omega
  | succ fuel ih =>
    intro vs p ts r h hs hf
    rcases parseBaseExpr_parses hne h hs with ⟨e, h1⟩ | ⟨used, rest, b, p1, rfl, h1, h2, h3⟩
    · exact Or.inl ⟨e, by simp [parseArgsLoop, h1]⟩
    · rcases isNext_cases h2 .comma with ⟨e, a1⟩ | ⟨p2, sp, ts', a1, rfl, a2⟩ | ⟨p2, a1, a2, _⟩
      · exact Or.inl ⟨e, by simp [parseArgsLoop, h1, a1]⟩
      · obtain ⟨p3, b1, b2⟩ := expect_ok a2
        rcases ih (vs ++ [b]) p3 ts' r b2 hs.suffix.tail (by simp at hf; omega) with
          ⟨e, c1⟩ | ⟨used', rest', es, p4, rfl, c1, c2, es', rfl, c3⟩
        · exact Or.inl ⟨e, by simp [parseArgsLoop, h1, a1, b1, c1]⟩
        · right
          refine ⟨used ++ (.comma, sp) :: used', rest', _, p4, by simp, by simp [parseArgsLoop, h1, a1, b1, c1]; rfl,
            c2, b :: es', by simp, .more h3 c3⟩
      · right
        exact ⟨used, rest, _, p2, rfl, by simp [parseArgsLoop, h1, a1], a2, [b], rfl, .one h3⟩

theorem parseArgsLoop_ok {ts : List Tok} {es : List BaseExpr} (hg : Spec.GArgs cx.env cx.source ts es) :
    ∀ (fuel : Nat) (vs : List BaseExpr) (p : Parser) (t : Tok) (rest : List Tok) (r : Option Err),
    isDot t.1 = false → t.1 ≠ .comma → Abs cx p (ts ++ t :: rest) r → Str' cx (ts ++ t :: rest) → ts.length < fuel →
    ∃ p', parseArgsLoop cx fuel vs p = .ok (vs ++ es, p') ∧ Abs cx p' (t :: rest) r := by
  induction hg with
  | @one ts e hb =>
    intro fuel vs p t rest r hd hc h hs hf
    obtain ⟨fuel, rfl⟩ : ∃ f, fuel = f + 1 := ⟨fuel - 1, by omega⟩
    obtain ⟨p1, h1, h2⟩ := parseBaseExpr_ok hb hd h hs
    obtain ⟨p2, h3, h4⟩ := isNext_cons h2 .comma
    refine ⟨p2, ?_, h4⟩
    simp [parseArgsLoop, h1, h3, hc]
  | @more ts e sp us es hb _ ih =>
    intro fuel vs p t rest r hd hc h hs hf
    obtain ⟨fuel, rfl⟩ : ∃ f, fuel = f + 1 := ⟨fuel - 1, by omega⟩
    have e1 : ts ++ (.comma, sp) :: us ++ t :: rest = ts ++ (.comma, sp) :: (us ++ t :: rest) := by simp
    rw [e1] at h hs
    obtain ⟨p1, h1, h2⟩ := parseBaseExpr_ok hb (by rfl) h hs
    obtain ⟨p2, h3, h4⟩ := isNext_cons h2 .comma
    obtain ⟨p3, h5, h6⟩ := expect_ok h4
    obtain ⟨p4, h7, h8⟩ := ih fuel (vs ++ [e]) p3 t rest r hd hc h6 hs.suffix.tail (by simp at hf; omega)
    exact ⟨p4, by simp [parseArgsLoop, h1, h3, h5, h7], h8⟩

theorem snoc_of_ne {α : Type} {l : List α} (h : l ≠ []) : ∃ xs x, l = xs ++ [x] := by
  rcases List.eq_nil_or_concat l with h' | ⟨xs, x, h'⟩
  · exact absurd h' h
  · exact ⟨xs, x, by simpa using h'⟩

theorem parseArgs_parses (hne : cx.source ≠ []) {p : Parser} {span : Span} {ts : List Tok} {r : Option Err}
    (h : Abs cx p ts r) (hs : Str' cx ts) :
    Parses cx (fun used a => ∃ es last, a = ⟨es ++ [last], span.combine last.span⟩ ∧
      Spec.GArgs cx.env cx.source used (es ++ [last])) ts r (parseArgs cx span p) := by
  have hl := hs.len
  rcases parseArgsLoop_parses hne (fuel cx) [] p ts r h hs (by simp [fuel]; omega) with
    ⟨e, h1⟩ | ⟨used, rest, vs, p1, rfl, h1, h2, es', rfl, h3⟩
  · exact Or.inl ⟨e, by simp [parseArgs, h1]⟩
  · obtain ⟨xs, x, e⟩ := snoc_of_ne (gargs_ne h3)
    subst e
    right
    exact ⟨used, rest, _, p1, rfl, by simp [parseArgs, h1, Res.ofOption], h2, xs, x, rfl, h3⟩

theorem parseArgs_ok {p : Parser} {span : Span} {ts : List Tok} {es : List BaseExpr} {last : BaseExpr}
    (hg : Spec.GArgs cx.env cx.source ts (es ++ [last]))
    {t : Tok} {rest : List Tok} {r : Option Err} (hd : isDot t.1 = false) (hc : t.1 ≠ .comma)
    (h : Abs cx p (ts ++ t :: rest) r) (hs : Str' cx (ts ++ t :: rest)) :
    ∃ p', parseArgs cx span p = .ok (⟨es ++ [last], span.combine last.span⟩, p') ∧ Abs cx p' (t :: rest) r := by
  have hl := hs.len
  obtain ⟨p1, h1, h2⟩ := parseArgsLoop_ok hg (fuel cx) [] p t rest r hd hc h hs (by simp at hl; simp [fuel]; omega)
  exact ⟨p1, by simp [parseArgs, h1, Res.ofOption], h2⟩

/-! Calls -/

theorem parseExprLoop_parses (hne : cx.source ≠ []) : ∀ (fuel : Nat) (expr : Expr) (p : Parser)
    (ts : List Tok) (r : Option Err), Abs cx p ts r → Str' cx ts → ts.length < fuel →
    Parses cx (Spec.GCalls cx.env cx.source expr) ts r (parseExprLoop cx fuel expr p) := by
  intro fuel
  induction fuel with
  | zero => intro _ _ _ _ _ _ h; omega
  | succ fuel ih =>
    intro expr p ts r h hs hf
    rcases isNext_cases h .pipe with ⟨e, a1⟩ | ⟨p1, psp, ts', a1, rfl, a2⟩ | ⟨p1, a1, a2, _⟩
    · exact Or.inl ⟨e, by simp [parseExprLoop, a1]⟩
    · obtain ⟨p2, b1, b2⟩ := expect_ok a2
      rcases parseIdent_parses hne b2 hs.tail.toks with ⟨e, c1⟩ | ⟨used, rest, ⟨nsp⟩, p3, rfl, c1, c2, rfl⟩
      · exact Or.inl ⟨e, by simp [parseExprLoop, a1, b1, c1]⟩
      · have hs2 := hs.tail.suffix
        rcases isNext_cases c2 .colon with ⟨e, d1⟩ | ⟨p4, csp, ts'', d1, rfl, d2⟩ | ⟨p4, d1, d2, _⟩
        · exact Or.inl ⟨e, by simp [parseExprLoop, a1, b1, c1, d1]⟩
        · obtain ⟨p5, e1, e2⟩ := expect_ok d2
          rcases parseArgs_parses hne (span := csp) e2 hs2.tail with
            ⟨e, f1⟩ | ⟨used', rest', args, p6, rfl, f1, f2, es, last, rfl, f3⟩
          · exact Or.inl ⟨e, by simp [parseExprLoop, a1, b1, c1, d1, e1, f1]⟩
          · rcases ih (.call ⟨nsp⟩ (some ⟨es ++ [last], csp.combine last.span⟩) expr
              (expr.span.combine (csp.combine last.span))) p6 rest' r f2 hs2.tail.suffix
              (by simp at hf; omega) with ⟨e, g1⟩ | ⟨used'', rest'', ex, p7, rfl, g1, g2, g3⟩
            · exact Or.inl ⟨e, by simp [parseExprLoop, a1, b1, c1, d1, e1, f1, g1]⟩
            · right
              refine ⟨(.pipe, psp) :: (.ident, nsp) :: (.colon, csp) :: (used' ++ used''), rest'', ex, p7, by simp,
                by simp [parseExprLoop, a1, b1, c1, d1, e1, f1, g1], g2, .callArgs f3 g3⟩
        · rcases ih (.call ⟨nsp⟩ none expr (expr.span.combine nsp)) p4 rest r d2 hs2
            (by simp at hf; omega) with ⟨e, g1⟩ | ⟨used'', rest'', ex, p7, rfl, g1, g2, g3⟩
          · exact Or.inl ⟨e, by simp [parseExprLoop, a1, b1, c1, d1, g1]⟩
          · right
            exact ⟨(.pipe, psp) :: (.ident, nsp) :: used'', rest'', ex, p7, by simp,
              by simp [parseExprLoop, a1, b1, c1, d1, g1], g2, .call g3⟩
    · exact Or.inr ⟨[], ts, expr, p1, rfl, by simp [parseExprLoop, a1], a2, .nil⟩

/-- The tokens that continue an expression. -/
def continues (tk : Token) : Bool :=
  tk = .dot || tk = .questionDot || tk = .comma || tk = .colon || tk = .pipe

theorem continues_not {tk : Token} (h : continues tk = false) :
    isDot tk = false ∧ tk ≠ .comma ∧ tk ≠ .colon ∧ tk ≠ .pipe := by
  cases tk <;> simp [continues] at h <;> simp [isDot]

theorem gcalls_head {env : Env} {src : Str} {e e' : Expr} {vs : List Tok} (hg : Spec.GCalls env src e vs e')
    (t : Tok) (rest : List Tok) (ht : continues t.1 = false) :
    ∃ t' rest', vs ++ t :: rest = t' :: rest' ∧ isDot t'.1 = false ∧ t'.1 ≠ .comma ∧ t'.1 ≠ .colon := by
  obtain ⟨h1, h2, h3, h4⟩ := continues_not ht
  cases hg with
  | nil => exact ⟨t, rest, rfl, h1, h2, h3⟩
  | call => exact ⟨_, _, rfl, rfl, by simp, by simp⟩
  | callArgs => exact ⟨_, _, rfl, rfl, by simp, by simp⟩

theorem parseExprLoop_ok {ts : List Tok} {e e' : Expr} (hg : Spec.GCalls cx.env cx.source e ts e') :
    ∀ (fuel : Nat) (p : Parser) (t : Tok) (rest : List Tok) (r : Option Err),
    continues t.1 = false → Abs cx p (ts ++ t :: rest) r → Str' cx (ts ++ t :: rest) → ts.length < fuel →
    ∃ p', parseExprLoop cx fuel e p = .ok (e', p') ∧ Abs cx p' (t :: rest) r := by
  induction hg with
  | nil =>
    intro fuel p t rest r ht h hs hf
    obtain ⟨fuel, rfl⟩ : ∃ f, fuel = f + 1 := ⟨fuel - 1, by simp at hf; omega⟩
    obtain ⟨p1, h1, h2⟩ := isNext_cons h .pipe
    exact ⟨p1, by simp [parseExprLoop, h1, (continues_not ht).2.2.2], h2⟩
  | @call e e' psp nsp ts hg ih =>
    intro fuel p t rest r ht h hs hf
    simp only [List.cons_append] at h hs
    obtain ⟨fuel, rfl⟩ : ∃ f, fuel = f + 1 := ⟨fuel - 1, by simp at hf; omega⟩
    obtain ⟨p1, h1, h2⟩ := isNext_cons h .pipe
    obtain ⟨p2, h3, h4⟩ := expect_ok h2
    obtain ⟨p3, h5, h6⟩ := parseIdent_ok h4
    obtain ⟨t', rest', e1, _, _, hcol⟩ := gcalls_head hg t rest ht
    have h6' := h6
    rw [e1] at h6'
    obtain ⟨p4, h7, h8⟩ := isNext_cons h6' .colon
    rw [← e1] at h8
    obtain ⟨p5, h9, h10⟩ := ih fuel p4 t rest r ht h8 hs.tail.tail (by simp at hf; omega)
    exact ⟨p5, by simp [parseExprLoop, h1, h3, h5, h7, hcol, h9], h10⟩
  | @callArgs e e' psp nsp csp us es last ts ha hg ih =>
    intro fuel p t rest r ht h hs hf
    simp only [List.cons_append] at h hs
    obtain ⟨fuel, rfl⟩ : ∃ f, fuel = f + 1 := ⟨fuel - 1, by simp at hf; omega⟩
    obtain ⟨p1, h1, h2⟩ := isNext_cons h .pipe
    obtain ⟨p2, h3, h4⟩ := expect_ok h2
    obtain ⟨p3, h5, h6⟩ := parseIdent_ok h4
    obtain ⟨p4, h7, h8⟩ := isNext_cons h6 .colon
    obtain ⟨p5, h9, h10⟩ := expect_ok h8
    obtain ⟨t', rest', e1, hd, hc, _⟩ := gcalls_head hg t rest ht
    have hs' := hs.tail.tail.tail
    rw [List.append_assoc] at h10 hs'
    rw [e1] at h10 hs'
    obtain ⟨p6, h11, h12⟩ := parseArgs_ok (span := csp) ha hd hc h10 hs'
    have hs'' := hs'.suffix
    rw [← e1] at h12 hs''
    obtain ⟨p7, h13, h14⟩ := ih fuel p6 t rest r ht h12 hs'' (by simp at hf; omega)
    exact ⟨p7, by simp [parseExprLoop, h1, h3, h5, h7, h9, h11, h13], h14⟩

theorem parseExpr_parses (hne : cx.source ≠ []) {p : Parser} {ts : List Tok} {r : Option Err}
    (h : Abs cx p ts r) (hs : Str' cx ts) :
    Parses cx (Spec.GExpr cx.env cx.source) ts r (parseExpr cx p) := by
  have hl := hs.len
  rcases parseBaseExpr_parses hne h hs with ⟨e, h1⟩ | ⟨used, rest, b, p1, rfl, h1, h2, h3⟩
  · exact Or.inl ⟨e, by simp [parseExpr, h1]⟩
  · rcases parseExprLoop_parses hne (fuel cx) (.base b) p1 rest r h2 hs.suffix (by simp at hl; simp [fuel]; omega) with
      ⟨e, a1⟩ | ⟨used', rest', ex, p2, rfl, a1, a2, a3⟩
    · exact Or.inl ⟨e, by simp [parseExpr, h1, a1]⟩
    · right
      exact ⟨used ++ used', rest', ex, p2, by simp, by simp [parseExpr, h1, a1], a2, used, b, used', rfl, h3, a3⟩

theorem parseExpr_ok {p : Parser} {ts : List Tok} {e : Expr} (hg : Spec.GExpr cx.env cx.source ts e)
    {t : Tok} {rest : List Tok} {r : Option Err} (ht : continues t.1 = false)
    (h : Abs cx p (ts ++ t :: rest) r) (hs : Str' cx (ts ++ t :: rest)) :
    ∃ p', parseExpr cx p = .ok (e, p') ∧ Abs cx p' (t :: rest) r := by
  obtain ⟨us, b, vs, rfl, hb, hc⟩ := hg
  have hl := hs.len
  rw [List.append_assoc] at h hs
  obtain ⟨t', rest', e1, hd, _, _⟩ := gcalls_head hc t rest ht
  rw [e1] at h hs
  obtain ⟨p1, h1, h2⟩ := parseBaseExpr_ok hb hd h hs
  have hs' := hs.suffix
  rw [← e1] at h2 hs'
  obtain ⟨p2, h3, h4⟩ := parseExprLoop_ok hc (fuel cx) p1 t rest r ht h2 hs' (by simp at hl; simp [fuel]; omega)
  exact ⟨p2, by simp [parseExpr, h1, h3], h4⟩

theorem gexpr_ne {env : Env} {src : Str} {ts : List Tok} {e : Expr} (h : Spec.GExpr env src ts e) : ts ≠ [] := by
  obtain ⟨us, b, vs, rfl, hb, _⟩ := h
  simp [gbase_ne hb]

/-- An expression does not start with a keyword other than `true` and `false`. -/
theorem gexpr_head {env : Env} {src : Str} {ts : List Tok} {e : Expr} (h : Spec.GExpr env src ts e) :
    ∃ t ts', ts = t :: ts' ∧ (t.1 = .keyword → ∃ kw : Keyword, Spec.IsKw src t kw.human ∧ (kw = .true_ ∨ kw = .false_)) := by
  obtain ⟨us, b, vs, rfl, hb, _⟩ := h
  cases hb with
  | true_ hk => exact ⟨_, _, rfl, fun _ => ⟨.true_, hk, Or.inl rfl⟩⟩
  | false_ hk => exact ⟨_, _, rfl, fun _ => ⟨.false_, hk, Or.inr rfl⟩⟩
  | number => exact ⟨_, _, rfl, fun h => by cases h⟩
  | plus => exact ⟨_, _, rfl, fun h => by cases h⟩
  | minus => exact ⟨_, _, rfl, fun h => by cases h⟩
  | string => exact ⟨_, _, rfl, fun h => by cases h⟩
  | var => exact ⟨_, _, rfl, fun h => by cases h⟩

theorem parseIfCond_parses (hne : cx.source ≠ []) {p : Parser} {ts : List Tok} {r : Option Err}
    (h : Abs cx p ts r) (hs : Str' cx ts) :
    Parses cx (fun used c => Spec.GCond cx.env cx.source used c.1 c.2) ts r (parseIfCond cx p) := by
  rcases isNextKeyword_cases h hs.toks .not_ with ⟨e, h1⟩ | ⟨p1, sp, ts', h1, rfl, h2, h3⟩ | ⟨p1, h1, h2⟩
  · exact Or.inl ⟨e, by simp [parseIfCond, h1]⟩
  · obtain ⟨p2, a1, a2⟩ := expectKeyword_ok (kw := .not_) h3 h2
    rcases parseExpr_parses hne a2 hs.tail with ⟨e, b1⟩ | ⟨used, rest, ex, p3, rfl, b1, b2, b3⟩
    · exact Or.inl ⟨e, by simp [parseIfCond, h1, a1, b1]⟩
    · exact Or.inr ⟨(.keyword, sp) :: used, rest, (true, ex), p3, rfl, by simp [parseIfCond, h1, a1, b1], b2, .not h2 b3⟩
  · rcases parseExpr_parses hne h2 hs with ⟨e, b1⟩ | ⟨used, rest, ex, p3, rfl, b1, b2, b3⟩
    · exact Or.inl ⟨e, by simp [parseIfCond, h1, b1]⟩
    · exact Or.inr ⟨used, rest, (false, ex), p3, rfl, by simp [parseIfCond, h1, b1], b2, .plain b3⟩

theorem parseIfCond_ok {p : Parser} {ts : List Tok} {n : Bool} {e : Expr} (hg : Spec.GCond cx.env cx.source ts n e)
    {t : Tok} {rest : List Tok} {r : Option Err} (ht : continues t.1 = false)
    (h : Abs cx p (ts ++ t :: rest) r) (hs : Str' cx (ts ++ t :: rest)) :
    ∃ p', parseIfCond cx p = .ok ((n, e), p') ∧ Abs cx p' (t :: rest) r := by
  cases hg with
  | plain hg =>
    obtain ⟨t0, ts0, rfl, h0⟩ := gexpr_head hg
    obtain ⟨p1, h1, h2⟩ := isNextKeyword_false (kw := .not_) h (fun hk => by
      obtain ⟨kw, a, b⟩ := h0 hk
      exact ⟨kw, a, by rcases b with rfl | rfl <;> simp⟩)
    obtain ⟨p2, h3, h4⟩ := parseExpr_ok hg ht h2 hs
    exact ⟨p2, by simp [parseIfCond, h1, h3], h4⟩
  | @not sp ts e hk hg =>
    obtain ⟨p1, h1, h2⟩ := isNextKeyword_true (kw := .not_) h hk
    obtain ⟨p2, h3, h4⟩ := expectKeyword_ok (kw := .not_) h2 hk
    obtain ⟨p3, h5, h6⟩ := parseExpr_ok hg ht h4 hs.tail
    exact ⟨p3, by simp [parseIfCond, h1, h3, h5], h6⟩

theorem parseLoopVars_parses (hne : cx.source ≠ []) {p : Parser} {ts : List Tok} {r : Option Err}
    (h : Abs cx p ts r) (hs : Str' cx ts) : Parses cx Spec.GVars ts r (parseLoopVars cx p) := by
  rcases parseIdent_parses hne h hs.toks with ⟨e, h1⟩ | ⟨used, rest, ⟨k⟩, p1, rfl, h1, h2, rfl⟩
  · exact Or.inl ⟨e, by simp [parseLoopVars, h1]⟩
  · rcases isNext_cases h2 .comma with ⟨e, a1⟩ | ⟨p2, c, ts', a1, rfl, a2⟩ | ⟨p2, a1, a2, _⟩
    · exact Or.inl ⟨e, by simp [parseLoopVars, h1, a1]⟩
    · obtain ⟨p3, b1, b2⟩ := expect_ok a2
      rcases parseIdent_parses hne b2 hs.suffix.tail.toks with ⟨e, c1⟩ | ⟨used, rest, ⟨v⟩, p4, rfl, c1, c2, rfl⟩
      · exact Or.inl ⟨e, by simp [parseLoopVars, h1, a1, b1, c1]⟩
      · right
        exact ⟨[(.ident, k), (.comma, c), (.ident, v)], rest, _, p4, rfl, by simp [parseLoopVars, h1, a1, b1, c1],
          c2, .keyValue⟩
    · exact Or.inr ⟨_, rest, .item ⟨k⟩, p2, rfl, by simp [parseLoopVars, h1, a1], a2, .item⟩

theorem parseLoopVars_ok {p : Parser} {ts : List Tok} {v : LoopVars} (hg : Spec.GVars ts v)
    {t : Tok} {rest : List Tok} {r : Option Err} (ht : t.1 ≠ .comma) (h : Abs cx p (ts ++ t :: rest) r) :
    ∃ p', parseLoopVars cx p = .ok (v, p') ∧ Abs cx p' (t :: rest) r := by
  cases hg with
  | @item sp =>
    obtain ⟨p1, h1, h2⟩ := parseIdent_ok (sp := sp) h
    obtain ⟨p2, h3, h4⟩ := isNext_cons h2 .comma
    exact ⟨p2, by simp [parseLoopVars, h1, h3, ht], h4⟩
  | @keyValue k c v =>
    obtain ⟨p1, h1, h2⟩ := parseIdent_ok (sp := k) h
    obtain ⟨p2, h3, h4⟩ := isNext_cons (t := (.comma, c)) h2 .comma
    obtain ⟨p3, h5, h6⟩ := expect_ok h4
    obtain ⟨p4, h7, h8⟩ := parseIdent_ok (sp := v) h6
    exact ⟨p4, by simp [parseLoopVars, h1, h3, h5, h7], h8⟩

end Parser
end Upon
