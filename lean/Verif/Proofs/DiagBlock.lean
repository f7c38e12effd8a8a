import Verif.Proofs.DiagExpr
/-
What the parser complains about in a block tag (for C51).
-/
namespace Upon
open Spec
namespace Diag
open Machine (Ctl Pos After Act Blk exprStep afterStep kwStep run_append_of run_cons_of run_nil run_cons Done Live doing)
open Plain (spoken textAt_of)
open Parser (Parses next_cons next_eof next_err peek_cons peek_eof peek_err Str')

variable {cx : LexCx}

/-- Starting from another state that does the same with what comes. -/
theorem Reads.start {α : Type} {q q2 : Machine.State} {post : Machine.State → List Tok → α → Prop} {ts : List Tok} {r : Option Err}
    {x : Res (α × Parser)} (h : Reads cx q2 post ts r x) (hle : ∀ i, Machine.step cx.env q2 i ≠ none → Machine.step cx.env q i ≠ none)
    (heq : ∀ t ts', ts = t :: ts' → Machine.step cx.env q (it cx.source t) = Machine.step cx.env q2 (it cx.source t))
    (hg : Tg cx ts) (hn : ∀ rest a, ¬ post q2 rest a) : Reads cx q post ts r x := by
  have hrun : ∀ us vs q', ts = us ++ vs → Machine.run cx.env q2 (spoken cx.source us) = some q' → us ≠ [] →
      Machine.run cx.env q (spoken cx.source us) = some q' := by
    rintro us vs q' rfl h hne
    cases us with
    | nil => exact absurd rfl hne
    | cons t us =>
      rw [Tg.spoken (ts := us ++ vs) hg, run_cons] at h ⊢
      rw [heq t _ rfl]; exact h
  rcases h with ⟨e, h1, h2⟩ | ⟨u, rs, a, p', q', h0, h1, h2, h3, h4, h5, h6⟩
  · refine Or.inl ⟨e, h1, ?_⟩
    cases h2 with
    | lexer a1 a2 a8 =>
      cases ts with
      | nil => exact .lexer a1 rfl
      | cons t ts => exact .lexer a1 (hrun (t :: ts) [] _ (by simp) a2 (by simp)) a8
    | @eof q' _ _ a1 a2 a3 a4 a5 a8 =>
      cases ts with
      | nil => cases a2; exact .eof (q' := q) a1 rfl a3 (hle _ a4) a5
      | cons t ts => exact .eof a1 (hrun (t :: ts) [] _ (by simp) a2 (by simp)) a3 a4 a5 a8
    | @tok us t vs q' m sp a1 a2 a3 a4 a6 a7 a8 =>
      cases us with
      | nil =>
        cases a3
        refine .tok (us := []) (q' := q) a1 a2 rfl (by rw [heq t vs a1]; exact a4) ?_ a7
        exact a6.mono hle
      | cons u us => exact .tok a1 a2 (hrun (u :: us) _ _ a1 a3 (by simp)) a4 a6 a7 a8
  · refine Or.inr ⟨u, rs, a, p', q', h0, h1, h2, h3, h4, ?_, h6⟩
    cases u with
    | nil => cases h5; exact absurd h6 (hn _ _)
    | cons t u => exact hrun (t :: u) _ _ h1 h5 (by simp)

theorem not_ended {f f' : After} {st st' : List Blk} {p : Pos} {args : Bool} {rest : List Tok} (hp : Done p = false) :
    ¬ Ended cx f st (.expr p args f', st') rest := by
  rintro ⟨p', args', h1, h2, _⟩
  cases h1; rw [hp] at h2; cases h2

theorem parseIfCond_reads (hne : cx.source ≠ []) {p : Parser} {a : Act} {st : List Blk} {ts : List Tok} {r : Option Err}
    (h : Abs cx p ts r) (hg : Tg cx ts) :
    Reads cx (.cond a, st) (fun q rest _ => Ended cx (.act a) st q rest) ts r (Parser.parseIfCond cx p) := by
  rw [Parser.parseIfCond]
  refine Reads.bind (isNextKeyword_reads h hg .not_) ?_
  rintro q1 rest b p1 a1 a2 ⟨rfl, rfl, a3, a4⟩ _
  cases b with
  | true =>
    obtain ⟨sp, ts', rfl, hk⟩ := a3 rfl
    refine Reads.bind (expectKeyword_seen (q' := (.expr .base false (.act a), st)) a1 a2 hk ?_) ?_
    · simp only [Machine.step]; exact if_pos rfl
    rintro q2 rest2 _ p2 b1 b2 ⟨rfl, rfl⟩ _
    refine Reads.bind (parseExpr_reads hne b1 b2) ?_
    rintro q3 rest3 e p3 c1 c2 c3 _
    exact .pure c1 c2 c3
  | false =>
    simp only [Bool.false_eq_true, if_false]
    refine Reads.bind (Reads.start (q2 := (.expr .base false (.act a), st)) (parseExpr_reads hne a1 a2) ?_ ?_ a2 ?_) ?_
    · intro i hi
      cases i with
      | word tk s =>
        cases tk with
        | keyword =>
          simp only [Machine.step]
          by_cases hs : s = "not".toList
          · rw [if_pos hs]; simp
          · rw [if_neg hs]; exact hi
        | _ => exact hi
      | _ => exact hi
    · rintro ⟨tk, sp⟩ ts' rfl
      by_cases hk : tk = .keyword
      · subst hk
        have := a4 rfl _ _ rfl rfl
        simp only [it] at this ⊢
        simp only [Machine.step]
        rw [if_neg (by intro hs; exact this (by rw [hs]; rfl))]
      · cases tk <;> first | rfl | exact absurd rfl hk
    · intro rest a; exact not_ended rfl
    · rintro q3 rest3 e p3 c1 c2 c3 _
      exact .pure c1 c2 c3

theorem parseLoopVars_reads (hne : cx.source ≠ []) {p : Parser} {st : List Blk} {ts : List Tok} {r : Option Err}
    (h : Abs cx p ts r) (hg : Tg cx ts) :
    Reads cx (.for0, st) (fun q rest _ => q = (.for1, st) ∧ Isnt .comma rest ∨ q = (.for3, st)) ts r (Parser.parseLoopVars cx p) := by
  rw [Parser.parseLoopVars]
  refine Reads.bind (parseIdent_reads hne (q' := (.for1, st)) h hg (fun s => rfl) ?_) ?_
  · rintro ⟨tk, sp⟩ rs _ hn
    cases tk <;> first | exact absurd rfl hn | rfl
  rintro q1 rest key p1 a1 a2 rfl _
  refine Reads.bind (isNext_reads a1 a2 .comma) ?_
  rintro q2 rest2 b p2 b1 b2 ⟨rfl, rfl, b3, b4⟩ _
  cases b with
  | false => exact .pure b1 b2 (Or.inl ⟨rfl, b4 rfl⟩)
  | true =>
    obtain ⟨sp, ts', rfl⟩ := b3 rfl
    refine Reads.bind (expect_seen (q' := (.for2, st)) b1 b2 rfl rfl) ?_
    rintro q3 rest3 _ p3 c1 c2 ⟨rfl, rfl⟩ _
    refine Reads.bind (parseIdent_reads hne (q' := (.for3, st)) c1 c2 (fun s => rfl) ?_) ?_
    · rintro ⟨tk, sp⟩ rs _ hn
      cases tk <;> first | exact absurd rfl hn | rfl
    rintro q4 rest4 _ p4 d1 d2 rfl _
    exact .pure d1 d2 (Or.inr rfl)

/-- What a block tag does. -/
def actOf : Block → Act
  | .if_ _ _ => .push .ifOpen
  | .else_ => .else_
  | .elseIf _ _ => .elseIf
  | .endif => .endif
  | .for_ _ _ => .push .for_
  | .endfor => .endfor
  | .with_ _ _ => .push .with_
  | .endwith => .endwith
  | .include_ _ _ => .skip

/-- Only the end of the tag can come. -/
def Closes (cx : LexCx) (a : Act) (st : List Blk) (q : Machine.State) (rest : List Tok) : Prop :=
  Machine.step cx.env q (.sign .endBlock) = ((a.on st).map fun st' => (.text, st')) ∧
  ∀ t ts', rest = t :: ts' → t.1 ≠ .endBlock → Machine.step cx.env q (it cx.source t) = none

theorem it_end {t : Tok} {tk : Token} (h : it cx.source t = .sign tk) : t.1 = tk := by
  obtain ⟨tk', sp⟩ := t
  cases tk' <;> simp [it] at h <;> exact h

theorem after_none {a : Act} {st : List Blk} {t : Tok} (h : t.1 ≠ .endBlock) : afterStep (.act a) st (it cx.source t) = none := by
  obtain ⟨tk, sp⟩ := t
  cases tk <;> first | rfl | exact absurd rfl h

theorem Ended.closes {a : Act} {st : List Blk} {q : Machine.State} {rest : List Tok} (h : Ended cx (.act a) st q rest) :
    Closes cx a st q rest := by
  obtain ⟨p, args, rfl, hp, h1⟩ := h
  refine ⟨by rw [Machine.step_end hp args _ st (Or.inr (Or.inl rfl))]; rfl, ?_⟩
  intro t ts' e ht
  rw [h1 t ts' e]
  exact after_none ht

theorem closes_tagEnd {a : Act} {st : List Blk} {rest : List Tok} : Closes cx a st (.tagEnd a, st) rest :=
  ⟨rfl, fun _ _ _ ht => after_none ht⟩

theorem kw_it {t : Tok} {ts : List Tok} (hg : Tg cx (t :: ts)) {kw : Keyword} (h : it cx.source t ≠ .word .keyword kw.human.toList)
    (hk : t.1 = .keyword) : textAt cx.source t.2 ≠ kw.human.toList := by
  obtain ⟨tk, sp⟩ := t
  cases hk
  intro h'
  exact h (by rw [it, h'])

/-- The keyword at the start of the tag, and whether it is in place. -/
def Opens (cx : LexCx) (st : List Blk) (ts : List Tok) (b : Block) : Prop :=
  ∃ kw sp ts' q, ts = (.keyword, sp) :: ts' ∧ sp.of cx.source = some kw.human.toList ∧ kwStep st kw = some q ∧
    ((actOf b).on st ≠ none ↔ Live q)

theorem on_else (st : List Blk) : Act.elseIf.on st ≠ none ↔ Act.else_.on st ≠ none := by
  cases st with
  | nil => simp [Act.on]
  | cons b st => cases b <;> simp [Act.on]

theorem parseBlock_reads (hne : cx.source ≠ []) {p : Parser} {st : List Blk} {ts : List Tok} {r : Option Err}
    (h : Abs cx p ts r) (hg : Tg cx ts) :
    Reads cx (.block0, st) (fun q rest b => Closes cx (actOf b) st q rest ∧ Opens cx st ts b) ts r (Parser.parseBlock cx p) := by
  have hinc : Machine.step cx.env (.block0, st) (.word .keyword "include".toList) ≠ none := by
    simp only [Machine.step]
    rw [show Keyword.fromStr "include".toList = some .include_ from Parser.fromStr_human .include_]
    simp [kwStep]
  cases ts with
  | nil =>
    left
    cases r with
    | none =>
      obtain ⟨p', h1⟩ := next_eof h
      obtain ⟨e, he, hb⟩ := bad_eof (cx := cx) hne (q := (.block0, st)) (α := Span × Parser) (.word (tk := .keyword)) hinc
      exact ⟨e, by simp [Parser.parseBlock, Parser.parseKeyword, Parser.expect, h1, he, human_token], hb⟩
    | some e => exact ⟨e, by simp [Parser.parseBlock, Parser.parseKeyword, Parser.expect, next_err h], .lexer rfl rfl⟩
  | cons t ts =>
    obtain ⟨tk, sp⟩ := t
    by_cases hk : tk = .keyword
    · subst hk
      obtain ⟨kw, k1, k2, k3⟩ := textAt_kw hg rfl
      simp only at k1
      obtain ⟨p1, a1, a2⟩ := Parser.parseKeyword_ok (kw := kw) h ⟨rfl, k1⟩
      have hg' : Tg cx ts := hg.tail rfl
      have hstep : Machine.step cx.env (.block0, st) (it cx.source (.keyword, sp)) = kwStep st kw := by
        rw [k3]; simp only [Machine.step]; rw [Parser.fromStr_human]; rfl
      -- the rest of the tag
      have go : ∀ (q : Machine.State) (x : Res (Block × Parser)), kwStep st kw = some q → Parser.parseBlock cx p = x →
          Reads cx q (fun q rest b => Closes cx (actOf b) st q rest ∧ Opens cx st ((.keyword, sp) :: ts) b) ts r x →
          Reads cx (.block0, st) (fun q rest b => Closes cx (actOf b) st q rest ∧ Opens cx st ((.keyword, sp) :: ts) b)
            ((.keyword, sp) :: ts) r (Parser.parseBlock cx p) := by
        rintro q x hq rfl hx
        rw [hq] at hstep
        rcases hx with ⟨e, c1, c2⟩ | ⟨u, rs, a, p', q', c0, rfl, c2, c3, c4, c5, c6⟩
        · exact Or.inl ⟨e, c1, c2.step hg hstep⟩
        · refine Or.inr ⟨(.keyword, sp) :: u, rs, a, p', q', .cons rfl c0, rfl, c2, c3, c4, ?_, c6⟩
          rw [hg.spoken, run_cons_of hstep]; exact c5
      have bad : ∀ x : Res (Block × Parser), Parser.parseBlock cx p = x → x = Parser.errUnexpectedKeyword cx kw.human sp → kwStep st kw = none →
          Reads cx (.block0, st) (fun q rest b => Closes cx (actOf b) st q rest ∧ Opens cx st ((.keyword, sp) :: ts) b)
            ((.keyword, sp) :: ts) r (Parser.parseBlock cx p) := by
        rintro x hx hy hn
        obtain ⟨e, h3, hb⟩ := bad_tok (r := r) hg (by rw [hstep, hn]) (.keyword (a := kw.human) rfl k2) (α := Block × Parser)
        exact Or.inl ⟨e, by rw [hx, hy, Parser.errUnexpectedKeyword]; exact h3, hb⟩
      cases kw with
      | if_ =>
        refine go _ _ rfl (by simp only [Parser.parseBlock, a1, Res.ok_bind]; rfl) ?_
        refine Reads.bind (parseIfCond_reads hne a2 hg') ?_
        rintro q1 rest ⟨n, e⟩ p2 b1 b2 b3 _
        exact .pure b1 b2 ⟨b3.closes, _, _, _, _, rfl, k1, rfl, Iff.rfl⟩
      | else_ =>
        refine go _ _ rfl (by simp only [Parser.parseBlock, a1, Res.ok_bind]; rfl) ?_
        refine Reads.bind (isNextKeyword_reads a2 hg' .if_) ?_
        rintro q1 rest b p2 b1 b2 ⟨rfl, rfl, b3, b4⟩ _
        cases b with
        | true =>
          obtain ⟨sp2, ts', rfl, hk2⟩ := b3 rfl
          refine Reads.bind (expectKeyword_seen (q' := (.cond .elseIf, st)) b1 b2 hk2 ?_) ?_
          · simp only [Machine.step]; exact if_pos rfl
          rintro q2 rest2 _ p3 c1 c2 ⟨rfl, rfl⟩ _
          refine Reads.bind (parseIfCond_reads hne c1 c2) ?_
          rintro q3 rest3 ⟨n, e⟩ p4 d1 d2 d3 _
          exact .pure d1 d2 ⟨d3.closes, _, _, _, _, rfl, k1, rfl, on_else st⟩
        | false =>
          refine .pure b1 b2 ⟨⟨rfl, ?_⟩, _, _, _, _, rfl, k1, rfl, Iff.rfl⟩
          rintro ⟨tk, sp'⟩ ts' rfl ht
          have b4 := b4 rfl (tk, sp') ts' rfl
          cases tk with
          | keyword =>
            have := b4 rfl
            simp only [it] at this ⊢
            simp only [Machine.step]
            rw [if_neg (by intro hs; exact this (by rw [hs]; rfl))]
          | endBlock => exact absurd rfl ht
          | _ => rfl
      | endif =>
        exact go _ (.ok (.endif, p1)) rfl (by simp only [Parser.parseBlock, a1, Res.ok_bind]; rfl)
          (.pure a2 hg' ⟨closes_tagEnd, _, _, _, _, rfl, k1, rfl, Iff.rfl⟩)
      | endfor =>
        exact go _ (.ok (.endfor, p1)) rfl (by simp only [Parser.parseBlock, a1, Res.ok_bind]; rfl)
          (.pure a2 hg' ⟨closes_tagEnd, _, _, _, _, rfl, k1, rfl, Iff.rfl⟩)
      | endwith =>
        exact go _ (.ok (.endwith, p1)) rfl (by simp only [Parser.parseBlock, a1, Res.ok_bind]; rfl)
          (.pure a2 hg' ⟨closes_tagEnd, _, _, _, _, rfl, k1, rfl, Iff.rfl⟩)
      | for_ =>
        refine go _ _ rfl (by simp only [Parser.parseBlock, a1, Res.ok_bind]; rfl) ?_
        refine Reads.bind (parseLoopVars_reads hne a2 hg') ?_
        rintro q1 rest v p2 b1 b2 b3 _
        refine Reads.bind (expectKeyword_reads hne (kw := .in_) (q' := (.expr .base false (.act (.push .for_)), st)) b1 b2 ?_ ?_) ?_
        · rcases b3 with ⟨rfl, _⟩ | rfl <;> (simp only [Machine.step]; exact if_pos rfl)
        · rintro ⟨tk, sp'⟩ rs rfl hn
          rcases b3 with ⟨rfl, b4⟩ | rfl
          · have b4 := b4 _ _ rfl
            cases tk with
            | keyword =>
              simp only [it] at hn ⊢
              simp only [Machine.step]
              rw [if_neg (by intro hs; exact hn (by rw [hs]; rfl))]
            | comma => exact absurd rfl b4
            | _ => rfl
          · cases tk with
            | keyword =>
              simp only [it] at hn ⊢
              simp only [Machine.step]
              rw [if_neg (by intro hs; exact hn (by rw [hs]; rfl))]
            | _ => rfl
        rintro q2 rest2 _ p3 c1 c2 rfl _
        refine Reads.bind (parseExpr_reads hne c1 c2) ?_
        rintro q3 rest3 e p4 d1 d2 d3 _
        exact .pure d1 d2 ⟨d3.closes, _, _, _, _, rfl, k1, rfl, by simp [actOf, Act.on, Machine.Live, doing]⟩
      | with_ =>
        refine go _ _ rfl (by simp only [Parser.parseBlock, a1, Res.ok_bind]; rfl) ?_
        refine Reads.bind (parseExpr_reads hne a2 hg') ?_
        rintro q1 rest e p2 b1 b2 b3 _
        obtain ⟨pos, args, rfl, hd, b4⟩ := b3
        refine Reads.bind (expectKeyword_reads hne (kw := .as_) (q' := (.withName, st)) b1 b2 ?_ ?_) ?_
        · rw [Machine.step_end hd args _ st (Or.inr (Or.inr ⟨_, rfl⟩))]
          simp only [afterStep]; exact if_pos rfl
        · rintro ⟨tk, sp'⟩ rs rfl hn
          rw [b4 _ _ rfl]
          cases tk with
          | keyword =>
            simp only [it] at hn ⊢
            simp only [afterStep]
            rw [if_neg (by intro hs; exact hn (by rw [hs]; rfl))]
          | _ => rfl
        rintro q2 rest2 _ p3 c1 c2 rfl _
        refine Reads.bind (parseIdent_reads hne (q' := (.tagEnd (.push .with_), st)) c1 c2 (fun s => rfl) ?_) ?_
        · rintro ⟨tk, sp⟩ rs _ hn
          cases tk <;> first | exact absurd rfl hn | rfl
        rintro q3 rest3 nm p4 d1 d2 rfl _
        exact .pure d1 d2 ⟨closes_tagEnd, _, _, _, _, rfl, k1, rfl, by simp [actOf, Act.on, Machine.Live, doing]⟩
      | include_ =>
        have hstr : Machine.step cx.env (.include0, st) (.word .string "\"\"".toList) ≠ none := by
          simp only [Machine.step]; rw [if_pos ⟨_, Machine.strLit_empty⟩]; simp
        refine go (.include0, st) _ rfl (by simp only [Parser.parseBlock, a1, Res.ok_bind]; rfl) ?_
        cases ts with
        | nil =>
          left
          cases r with
          | none =>
            obtain ⟨p', h1⟩ := next_eof a2
            obtain ⟨e, he, hb⟩ := bad_eof (cx := cx) hne (q := (.include0, st)) (α := Span × Parser) (.word (tk := .string)) hstr
            exact ⟨e, by simp [Parser.expect, h1, he, human_token], hb⟩
          | some e => exact ⟨e, by simp [Parser.expect, next_err a2], .lexer rfl rfl⟩
        | cons t ts =>
          obtain ⟨tk, sp2⟩ := t
          by_cases hts : tk = .string
          · subst hts
            obtain ⟨p2, b1, b2⟩ := Parser.expect_ok a2
            obtain ⟨raw, s1, hs⟩ := Parser.parseString_spec hne (hg'.str.toks (.string, sp2) (by simp))
            have hit : it cx.source (.string, sp2) = .word .string raw := by rw [it, textAt_of s1]
            simp only [b1, Res.ok_bind]
            rcases hs with ⟨s, s2, _, s3⟩ | ⟨s2, e, s3⟩
            · have hst2 : Machine.step cx.env (.include0, st) (it cx.source (.string, sp2)) = some (.include1, st) := by
                rw [hit]; simp only [Machine.step]; rw [if_pos ⟨s, s2⟩]
              simp only [s3, Res.ok_bind]
              -- from include1 on
              suffices hx : Reads cx (.include1, st) (fun q rest b => Closes cx (actOf b) st q rest ∧ Opens cx st ((.keyword, sp) :: (.string, sp2) :: ts) b)
                  ts r (do
                    let (b, p) ← Parser.isNextKeyword cx p2 .with_
                    if b = true then do
                      let (_, p) ← Parser.expectKeyword cx p .with_
                      let (g, p) ← Parser.parseExpr cx p
                      pure (Block.include_ ⟨s, sp2⟩ (some g), p)
                    else pure (Block.include_ ⟨s, sp2⟩ none, p)) by
                rcases hx with ⟨e, c1, c2⟩ | ⟨u, rs, a, p', q', c0, rfl, c2, c3, c4, c5, c6⟩
                · exact Or.inl ⟨e, c1, c2.step hg' hst2⟩
                · refine Or.inr ⟨(.string, sp2) :: u, rs, a, p', q', .cons rfl c0, rfl, c2, c3, c4, ?_, c6⟩
                  rw [hg'.spoken, run_cons_of hst2]; exact c5
              refine Reads.bind (isNextKeyword_reads b2 (hg'.tail rfl) .with_) ?_
              rintro q1 rest b p3 c1 c2 ⟨rfl, rfl, c3, c4⟩ _
              cases b with
              | true =>
                obtain ⟨sp3, ts', rfl, hk2⟩ := c3 rfl
                refine Reads.bind (expectKeyword_seen (q' := (.expr .base false (.act .skip), st)) c1 c2 hk2 ?_) ?_
                · simp only [Machine.step]; exact if_pos rfl
                rintro q2 rest2 _ p4 d1 d2 ⟨rfl, rfl⟩ _
                refine Reads.bind (parseExpr_reads hne d1 d2) ?_
                rintro q3 rest3 g p5 e1 e2 e3 _
                exact .pure e1 e2 ⟨e3.closes, _, _, _, _, rfl, k1, rfl, Iff.rfl⟩
              | false =>
                refine .pure c1 c2 ⟨⟨rfl, ?_⟩, _, _, _, _, rfl, k1, rfl, Iff.rfl⟩
                rintro ⟨tk, sp'⟩ ts' rfl ht
                have c4 := c4 rfl (tk, sp') ts' rfl
                cases tk with
                | keyword =>
                  have := c4 rfl
                  simp only [it] at this ⊢
                  simp only [Machine.step]
                  rw [if_neg (by intro hs; exact this (by rw [hs]; rfl))]
                | endBlock => exact absurd rfl ht
                | _ => rfl
            · obtain ⟨sp', e2, e1⟩ := parseString_err (hg'.str.toks (.string, sp2) (by simp)) s3 []
                (fun i => Machine.step cx.env (.include0, st) i ≠ none)
              refine Or.inl ⟨e, by simp [s3], .tok (us := []) (t := (.string, sp2)) (vs := ts) (q' := (.include0, st)) rfl hg' rfl ?_ e2 e1⟩
              rw [hit]; simp only [Machine.step]
              rw [if_neg (by rintro ⟨v, hv⟩; exact s2 v hv)]
          · left
            obtain ⟨p', h1, h2⟩ := next_cons a2
            obtain ⟨e, h3, hb⟩ := bad_tok (r := r) (q := (.include0, st)) hg'
              (by cases tk <;> first | exact absurd rfl hts | rfl) (.expected (.word (tk := .string)) hstr) (α := Span × Parser)
            refine ⟨e, ?_, hb⟩
            simp only [Parser.expect, h1, Res.ok_bind, if_neg hts, Parser.errUnexpectedToken, human_token]
            rw [h3]; rfl
      | not_ => exact bad _ rfl (by simp only [Parser.parseBlock, a1, Res.ok_bind]) rfl
      | in_ => exact bad _ rfl (by simp only [Parser.parseBlock, a1, Res.ok_bind]) rfl
      | as_ => exact bad _ rfl (by simp only [Parser.parseBlock, a1, Res.ok_bind]) rfl
      | true_ => exact bad _ rfl (by simp only [Parser.parseBlock, a1, Res.ok_bind]) rfl
      | false_ => exact bad _ rfl (by simp only [Parser.parseBlock, a1, Res.ok_bind]) rfl
    · left
      obtain ⟨p', h1, h2⟩ := next_cons h
      obtain ⟨e, h3, hb⟩ := bad_tok (r := r) (q := (.block0, st)) hg
        (by cases tk <;> first | exact absurd rfl hk | rfl) (.expected (.word (tk := .keyword)) hinc) (α := Span × Parser)
      refine ⟨e, ?_, hb⟩
      simp only [Parser.parseBlock, Parser.parseKeyword, Parser.expect, h1, Res.ok_bind, if_neg hk, Parser.errUnexpectedToken, human_token]
      rw [h3]; rfl

end Diag
end Upon
