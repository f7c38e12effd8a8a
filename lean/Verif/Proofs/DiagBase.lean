import Verif.Proofs.Completion
import Verif.Proofs.Modes
import Verif.Spec.Diagnosis
/-
What the parser complains about, token by token (for C51).
-/
namespace Upon
open Spec
namespace Diag
open Machine (Ctl Pos After Act Blk exprStep afterStep run_append_of run_cons_of run_nil run_cons Done)
open Plain (spoken textAt_of)
open Parser (Parses next_cons next_eof next_err peek_cons peek_eof peek_err)

variable {cx : LexCx}

theorem reports {α : Type} {m : String} {sp : Span} {e : Err} (h : (errSyntax cx.env m cx.source sp : Res α) = .err e) :
    Reports cx m sp e := by
  simp only [errSyntax, throwAt] at h
  split at h
  · next p hp => injection h with h; exact ⟨p, hp, h.symm⟩
  · cases h

/-- What a token other than text says. -/
def it (src : Str) : Tok → Item
  | (.ident, sp) => .word .ident (textAt src sp)
  | (.keyword, sp) => .word .keyword (textAt src sp)
  | (.index, sp) => .word .index (textAt src sp)
  | (.number, sp) => .word .number (textAt src sp)
  | (.string, sp) => .word .string (textAt src sp)
  | (tk, _) => .sign tk

theorem saying_it {src : Str} {t : Tok} (h : t.1 ≠ .raw) : saying src t = [it src t] := by
  obtain ⟨tk, sp⟩ := t
  cases tk <;> first | rfl | exact absurd rfl h

/-- Facts about the tokens to come, inside a tag. -/
structure Tg (cx : LexCx) (ts : List Tok) : Prop where
  str : Parser.Str' cx ts
  form : Form .tag ts

theorem Tg.head {t : Tok} {ts : List Tok} (h : Tg cx (t :: ts)) :
    t.1 ≠ .raw ∧ isBeginTag t.1 = false ∧ t.1 ≠ .endComment ∧ saying cx.source t = [it cx.source t] := by
  cases h.form with
  | cons ha _ => exact ⟨ha.1, ha.2.1, ha.2.2, saying_it ha.1⟩

theorem Tg.tail {t : Tok} {ts : List Tok} (h : Tg cx (t :: ts)) (he : isEndTag t.1 = false) : Tg cx ts := by
  refine ⟨h.str.tail, ?_⟩
  have hf := h.form
  cases hf with
  | cons ha hf =>
    have : Mode3.next .tag t.1 = .tag := by
      have hb := ha.2.1
      cases ht : t.1 <;> rw [ht] at he hb <;> simp [isBeginTag, isEndTag] at he hb <;> rfl
    rw [this] at hf; exact hf

theorem Tg.spoken {t : Tok} {ts us : List Tok} (h : Tg cx (t :: ts)) :
    spoken cx.source (t :: us) = it cx.source t :: spoken cx.source us := by
  rw [Plain.spoken_cons, h.head.2.2.2]; rfl

/-- Tokens within a tag. -/
def Inside (us : List Tok) : Prop := ∀ x ∈ us, isEndTag x.1 = false

theorem Inside.nil : Inside [] := by intro x hx; cases hx
theorem Inside.cons {t : Tok} {us : List Tok} (h : isEndTag t.1 = false) (hu : Inside us) : Inside (t :: us) := by
  intro x hx
  rcases List.mem_cons.mp hx with rfl | hx
  · exact h
  · exact hu x hx
theorem Inside.append {us vs : List Tok} (h : Inside us) (h' : Inside vs) : Inside (us ++ vs) := by
  intro x hx
  rcases List.mem_append.mp hx with hx | hx
  · exact h x hx
  · exact h' x hx

/-- How the parser fails from a state of the machine. -/
inductive Bad (cx : LexCx) (q : Machine.State) (ts : List Tok) (r : Option Err) (e : Err) : Prop
  | lexer {q'} (_ : r = some e) (_ : Machine.run cx.env q (spoken cx.source ts) = some q') (_ : Inside ts := by exact .nil) : Bad cx q ts r e
  | eof {q' x i} (_ : r = none) (_ : Machine.run cx.env q (spoken cx.source ts) = some q') (_ : Called x i) (_ : Machine.step cx.env q' i ≠ none)
      (_ : Reports cx s!"expected {x}, found EOF" ⟨blen cx.source, blen cx.source⟩ e) (_ : Inside ts := by exact .nil) : Bad cx q ts r e
  | tok {us t vs q' m sp} (_ : ts = us ++ t :: vs) (_ : Tg cx (t :: vs)) (_ : Machine.run cx.env q (spoken cx.source us) = some q')
      (_ : Machine.step cx.env q' (it cx.source t) = none)
      (_ : Complaint cx.env cx.source us (fun i => Machine.step cx.env q' i ≠ none) t m sp) (_ : Reports cx m sp e)
      (_ : Inside us := by exact .nil) : Bad cx q ts r e

theorem _root_.Upon.Spec.Complaint.mono {env : Env} {src : Str} {us : List Tok} {P Q : Item → Prop} {t : Tok} {m : String} {sp : Span}
    (h : Complaint env src us P t m sp) (hpq : ∀ i, P i → Q i) (vs : List Tok := []) : Complaint env src (vs ++ us) Q t m sp := by
  cases h with
  | expected b1 b2 => exact .expected b1 (hpq _ b2)
  | expectedKeyword b1 b2 b3 => exact .expectedKeyword b1 b2 (hpq _ b3)
  | keyword b1 b2 => exact .keyword b1 b2
  | escape b1 b2 b3 b4 => exact .escape b1 b2 b3 b4
  | number b1 b2 b3 => exact .number b1 (hpq _ b2) b3
  | signed b1 b2 b3 b4 => subst b2; exact .signed b1 (List.append_assoc _ _ _).symm b3 b4
  | index b1 b2 b3 => exact .index b1 b2 b3

theorem Bad.after {q q' : Machine.State} {us ts : List Tok} {r : Option Err} {e : Err} (h : Machine.run cx.env q (spoken cx.source us) = some q')
    (hu : Inside us) (hb : Bad cx q' ts r e) : Bad cx q (us ++ ts) r e := by
  cases hb with
  | lexer h1 h2 h8 => exact .lexer h1 (by rw [Plain.spoken_append, run_append_of h]; exact h2) (hu.append h8)
  | eof h1 h2 h3 h4 h5 h8 => exact .eof h1 (by rw [Plain.spoken_append, run_append_of h]; exact h2) h3 h4 h5 (hu.append h8)
  | tok h1 h2 h3 h4 h6 h7 h8 =>
    subst h1
    exact .tok (List.append_assoc _ _ _).symm h2 (by rw [Plain.spoken_append, run_append_of h]; exact h3) h4 (h6.mono (fun _ h => h) _) h7 (hu.append h8)

theorem Bad.step {q q' : Machine.State} {t : Tok} {ts : List Tok} {r : Option Err} {e : Err} (hg : Tg cx (t :: ts))
    (h : Machine.step cx.env q (it cx.source t) = some q') (hb : Bad cx q' ts r e) (ht : isEndTag t.1 = false := by rfl) :
    Bad cx q (t :: ts) r e := by
  refine Bad.after (us := [t]) (q' := q') ?_ (.cons ht .nil) hb
  rw [hg.spoken, Machine.run_cons_of h]; rfl

/-- The result of a parser function that starts in state `q`. -/
def Reads (cx : LexCx) {α : Type} (q : Machine.State) (post : Machine.State → List Tok → α → Prop) (ts : List Tok) (r : Option Err)
    (res : Res (α × Parser)) : Prop :=
  (∃ e, res = .err e ∧ Bad cx q ts r e) ∨
  ∃ used rest a p' q', Inside used ∧ ts = used ++ rest ∧ res = .ok (a, p') ∧ Abs cx p' rest r ∧ Tg cx rest ∧
    Machine.run cx.env q (spoken cx.source used) = some q' ∧ post q' rest a

/-- One function after the other. -/
theorem Reads.bind {α β : Type} {q : Machine.State} {post : Machine.State → List Tok → α → Prop} {post' : Machine.State → List Tok → β → Prop}
    {ts : List Tok} {r : Option Err} {x : Res (α × Parser)} {f : α × Parser → Res (β × Parser)} (hx : Reads cx q post ts r x)
    (hf : ∀ q' rest a p', Abs cx p' rest r → Tg cx rest → post q' rest a → rest.length ≤ ts.length → Reads cx q' post' rest r (f (a, p'))) :
    Reads cx q post' ts r (x >>= f) := by
  rcases hx with ⟨e, rfl, hb⟩ | ⟨used, rest, a, p', q', h0, rfl, rfl, h1, h2, h3, h4⟩
  · exact Or.inl ⟨e, rfl, hb⟩
  · rcases hf q' rest a p' h1 h2 h4 (by simp) with ⟨e, h5, hb⟩ | ⟨used', rest', b, p'', q'', h10, rfl, h5, h6, h7, h8, h9⟩
    · exact Or.inl ⟨e, by rw [← h5]; rfl, hb.after h3 h0⟩
    · refine Or.inr ⟨used ++ used', rest', b, p'', q'', h0.append h10, by simp, by rw [← h5]; rfl, h6, h7, ?_, h9⟩
      rw [Plain.spoken_append, run_append_of h3]; exact h8

theorem Reads.pure {α : Type} {q : Machine.State} {post : Machine.State → List Tok → α → Prop} {ts : List Tok} {r : Option Err} {a : α} {p : Parser}
    (h : Abs cx p ts r) (hg : Tg cx ts) (hp : post q ts a) : Reads cx q post ts r (.ok (a, p)) :=
  Or.inr ⟨[], ts, a, p, q, .nil, rfl, rfl, h, hg, rfl, hp⟩

/-- No token is left. -/
theorem bad_eof (hne : cx.source ≠ []) {α : Type} {q : Machine.State} {x : String} {i : Item} (hc : Called x i) (hs : Machine.step cx.env q i ≠ none) :
    ∃ e, (Parser.errUnexpectedEof cx x : Res α) = .err e ∧ Bad cx q [] none e := by
  obtain ⟨e, he⟩ := Parser.errEof (cx := cx) hne (α := α) x
  exact ⟨e, he, .eof rfl rfl hc hs (reports he)⟩

/-- The token at hand is not what could come. -/
theorem bad_tok {q : Machine.State} {t : Tok} {ts : List Tok} {r : Option Err} (hg : Tg cx (t :: ts))
    (hs : Machine.step cx.env q (it cx.source t) = none) {m : String} (hc : Complaint cx.env cx.source [] (fun i => Machine.step cx.env q i ≠ none) t m t.2) :
    ∀ {α : Type}, ∃ e, (errSyntax cx.env m cx.source t.2 : Res α) = .err e ∧ Bad cx q (t :: ts) r e := by
  intro α
  obtain ⟨e, he⟩ := Parser.errAt (cx := cx) hg.str.ne (α := α) (hg.str.toks t (by simp)).span m
  exact ⟨e, he, .tok (us := []) rfl hg rfl hs hc (reports he)⟩

theorem expect_reads (hne : cx.source ≠ []) {p : Parser} {q q' : Machine.State} {ts : List Tok} {r : Option Err} (h : Abs cx p ts r) (hg : Tg cx ts)
    {tk : Token} (hend : isEndTag tk = false)
    (hok : ∀ sp rest, ts = (tk, sp) :: rest → Machine.step cx.env q (it cx.source (tk, sp)) = some q')
    (hno : ∀ t rest, ts = t :: rest → t.1 ≠ tk → Machine.step cx.env q (it cx.source t) = none)
    (hx : ∃ i, Called (tokenName tk) i ∧ Machine.step cx.env q i ≠ none) :
    Reads cx q (fun q2 rest sp => q2 = q' ∧ ts = (tk, sp) :: rest) ts r (Parser.expect cx p tk) := by
  obtain ⟨i, hi, hst⟩ := hx
  cases ts with
  | nil =>
    left
    cases r with
    | none =>
      obtain ⟨p', h1⟩ := next_eof h
      obtain ⟨e, he, hb⟩ := bad_eof (cx := cx) hne (α := Span × Parser) hi hst
      exact ⟨e, by simp [Parser.expect, h1, he, human_token], hb⟩
    | some e => exact ⟨e, by simp [Parser.expect, next_err h], .lexer rfl rfl⟩
  | cons t ts =>
    obtain ⟨tk', sp⟩ := t
    obtain ⟨p', h1, h2⟩ := next_cons h
    by_cases he : tk' = tk
    · subst he
      right
      refine ⟨[(tk', sp)], ts, sp, p', q', .cons hend .nil, rfl, by simp [Parser.expect, h1], h2, hg.tail hend, ?_, rfl, rfl⟩
      rw [hg.spoken, run_cons_of (hok sp ts rfl)]; rfl
    · left
      obtain ⟨e, h3, hb⟩ := bad_tok (r := r) hg (hno _ _ rfl he) (.expected hi hst) (α := Span × Parser)
      exact ⟨e, by simp only [Parser.expect, h1, Res.ok_bind, if_neg he, Parser.errUnexpectedToken, human_token]; exact h3, hb⟩

theorem parse_reads (hne : cx.source ≠ []) {p : Parser} {q : Machine.State} {ts : List Tok} {r : Option Err} (h : Abs cx p ts r) 
    (hx : ∃ i, Machine.step cx.env q i ≠ none) :
    (∃ e, Parser.parse cx p = .err e ∧ Bad cx q ts r e) ∨
    ∃ t rest p', ts = t :: rest ∧ Parser.parse cx p = .ok (t, p') ∧ Abs cx p' rest r := by
  obtain ⟨i, hst⟩ := hx
  cases ts with
  | nil =>
    left
    cases r with
    | none =>
      obtain ⟨p', h1⟩ := next_eof h
      obtain ⟨e, he, hb⟩ := bad_eof (cx := cx) hne (α := (Token × Span) × Parser) (.token (i := i)) hst
      exact ⟨e, by simp [Parser.parse, h1, he], hb⟩
    | some e => exact ⟨e, by simp [Parser.parse, next_err h], .lexer rfl rfl⟩
  | cons t ts =>
    obtain ⟨p', h1, h2⟩ := next_cons h
    exact Or.inr ⟨t, ts, p', rfl, by simp [Parser.parse, h1], h2⟩

/-- Looking ahead. -/
theorem isNext_reads {p : Parser} {q : Machine.State} {ts : List Tok} {r : Option Err} (h : Abs cx p ts r) (hg : Tg cx ts) (tk : Token) :
    Reads cx q (fun q2 rest b => q2 = q ∧ rest = ts ∧ (b = true → ∃ sp ts', ts = (tk, sp) :: ts') ∧ (b = false → ∀ t ts', ts = t :: ts' → t.1 ≠ tk))
      ts r (Parser.isNext cx p tk) := by
  rcases hts : ts with _ | ⟨t, ts'⟩
  · subst hts
    cases r with
    | none =>
      obtain ⟨p', h1, h2⟩ := Parser.isNext_eof h tk
      rw [h1]; exact .pure h2 hg ⟨rfl, rfl, by simp, by simp⟩
    | some e => exact Or.inl ⟨e, Parser.isNext_err h tk, .lexer rfl rfl⟩
  · subst hts
    obtain ⟨p', h1, h2⟩ := Parser.isNext_cons h tk
    rw [h1]
    refine .pure h2 hg ⟨rfl, rfl, ?_, ?_⟩
    · intro hb; simp at hb; exact ⟨t.2, ts', by rw [← hb]⟩
    · intro hb x y e
      simp at hb
      cases e; exact hb

theorem textAt_kw {t : Tok} {ts : List Tok} (hg : Tg cx (t :: ts)) (ht : t.1 = .keyword) :
    ∃ kw : Keyword, t.2.of cx.source = some kw.human.toList ∧ textAt cx.source t.2 = kw.human.toList ∧
      it cx.source t = .word .keyword kw.human.toList := by
  obtain ⟨tk, sp⟩ := t
  cases ht
  obtain ⟨s, kw, a1, a2, rfl⟩ := Parser.kw_of (hg.str.toks (.keyword, sp) (by simp))
  exact ⟨kw, a1, textAt_of a1, by rw [it, textAt_of a1]⟩

theorem isNextKeyword_reads {p : Parser} {q : Machine.State} {ts : List Tok} {r : Option Err} (h : Abs cx p ts r) (hg : Tg cx ts) (kw : Keyword) :
    Reads cx q (fun q2 rest b => q2 = q ∧ rest = ts ∧
        (b = true → ∃ sp ts', ts = (.keyword, sp) :: ts' ∧ sp.of cx.source = some kw.human.toList) ∧
        (b = false → ∀ t ts', ts = t :: ts' → t.1 = .keyword → it cx.source t ≠ .word .keyword kw.human.toList))
      ts r (Parser.isNextKeyword cx p kw) := by
  rcases hts : ts with _ | ⟨t, ts'⟩
  · subst hts
    cases r with
    | none =>
      obtain ⟨p', h1, h2⟩ := peek_eof h
      rw [show Parser.isNextKeyword cx p kw = .ok (false, p') by simp [Parser.isNextKeyword, h1]]
      exact .pure h2 hg ⟨rfl, rfl, by simp, by simp⟩
    | some e => exact Or.inl ⟨e, by simp [Parser.isNextKeyword, peek_err h], .lexer rfl rfl⟩
  · subst hts
    obtain ⟨p', h1, h2⟩ := peek_cons h
    obtain ⟨tk, sp⟩ := t
    by_cases ht : tk = .keyword
    · subst ht
      obtain ⟨kw', a1, a2, a3⟩ := textAt_kw hg rfl
      simp only at a1
      rw [show Parser.isNextKeyword cx p kw = .ok (decide (kw' = kw), p') by
        simp [Parser.isNextKeyword, h1, Parser.text, a1, Parser.fromStr_human, Res.ofOption]]
      refine .pure h2 hg ⟨rfl, rfl, ?_, ?_⟩
      · intro hb; simp at hb; subst hb; exact ⟨sp, ts', rfl, a1⟩
      · intro hb x y e _ hc
        simp at hb
        cases e
        rw [a3] at hc
        injection hc with _ hc
        have := congrArg Keyword.fromStr hc
        rw [Parser.fromStr_human, Parser.fromStr_human] at this
        injection this with this
        exact hb this
    · rw [show Parser.isNextKeyword cx p kw = .ok (false, p') by simp [Parser.isNextKeyword, h1, ht]]
      refine .pure h2 hg ⟨rfl, rfl, by simp, ?_⟩
      intro _ x y e hk
      cases e; exact absurd hk ht

/-- Reading a keyword that was seen. -/
theorem expectKeyword_seen {p : Parser} {q q' : Machine.State} {sp : Span} {ts : List Tok} {r : Option Err} {kw : Keyword}
    (h : Abs cx p ((.keyword, sp) :: ts) r) (hg : Tg cx ((.keyword, sp) :: ts)) (hk : sp.of cx.source = some kw.human.toList)
    (hs : Machine.step cx.env q (.word .keyword kw.human.toList) = some q') :
    Reads cx q (fun q2 rest _ => q2 = q' ∧ rest = ts) ((.keyword, sp) :: ts) r (Parser.expectKeyword cx p kw) := by
  obtain ⟨p', h1, h2⟩ := Parser.expectKeyword_ok h (kw := kw) ⟨rfl, hk⟩
  right
  refine ⟨[(.keyword, sp)], ts, sp, p', q', .cons rfl .nil, rfl, h1, h2, hg.tail rfl, ?_, rfl, rfl⟩
  rw [hg.spoken, run_cons_of (by rw [it, textAt_of hk]; exact hs)]; rfl

/-- Reading a token that was seen. -/
theorem expect_seen {p : Parser} {q q' : Machine.State} {tk : Token} {sp : Span} {ts : List Tok} {r : Option Err}
    (h : Abs cx p ((tk, sp) :: ts) r) (hg : Tg cx ((tk, sp) :: ts)) (hend : isEndTag tk = false)
    (hs : Machine.step cx.env q (it cx.source (tk, sp)) = some q') :
    Reads cx q (fun q2 rest _ => q2 = q' ∧ rest = ts) ((tk, sp) :: ts) r (Parser.expect cx p tk) := by
  obtain ⟨p', h1, h2⟩ := Parser.expect_ok h
  right
  refine ⟨[(tk, sp)], ts, sp, p', q', .cons hend .nil, rfl, h1, h2, hg.tail hend, ?_, rfl, rfl⟩
  rw [hg.spoken, run_cons_of hs]; rfl

/-- A keyword that must come. -/
theorem expectKeyword_reads (hne : cx.source ≠ []) {p : Parser} {q q' : Machine.State} {ts : List Tok} {r : Option Err} (h : Abs cx p ts r) (hg : Tg cx ts)
    {kw : Keyword} (hok : Machine.step cx.env q (.word .keyword kw.human.toList) = some q')
    (hno : ∀ t rest, ts = t :: rest → it cx.source t ≠ .word .keyword kw.human.toList → Machine.step cx.env q (it cx.source t) = none) :
    Reads cx q (fun q2 _ _ => q2 = q') ts r (Parser.expectKeyword cx p kw) := by
  have hst : Machine.step cx.env q (.word .keyword kw.human.toList) ≠ none := by rw [hok]; simp
  rcases hts : ts with _ | ⟨⟨tk, sp⟩, ts'⟩
  · subst hts
    left
    cases r with
    | none =>
      obtain ⟨p', h1⟩ := next_eof h
      obtain ⟨e, he, hb⟩ := bad_eof (cx := cx) hne (α := Span × Parser) (.word (tk := .keyword) (s := kw.human.toList)) hst
      exact ⟨e, by simp [Parser.expectKeyword, Parser.parseKeyword, Parser.expect, h1, he, human_token], hb⟩
    | some e => exact ⟨e, by simp [Parser.expectKeyword, Parser.parseKeyword, Parser.expect, next_err h], .lexer rfl rfl⟩
  · subst hts
    by_cases ht : tk = .keyword
    · subst ht
      obtain ⟨kw', a1, a2, a3⟩ := textAt_kw hg rfl
      simp only at a1 a2
      by_cases hk : kw' = kw
      · subst hk
        rcases expectKeyword_seen h hg a1 hok with hb | ⟨u, rs, a, p', q2, b0, b1, b2, b3, b4, b5, b6, b7⟩
        · exact Or.inl hb
        · exact Or.inr ⟨u, rs, a, p', q2, b0, b1, b2, b3, b4, b5, b6⟩
      · left
        obtain ⟨p', h1, h2⟩ := Parser.parseKeyword_ok (kw := kw') h ⟨rfl, a1⟩
        have hne' : it cx.source (.keyword, sp) ≠ .word .keyword kw.human.toList := by
          rw [a3]; intro hc
          injection hc with _ hc
          have := congrArg Keyword.fromStr hc
          rw [Parser.fromStr_human, Parser.fromStr_human] at this
          injection this with this
          exact hk this
        obtain ⟨e, h3, hb⟩ := bad_tok (r := r) hg (hno _ _ rfl hne') (.expectedKeyword (a := kw.human) (b := kw'.human) rfl a2 hst) (α := Span × Parser)
        exact ⟨e, by simp only [Parser.expectKeyword, h1, Res.ok_bind, ne_eq, hk, not_false_eq_true, if_true]; exact h3, hb⟩
    · left
      obtain ⟨p', h1, h2⟩ := next_cons h
      have hne' : it cx.source (tk, sp) ≠ .word .keyword kw.human.toList := by
        cases tk <;> simp [it] at ht ⊢
      obtain ⟨e, h3, hb⟩ := bad_tok (r := r) hg (hno _ _ rfl hne') (.expected (.word (tk := .keyword)) hst) (α := Span × Parser)
      refine ⟨e, ?_, hb⟩
      simp only [Parser.expectKeyword, Parser.parseKeyword, Parser.expect, h1, Res.ok_bind, if_neg ht, Parser.errUnexpectedToken, human_token]
      rw [h3]; rfl

/-- A name. -/
theorem parseIdent_reads (hne : cx.source ≠ []) {p : Parser} {q q' : Machine.State} {ts : List Tok} {r : Option Err} (h : Abs cx p ts r) (hg : Tg cx ts)
    (hok : ∀ s, Machine.step cx.env q (.word .ident s) = some q')
    (hno : ∀ t rest, ts = t :: rest → t.1 ≠ .ident → Machine.step cx.env q (it cx.source t) = none) :
    Reads cx q (fun q2 _ _ => q2 = q') ts r (Parser.parseIdent cx p) := by
  refine Reads.bind (expect_reads hne h hg (tk := .ident) rfl (fun sp rest _ => hok _) hno ⟨.word .ident [], .word, by rw [hok]; simp⟩) ?_
  rintro q2 rest sp p' h1 h2 ⟨rfl, _⟩ _
  exact .pure h1 h2 rfl

end Diag
end Upon
