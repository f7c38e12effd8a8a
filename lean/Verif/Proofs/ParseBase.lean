import Verif.Proofs.LexComplete
import Verif.Model.Parser
import Verif.Spec.Grammar
/-
The stream of tokens the parser sees.
-/
namespace Upon
open Lexer (Inv Step Skip left inTag inTagNext)

abbrev Tok := Token × Span

/-- The span can be sliced. -/
def SpanOK (src : Str) (sp : Span) : Prop := ∃ s, sp.of src = some s

theorem SpanOK.bounds {src : Str} {sp : Span} (h : SpanOK src sp) :
    Boundary src sp.m ∧ Boundary src sp.n ∧ sp.m ≤ sp.n := by
  obtain ⟨s, h⟩ := h
  have := boundary_of_slice h
  exact ⟨this.1, this.2.1, by omega⟩

theorem SpanOK.mk' {src : Str} {sp : Span} (h1 : Boundary src sp.m) (h2 : Boundary src sp.n)
    (h3 : sp.m ≤ sp.n) : SpanOK src sp := h1.slice h2 h3

theorem SpanOK.combine {src : Str} {a b : Span} (ha : SpanOK src a) (hb : SpanOK src b) :
    SpanOK src (a.combine b) := by
  obtain ⟨a1, a2, a3⟩ := ha.bounds
  obtain ⟨b1, b2, b3⟩ := hb.bounds
  refine SpanOK.mk' ?_ ?_ ?_
  · simp only [Span.combine]; rcases Nat.le_total a.m b.m with h | h
    · rw [Nat.min_eq_left h]; exact a1
    · rw [Nat.min_eq_right h]; exact b1
  · simp only [Span.combine]; rcases Nat.le_total a.n b.n with h | h
    · rw [Nat.max_eq_right h]; exact b2
    · rw [Nat.max_eq_left h]; exact a2
  · simp only [Span.combine]; omega

/-- What is known of each token. -/
structure TokOK (cx : LexCx) (t : Tok) : Prop where
  span : SpanOK cx.source t.2
  text : t.1 = .raw ∨ Spec.isBeginTag t.1 = true ∨ Spec.isEndTag t.1 = true ∨
    ∃ s, t.2.of cx.source = some s ∧ Spec.TokText cx.env t.1 s
  nonWhite : t.1 ≠ .whitespace

/-- Only blanks stand between a sign and the number after it. -/
def Signs (src : Str) (ts : List Tok) : Prop :=
  ∀ xs tk s n ys, ts = xs ++ (tk, s) :: (.number, n) :: ys → tk = .plus ∨ tk = .minus →
    ∃ gap, slice src s.n n.m = some gap ∧ ∀ c ∈ gap, c = ' ' ∨ c = '\t'

/-- Outside of tags only text and opening tags occur. -/
inductive Shape : Bool → List Tok → Prop
  | nil {b} : Shape b []
  | cons {b t ts} : (b = false → t.1 = .raw ∨ Spec.isBeginTag t.1 = true) →
      Shape (inTagNext b t.1) ts → Shape b (t :: ts)

/-- The tokens the lexer will return, and the error it ends with, if any. -/
inductive Yields (cx : LexCx) : Lexer → List Tok → Option Err → Prop
  | eof {lx lx'} : lx.nextToken cx = .ok (none, lx') → Yields cx lx [] none
  | err {lx e} : lx.nextToken cx = .err e → Yields cx lx [] (some e)
  | cons {lx t lx' ts r} : lx.nextToken cx = .ok (some t, lx') → Yields cx lx' ts r →
      Yields cx lx (t :: ts) r

variable {syn : Syn} {cx : LexCx}

theorem Step.tokOK {lx lx' : Lexer} {t : Tok} (inv : Inv syn cx lx)
    (h : Step syn cx lx t lx') (hw : t.1 ≠ .whitespace) : TokOK cx t := by
  have hsp := (h.span inv).2.2
  refine ⟨hsp, ?_, hw⟩
  cases h with
  | pending hn =>
    obtain ⟨tk, sp⟩ := t
    obtain ⟨⟨k, trim, i, h1, h2, rfl⟩, h3⟩ := inv.nx _ _ hn
    have := (Lexer.fromKind_inv h1).1
    subst this
    cases k <;> simp [Spec.tokenOf, Spec.isBeginTag, Spec.isEndTag]
  | openTag hn hst hd hk hb hp => right; left; rw [Lexer.isBeginTag_eq]; exact hb
  | rawTag => left; rfl
  | rawEnd => left; rfl
  | rawComment => left; rfl
  | rawCommentEnd => left; rfl
  | @closeTag bs b e k j trim hn hst hd hk =>
    have he := (inv.blk b e (by cases bs <;> simp [hst, Lexer.blockOf])).2
    right; right; left
    rcases he with rfl | rfl <;> rfl
  | closeComment hn hst hd hk =>
    have he := (inv.cmt _ _ hst).2
    right; right; left; rw [he]; rfl
  | inner hn hst hd hs ht hne hat => right; right; right; exact ⟨_, hs, ht⟩

theorem Step.outside {lx lx' : Lexer} {t : Tok}
    (h : Step syn cx lx t lx') (hb : inTag lx = false) : t.1 = .raw ∨ Spec.isBeginTag t.1 = true := by
  cases h with
  | pending hn =>
    obtain ⟨tk, sp⟩ := t
    simp [inTag, hn] at hb
    right; exact hb
  | openTag hn hst hd hk hb hp => right; rw [Lexer.isBeginTag_eq]; exact hb
  | rawTag => left; rfl
  | rawEnd => left; rfl
  | rawComment => left; rfl
  | rawCommentEnd => left; rfl
  | @closeTag bs b e k j trim hn hst hd hk =>
    simp [inTag, hn, hst] at hb
    cases bs <;> simp [Lexer.blockOf] at hb
  | closeComment hn hst hd hk => simp [inTag, hn, hst] at hb
  | @inner bs b e tk t hn hst hd hs ht hne hat =>
    simp [inTag, hn, hst] at hb
    cases bs <;> simp [Lexer.blockOf] at hb

theorem Skip.inTag (g : Good syn cx) {lx lx' : Lexer} (h : Skip syn cx lx lx') (inv : Inv syn cx lx) :
    inTag lx' = inTag lx := by
  induction h with
  | refl => rfl
  | step h1 _ ih =>
    rw [ih (h1.inv g inv), h1.inTag inv]; rfl

/-- The blanks that are skipped. -/
theorem Skip.blanks (g : Good syn cx) {lx lx' : Lexer} (h : Skip syn cx lx lx') (inv : Inv syn cx lx)
    (hn : lx.next = none) :
    lx'.next = none ∧ ∃ gap, slice cx.source lx.cursor lx'.cursor = some gap ∧ ∀ c ∈ gap, c = ' ' ∨ c = '\t' := by
  induction h with
  | refl => exact ⟨hn, [], Lexer.slice_self inv.bnd, by simp⟩
  | @step lx sp lx1 lx2 h1 _ ih =>
    have inv' := h1.inv g inv
    generalize ht : (Token.whitespace, sp) = t at h1
    cases h1 with
    | pending hn' => rw [hn] at hn'; cases hn'
    | openTag hn hst hd hk hb hp => injection ht with ht; subst ht; cases hb
    | rawTag => simp at ht
    | rawEnd => simp at ht
    | rawComment => simp at ht
    | rawCommentEnd => simp at ht
    | @closeTag bs b e k j trim hn hst hd hk =>
      injection ht with ht; subst ht
      exact absurd (Lexer.fromKind_inv hk).1 (Lexer.tokenOf_ne k).1
    | @closeComment b e k j trim hn hst hd hk =>
      injection ht with ht; subst ht
      exact absurd (Lexer.fromKind_inv hk).1 (Lexer.tokenOf_ne k).1
    | @inner bs b e tk t hn hst hd hs ht' hne hat =>
      injection ht with ht; subst ht
      obtain ⟨i1, gap, i2, i3⟩ := ih inv' hn
      refine ⟨i1, t ++ gap, Lexer.slice_join hs i2, ?_⟩
      intro c hc
      rcases List.mem_append.mp hc with hc | hc
      · exact ht'.2 c hc
      · exact i3 c hc

/-- After a token inside a tag the lexer stands right behind it. -/
theorem Step.after_inner {lx lx' : Lexer} {t : Tok} (inv : Inv syn cx lx) (h : Step syn cx lx t lx')
    (h1 : t.1 ≠ .raw) (h2 : Spec.isBeginTag t.1 = false) (h3 : Spec.isEndTag t.1 = false) :
    lx.next = none ∧ lx'.next = none ∧ lx'.cursor = t.2.n ∧ t.2.m = lx.cursor := by
  cases h with
  | pending hn =>
    obtain ⟨tk, sp⟩ := t
    obtain ⟨⟨k, trim, i, h1', h2', rfl⟩, _⟩ := inv.nx _ _ hn
    have := (Lexer.fromKind_inv h1').1
    subst this
    cases k <;> simp [Spec.tokenOf, Spec.isBeginTag, Spec.isEndTag] at h2 h3
  | openTag hn hst hd hk hb hp => rw [Lexer.isBeginTag_eq, hb] at h2; cases h2
  | rawTag => exact absurd rfl h1
  | rawEnd => exact absurd rfl h1
  | rawComment => exact absurd rfl h1
  | rawCommentEnd => exact absurd rfl h1
  | @closeTag bs b e k j trim hn hst hd hk =>
    have he := (inv.blk b e (by cases bs <;> simp [hst, Lexer.blockOf])).2
    rcases he with rfl | rfl <;> simp [Spec.isEndTag] at h3
  | closeComment hn hst hd hk =>
    have he := (inv.cmt _ _ hst).2
    rw [he] at h3; simp [Spec.isEndTag] at h3
  | inner hn hst hd hs ht hne hat => exact ⟨hn, hn, rfl, rfl⟩

/-- Everything about the stream. -/
structure StreamOK (cx : LexCx) (b : Bool) (ts : List Tok) : Prop where
  toks : ∀ t ∈ ts, TokOK cx t
  signs : Signs cx.source ts
  shape : Shape b ts

theorem Yields.length_le (g : Good syn cx) {lx : Lexer} {ts : List Tok} {r : Option Err}
    (h : Yields cx lx ts r) (inv : Inv syn cx lx) : ts.length ≤ left cx lx := by
  induction h with
  | eof => simp
  | err => simp
  | cons hx _ ih =>
    obtain ⟨l1, h1, h2, h3, h4⟩ := Lexer.nextToken_some g inv hx
    have := ih h4
    have := h1.left_le g
    have := h2.left_lt g
    simp; omega

theorem Yields.exists (g : Good syn cx) : ∀ (n : Nat) (lx : Lexer), Inv syn cx lx → left cx lx ≤ n →
    ∃ ts r, Yields cx lx ts r := by
  intro n
  induction n with
  | zero =>
    intro lx inv hl
    rcases Lexer.nextToken_cases g inv with ⟨l, h1, _⟩ | ⟨e, h1⟩ | ⟨t, l1, l2, h1, h2, h3, h4, h5⟩
    · exact ⟨[], none, .eof h1⟩
    · exact ⟨[], _, .err h1⟩
    · have := h2.left_le g
      have := h3.left_lt g
      omega
  | succ n ih =>
    intro lx inv hl
    rcases Lexer.nextToken_cases g inv with ⟨l, h1, _⟩ | ⟨e, h1⟩ | ⟨t, l1, l2, h1, h2, h3, h4, h5⟩
    · exact ⟨[], none, .eof h1⟩
    · exact ⟨[], _, .err h1⟩
    · have := h2.left_le g
      have := h3.left_lt g
      obtain ⟨ts, r, h⟩ := ih l2 h5 (by omega)
      exact ⟨_, _, .cons h1 h⟩

theorem Signs.tail {src : Str} {t : Tok} {ts : List Tok} (h : Signs src (t :: ts)) : Signs src ts := by
  intro xs tk s n ys e
  exact h (t :: xs) tk s n ys (by simp [e])

theorem Yields.ok (g : Good syn cx) {lx : Lexer} {ts : List Tok} {r : Option Err}
    (h : Yields cx lx ts r) (inv : Inv syn cx lx) : StreamOK cx (inTag lx) ts := by
  induction h with
  | eof => exact ⟨by simp, by intro xs tk s n ys e; simp at e, .nil⟩
  | err => exact ⟨by simp, by intro xs tk s n ys e; simp at e, .nil⟩
  | @cons lx t lx' ts r hx hy ih =>
    obtain ⟨l1, h1, h2, h3, h4⟩ := Lexer.nextToken_some g inv hx
    obtain ⟨i1, i2, i3⟩ := ih h4
    have inv1 := h1.inv g inv
    refine ⟨?_, ?_, ?_⟩
    · intro x hx
      rcases List.mem_cons.mp hx with rfl | hx
      · exact Step.tokOK inv1 h2 h3
      · exact i1 x hx
    · intro xs tk s n ys e hs
      cases xs with
      | cons x xs =>
        simp at e
        exact i2 xs tk s n ys e.2 hs
      | nil =>
        simp at e
        obtain ⟨rfl, rfl⟩ := e
        cases hy with
        | @cons _ _ lx2 _ _ hx' hy' =>
          obtain ⟨l1', h1', h2', h3', h4'⟩ := Lexer.nextToken_some g h4 hx'
          have a := Step.after_inner inv1 h2 (by rcases hs with rfl | rfl <;> simp)
            (by rcases hs with rfl | rfl <;> rfl) (by rcases hs with rfl | rfl <;> rfl)
          have inv2 := h1'.inv g h4
          obtain ⟨b1, gap, b2, b3⟩ := Skip.blanks g h1' h4 a.2.1
          have c := Step.after_inner inv2 h2' (by simp) rfl rfl
          refine ⟨gap, ?_, b3⟩
          rw [a.2.2.1, ← c.2.2.2] at b2
          exact b2
    · rw [← Skip.inTag g h1 inv]
      refine .cons (fun hb => Step.outside h2 hb) ?_
      rw [h2.inTag inv1] at i3
      exact i3

/-- The parser is about to read the tokens `ts`; then comes the end of the template or an error. -/
inductive Abs (cx : LexCx) : Parser → List Tok → Option Err → Prop
  | fresh {lx ts r} : Yields cx lx ts r → Abs cx ⟨lx, none⟩ ts r
  | peeked {lx t ts r} : Yields cx lx ts r → Abs cx ⟨lx, some (some t)⟩ (t :: ts) r
  | peekedEof {lx} : Abs cx ⟨lx, some none⟩ [] none

namespace Parser

theorem next_cons {p : Parser} {t : Tok} {ts : List Tok} {r : Option Err} (h : Abs cx p (t :: ts) r) :
    ∃ p', next cx p = .ok (some t, p') ∧ Abs cx p' ts r := by
  cases h with
  | @fresh lx _ _ h =>
    cases h with
    | @cons _ _ lx' _ _ h1 h2 => exact ⟨⟨lx', none⟩, by simp [next, h1], .fresh h2⟩
  | @peeked lx _ _ _ h => exact ⟨⟨lx, none⟩, by simp [next], .fresh h⟩

theorem next_eof {p : Parser} (h : Abs cx p [] none) : ∃ p', next cx p = .ok (none, p') := by
  cases h with
  | @fresh lx _ _ h =>
    cases h with
    | @eof _ lx' h1 => exact ⟨⟨lx', none⟩, by simp [next, h1]⟩
  | @peekedEof lx => exact ⟨⟨lx, none⟩, by simp [next]⟩

theorem next_err {p : Parser} {e : Err} (h : Abs cx p [] (some e)) : next cx p = .err e := by
  cases h with
  | @fresh lx _ _ h =>
    cases h with
    | err h1 => simp [next, h1]

theorem peek_cons {p : Parser} {t : Tok} {ts : List Tok} {r : Option Err} (h : Abs cx p (t :: ts) r) :
    ∃ p', peek cx p = .ok (some t, p') ∧ Abs cx p' (t :: ts) r := by
  cases h with
  | @fresh lx _ _ h =>
    cases h with
    | @cons _ _ lx' _ _ h1 h2 => exact ⟨⟨lx', some (some t)⟩, by simp [peek, h1], .peeked h2⟩
  | @peeked lx _ _ _ h => exact ⟨⟨lx, some (some t)⟩, by simp [peek], .peeked h⟩

theorem peek_eof {p : Parser} (h : Abs cx p [] none) : ∃ p', peek cx p = .ok (none, p') ∧ Abs cx p' [] none := by
  cases h with
  | @fresh lx _ _ h =>
    cases h with
    | @eof _ lx' h1 => exact ⟨⟨lx', some none⟩, by simp [peek, h1], .peekedEof⟩
  | @peekedEof lx => exact ⟨⟨lx, some none⟩, by simp [peek], .peekedEof⟩

theorem peek_err {p : Parser} {e : Err} (h : Abs cx p [] (some e)) : peek cx p = .err e := by
  cases h with
  | @fresh lx _ _ h =>
    cases h with
    | err h1 => simp [peek, h1]

/-- The result of a parser function: it used up some tokens, which mean `G`, or failed. -/
def Parses (cx : LexCx) {α : Type} (G : List Tok → α → Prop) (ts : List Tok) (r : Option Err)
    (res : Res (α × Parser)) : Prop :=
  (∃ e, res = .err e) ∨
  ∃ used rest a p', ts = used ++ rest ∧ res = .ok (a, p') ∧ Abs cx p' rest r ∧ G used a

theorem errAt (hne : cx.source ≠ []) {α : Type} {sp : Span} (h : SpanOK cx.source sp) (m : String) :
    ∃ e, (errSyntax cx.env m cx.source sp : Res α) = .err e := by
  obtain ⟨s, h⟩ := h
  exact errSyntax_err cx.env m hne h

theorem errEof (hne : cx.source ≠ []) {α : Type} (m : String) :
    ∃ e, (errUnexpectedEof cx m : Res α) = .err e :=
  errAt hne (sp := ⟨blen cx.source, blen cx.source⟩) ⟨[], Lexer.slice_self (boundary_len _)⟩ _

/-- Reading a token that is there. -/
theorem expect_ok {p : Parser} {tk : Token} {sp : Span} {ts : List Tok} {r : Option Err}
    (h : Abs cx p ((tk, sp) :: ts) r) : ∃ p', expect cx p tk = .ok (sp, p') ∧ Abs cx p' ts r := by
  obtain ⟨p', h1, h2⟩ := next_cons h
  exact ⟨p', by simp [expect, h1], h2⟩

theorem expect_parses (hne : cx.source ≠ []) {p : Parser} {ts : List Tok} {r : Option Err}
    (h : Abs cx p ts r) (hs : ∀ t ∈ ts, TokOK cx t) (tk : Token) :
    Parses cx (fun used sp => used = [(tk, sp)]) ts r (expect cx p tk) := by
  cases ts with
  | nil =>
    left
    cases r with
    | none =>
      obtain ⟨p', h1⟩ := next_eof h
      obtain ⟨e, he⟩ := errEof (cx := cx) hne (α := Span × Parser) tk.human
      exact ⟨e, by simp [expect, h1, he]⟩
    | some e => exact ⟨e, by simp [expect, next_err h]⟩
  | cons t ts =>
    obtain ⟨tk', sp⟩ := t
    obtain ⟨p', h1, h2⟩ := next_cons h
    by_cases he : tk' = tk
    · subst he
      right
      exact ⟨[(tk', sp)], ts, sp, p', rfl, by simp [expect, h1], h2, rfl⟩
    · left
      obtain ⟨e, h3⟩ := errAt (cx := cx) hne (α := Span × Parser) (hs (tk', sp) (by simp)).span
        s!"expected {tk.human}, found {tk'.human}"
      exact ⟨e, by simp [expect, h1, he, errUnexpectedToken]; exact h3⟩

/-- `is_next`. -/
theorem isNext_cons {p : Parser} {t : Tok} {ts : List Tok} {r : Option Err} (h : Abs cx p (t :: ts) r) (tk : Token) :
    ∃ p', isNext cx p tk = .ok (decide (t.1 = tk), p') ∧ Abs cx p' (t :: ts) r := by
  obtain ⟨p', h1, h2⟩ := peek_cons h
  exact ⟨p', by simp [isNext, h1], h2⟩

theorem isNext_eof {p : Parser} (h : Abs cx p [] none) (tk : Token) :
    ∃ p', isNext cx p tk = .ok (false, p') ∧ Abs cx p' [] none := by
  obtain ⟨p', h1, h2⟩ := peek_eof h
  exact ⟨p', by simp [isNext, h1], h2⟩

theorem isNext_err {p : Parser} {e : Err} (h : Abs cx p [] (some e)) (tk : Token) :
    isNext cx p tk = .err e := by simp [isNext, peek_err h]

/-- The three ways `is_next` can go. -/
theorem isNext_cases {p : Parser} {ts : List Tok} {r : Option Err} (h : Abs cx p ts r) (tk : Token) :
    (∃ e, isNext cx p tk = .err e) ∨
    (∃ p' sp ts', isNext cx p tk = .ok (true, p') ∧ ts = (tk, sp) :: ts' ∧ Abs cx p' ts r) ∨
    (∃ p', isNext cx p tk = .ok (false, p') ∧ Abs cx p' ts r ∧ ∀ sp ts', ts ≠ (tk, sp) :: ts') := by
  cases ts with
  | nil =>
    cases r with
    | none =>
      obtain ⟨p', h1, h2⟩ := isNext_eof h tk
      exact Or.inr (Or.inr ⟨p', h1, h2, by simp⟩)
    | some e => exact Or.inl ⟨e, isNext_err h tk⟩
  | cons t ts =>
    obtain ⟨p', h1, h2⟩ := isNext_cons h tk
    by_cases he : t.1 = tk
    · right; left
      refine ⟨p', t.2, ts, by simpa [he] using h1, by rw [← he], h2⟩
    · right; right
      refine ⟨p', by simpa [he] using h1, h2, ?_⟩
      intro sp ts' e
      simp at e; exact he (by rw [e.1])

/-! Keywords -/

theorem keyword_fromStr {s : Str} (h : s ∈ keywords) : ∃ kw, Keyword.fromStr s = some kw ∧ s = kw.human.toList := by
  have all : ∀ s ∈ keywords, (Keyword.fromStr s).map (fun k => k.human.toList) = some s := by decide
  have := all s h
  cases hk : Keyword.fromStr s with
  | none => rw [hk] at this; cases this
  | some kw =>
    rw [hk] at this
    injection this with this
    exact ⟨kw, rfl, this.symm⟩

theorem fromStr_human (kw : Keyword) : Keyword.fromStr kw.human.toList = some kw := by
  cases kw <;> decide

theorem fromStr_inj {s : Str} {kw : Keyword} (h : Keyword.fromStr s = some kw) (hk : s ∈ keywords) :
    s = kw.human.toList := by
  obtain ⟨kw', h1, h2⟩ := keyword_fromStr hk
  rw [h1] at h; injection h with h; rw [← h, ← h2]

/-- The keyword at a keyword token. -/
theorem kw_of {sp : Span} (h : TokOK cx (.keyword, sp)) :
    ∃ s kw, sp.of cx.source = some s ∧ Keyword.fromStr s = some kw ∧ s = kw.human.toList := by
  rcases h.text with h | h | h | ⟨s, h1, h2⟩
  · cases h
  · cases h
  · cases h
  · obtain ⟨kw, h3, h4⟩ := keyword_fromStr h2.1
    exact ⟨s, kw, h1, h3, h4⟩

theorem isKw_unique {src : Str} {sp : Span} {a b : Keyword} (h1 : Spec.IsKw src (.keyword, sp) a.human)
    (h2 : Spec.IsKw src (.keyword, sp) b.human) : a = b := by
  have := h1.2.symm.trans h2.2
  injection this with this
  have h3 := fromStr_human a
  rw [this, fromStr_human b] at h3
  injection h3 with h3; exact h3.symm

theorem isNextKeyword_cases {p : Parser} {ts : List Tok} {r : Option Err} (h : Abs cx p ts r)
    (hs : ∀ t ∈ ts, TokOK cx t) (kw : Keyword) :
    (∃ e, isNextKeyword cx p kw = .err e) ∨
    (∃ p' sp ts', isNextKeyword cx p kw = .ok (true, p') ∧ ts = (.keyword, sp) :: ts' ∧
      Spec.IsKw cx.source (.keyword, sp) kw.human ∧ Abs cx p' ts r) ∨
    (∃ p', isNextKeyword cx p kw = .ok (false, p') ∧ Abs cx p' ts r) := by
  cases ts with
  | nil =>
    cases r with
    | none =>
      obtain ⟨p', h1, h2⟩ := peek_eof h
      exact Or.inr (Or.inr ⟨p', by simp [isNextKeyword, h1], h2⟩)
    | some e => exact Or.inl ⟨e, by simp [isNextKeyword, peek_err h]⟩
  | cons t ts =>
    obtain ⟨tk, sp⟩ := t
    obtain ⟨p', h1, h2⟩ := peek_cons h
    by_cases he : tk = .keyword
    · subst he
      obtain ⟨s, kw', a1, a2, a3⟩ := kw_of (hs (.keyword, sp) (by simp))
      have e : isNextKeyword cx p kw = .ok (decide (kw' = kw), p') := by
        simp [isNextKeyword, h1, text, a1, a2, Res.ofOption]
      by_cases hk : kw' = kw
      · right; left
        subst hk
        exact ⟨p', sp, ts, by simpa using e, rfl, ⟨rfl, by rw [a1, a3]⟩, h2⟩
      · right; right
        exact ⟨p', by simpa [hk] using e, h2⟩
    · right; right
      exact ⟨p', by simp [isNextKeyword, h1, he], h2⟩

/-- The keyword is next. -/
theorem isNextKeyword_true {p : Parser} {sp : Span} {ts : List Tok} {r : Option Err} {kw : Keyword}
    (h : Abs cx p ((.keyword, sp) :: ts) r) (hk : Spec.IsKw cx.source (.keyword, sp) kw.human) :
    ∃ p', isNextKeyword cx p kw = .ok (true, p') ∧ Abs cx p' ((.keyword, sp) :: ts) r := by
  obtain ⟨p', h1, h2⟩ := peek_cons h
  exact ⟨p', by simp [isNextKeyword, h1, text, show sp.of cx.source = _ from hk.2, fromStr_human, Res.ofOption], h2⟩

/-- The keyword is not next. -/
theorem isNextKeyword_false {p : Parser} {t : Tok} {ts : List Tok} {r : Option Err} {kw : Keyword}
    (h : Abs cx p (t :: ts) r) (hk : t.1 = .keyword → ∃ kw', Spec.IsKw cx.source t kw'.human ∧ kw' ≠ kw) :
    ∃ p', isNextKeyword cx p kw = .ok (false, p') ∧ Abs cx p' (t :: ts) r := by
  obtain ⟨tk, sp⟩ := t
  obtain ⟨p', h1, h2⟩ := peek_cons h
  by_cases he : tk = .keyword
  · subst he
    obtain ⟨kw', hk, hne⟩ := hk rfl
    refine ⟨p', ?_, h2⟩
    simp [isNextKeyword, h1, text, show sp.of cx.source = _ from hk.2, fromStr_human, Res.ofOption, hne]
  · exact ⟨p', by simp [isNextKeyword, h1, he], h2⟩

theorem parseKeyword_ok {p : Parser} {sp : Span} {ts : List Tok} {r : Option Err} {kw : Keyword}
    (h : Abs cx p ((.keyword, sp) :: ts) r) (hk : Spec.IsKw cx.source (.keyword, sp) kw.human) :
    ∃ p', parseKeyword cx p = .ok ((kw, sp), p') ∧ Abs cx p' ts r := by
  obtain ⟨p', h1, h2⟩ := expect_ok h
  exact ⟨p', by simp [parseKeyword, h1, text, show sp.of cx.source = _ from hk.2, fromStr_human, Res.ofOption], h2⟩

theorem expectKeyword_ok {p : Parser} {sp : Span} {ts : List Tok} {r : Option Err} {kw : Keyword}
    (h : Abs cx p ((.keyword, sp) :: ts) r) (hk : Spec.IsKw cx.source (.keyword, sp) kw.human) :
    ∃ p', expectKeyword cx p kw = .ok (sp, p') ∧ Abs cx p' ts r := by
  obtain ⟨p', h1, h2⟩ := parseKeyword_ok h hk
  exact ⟨p', by simp [expectKeyword, h1], h2⟩

theorem parseKeyword_parses (hne : cx.source ≠ []) {p : Parser} {ts : List Tok} {r : Option Err}
    (h : Abs cx p ts r) (hs : ∀ t ∈ ts, TokOK cx t) :
    Parses cx (fun used a => used = [(.keyword, a.2)] ∧ Spec.IsKw cx.source (.keyword, a.2) a.1.human) ts r
      (parseKeyword cx p) := by
  rcases expect_parses hne h hs .keyword with ⟨e, h1⟩ | ⟨used, rest, sp, p', rfl, h1, h2, rfl⟩
  · exact Or.inl ⟨e, by simp [parseKeyword, h1]⟩
  · obtain ⟨s, kw, a1, a2, a3⟩ := kw_of (hs (.keyword, sp) (by simp))
    right
    exact ⟨_, rest, (kw, sp), p', rfl, by simp [parseKeyword, h1, text, a1, a2, Res.ofOption], h2, rfl,
      rfl, by rw [a1, a3]⟩

theorem expectKeyword_parses (hne : cx.source ≠ []) {p : Parser} {ts : List Tok} {r : Option Err}
    (h : Abs cx p ts r) (hs : ∀ t ∈ ts, TokOK cx t) (kw : Keyword) :
    Parses cx (fun used sp => used = [(.keyword, sp)] ∧ Spec.IsKw cx.source (.keyword, sp) kw.human) ts r
      (expectKeyword cx p kw) := by
  rcases parseKeyword_parses hne h hs with ⟨e, h1⟩ | ⟨used, rest, ⟨kw', sp⟩, p', rfl, h1, h2, rfl, h3⟩
  · exact Or.inl ⟨e, by simp [expectKeyword, h1]⟩
  · by_cases hk : kw' = kw
    · subst hk
      right
      exact ⟨_, rest, sp, p', rfl, by simp [expectKeyword, h1], h2, rfl, h3⟩
    · left
      obtain ⟨e, he⟩ := errAt (cx := cx) hne (α := Span × Parser) (hs (.keyword, sp) (by simp)).span
        s!"expected keyword `{kw.human}`, found keyword `{kw'.human}`"
      exact ⟨e, by simp [expectKeyword, h1, hk]; exact he⟩

theorem parseIdent_parses (hne : cx.source ≠ []) {p : Parser} {ts : List Tok} {r : Option Err}
    (h : Abs cx p ts r) (hs : ∀ t ∈ ts, TokOK cx t) :
    Parses cx (fun used i => used = [(.ident, i.span)]) ts r (parseIdent cx p) := by
  rcases expect_parses hne h hs .ident with ⟨e, h1⟩ | ⟨used, rest, sp, p', rfl, h1, h2, rfl⟩
  · exact Or.inl ⟨e, by simp [parseIdent, h1]⟩
  · exact Or.inr ⟨_, rest, ⟨sp⟩, p', rfl, by simp [parseIdent, h1], h2, rfl⟩

theorem parseIdent_ok {p : Parser} {sp : Span} {ts : List Tok} {r : Option Err}
    (h : Abs cx p ((.ident, sp) :: ts) r) : ∃ p', parseIdent cx p = .ok (⟨sp⟩, p') ∧ Abs cx p' ts r := by
  obtain ⟨p', h1, h2⟩ := expect_ok h
  exact ⟨p', by simp [parseIdent, h1], h2⟩

end Parser
end Upon
