import Verif.Proofs.LexBasic
/-
What one call of the lexer does.
-/
namespace Upon

/-- The lexer context belongs to an engine with syntax `syn`. -/
structure Good (syn : Syn) (cx : LexCx) : Prop where
  nonEmpty : Spec.NonEmptyDelims syn
  searcher : AC.new syn = some cx.searcher
  tidy : Spec.Tidy syn cx.source

/-- The prefix of `src` of `n` bytes does not end in whitespace. -/
def NW (src : Str) (n : Nat) : Prop :=
  ∀ v c post, src = v ++ [c] ++ post → blen (v ++ [c]) = n → isWhite c = false

/-! Trimming -/

theorem trimStart_spec (s : Str) : ∃ a, s = a ++ trimStart s ∧ (∀ c ∈ a, isWhite c = true) ∧
    ∀ c v, trimStart s = c :: v → isWhite c = false := by
  induction s with
  | nil => exact ⟨[], rfl, by simp, by simp [trimStart]⟩
  | cons c s ih =>
    obtain ⟨a, h1, h2, h3⟩ := ih
    by_cases hc : isWhite c = true
    · refine ⟨c :: a, ?_, ?_, ?_⟩
      · have : trimStart (c :: s) = trimStart s := by simp [trimStart, List.dropWhile_cons, hc]
        rw [this]; simp [← h1]
      · intro x hx
        rcases List.mem_cons.mp hx with rfl | hx
        · exact hc
        · exact h2 x hx
      · have : trimStart (c :: s) = trimStart s := by simp [trimStart, List.dropWhile_cons, hc]
        rw [this]; exact h3
    · have : trimStart (c :: s) = c :: s := by simp [trimStart, List.dropWhile_cons, hc]
      rw [this]
      refine ⟨[], rfl, by simp, ?_⟩
      intro d v e
      injection e with e _
      subst e; simpa using hc

theorem trimEnd_spec (s : Str) : ∃ b, s = trimEnd s ++ b ∧ (∀ c ∈ b, isWhite c = true) ∧
    ∀ v c, trimEnd s = v ++ [c] → isWhite c = false := by
  obtain ⟨a, h1, h2, h3⟩ := trimStart_spec s.reverse
  refine ⟨a.reverse, ?_, ?_, ?_⟩
  · have := congrArg List.reverse h1
    simpa [trimEnd, trimStart] using this
  · intro c hc; exact h2 c (by simpa using hc)
  · intro v c e
    refine h3 c v.reverse ?_
    have := congrArg List.reverse e
    simpa [trimEnd, trimStart] using this

theorem trimEnd_white {b : Str} (h : ∀ c ∈ b, isWhite c = true) (v : Str) : trimEnd (v ++ b) = trimEnd v := by
  have : ∀ (x y : Str), (∀ c ∈ x, isWhite c = true) → (x ++ y).dropWhile isWhite = y.dropWhile isWhite := by
    intro x
    induction x with
    | nil => simp
    | cons c x ih =>
      intro y hx
      rw [List.cons_append, List.dropWhile_cons, if_pos (hx c (by simp))]
      exact ih y (fun d hd => hx d (List.mem_cons_of_mem _ hd))
  simp only [trimEnd, List.reverse_append]
  rw [this _ _ (by simpa using h)]

theorem trimEnd_nw {v : Str} (h : ∀ w c, v = w ++ [c] → isWhite c = false) : trimEnd v = v := by
  rcases List.eq_nil_or_concat v with rfl | ⟨w, c, rfl⟩
  · rfl
  · have := h w c (by simp)
    simp [trimEnd, List.dropWhile_cons, this]

/-- Trimming the end of the whole prefix only affects the last part. -/
theorem trimEnd_append_nw {pre t : Str} (h : (∀ c ∈ t, isWhite c = true) → ∀ w c, pre = w ++ [c] → isWhite c = false) :
    trimEnd (pre ++ t) = pre ++ trimEnd t := by
  obtain ⟨b, h1, h2, h3⟩ := trimEnd_spec t
  have e : pre ++ t = (pre ++ trimEnd t) ++ b := by rw [List.append_assoc, ← h1]
  rw [e, trimEnd_white h2]
  apply trimEnd_nw
  intro w c hw
  rcases List.eq_nil_or_concat (trimEnd t) with h0 | ⟨v, d, h0⟩
  · rw [h0] at hw; exact h (by rw [h1, h0]; simpa using h2) w c (by simpa using hw)
  · have h0' : trimEnd t = v ++ [d] := by simpa using h0
    have e2 : (pre ++ v) ++ [d] = w ++ [c] := by rw [← hw, h0']; simp
    have := (List.append_inj' e2 rfl).2
    simp at this
    subst this
    exact h3 v d h0'

namespace Lexer

/-- The state after reading the begin tag `tk`. -/
def enter (tk : Token) (sp : Span) (e : Token) : LexState :=
  if tk = .beginComment then .comment sp e else .block sp e

/-- The state after reading a token inside a tag. -/
def nextBlock (bs : BlockState) (tk : Token) (b : Span) (e : Token) : LexState :=
  match bs, tk with
  | .unknown, .ident => .blockPath b e
  | .path, .pipe | .path, .comma | .path, .colon => .block b e
  | .unknown, _ => .block b e
  | .path, _ => .blockPath b e

/-- The state inside a tag. -/
def blockOf (bs : BlockState) (b : Span) (e : Token) : LexState :=
  match bs with
  | .unknown => .block b e
  | .path => .blockPath b e

/-- One call of the lexer that returns a token. -/
inductive Step (syn : Syn) (cx : LexCx) : Lexer → Token × Span → Lexer → Prop
  | pending {lx : Lexer} {t} (hn : lx.next = some t) : Step syn cx lx t { lx with next := none }
  | openTag {lx : Lexer} {k tk trim e j} (hn : lx.next = none) (hst : lx.state = .template)
      (hd : Spec.DelimAt syn cx.source k lx.cursor j) (hk : Token.fromKind k = (tk, trim))
      (hb : tk.isBeginTag = true) (hp : tk.pair = some e) :
      Step syn cx lx (tk, ⟨lx.cursor, j⟩)
        { lx with cursor := j, state := enter tk ⟨lx.cursor, j⟩ e }
  | rawTag {lx : Lexer} {k tk trim e i j t a u b} (hn : lx.next = none) (hst : lx.state = .template)
      (hd : Spec.Chosen syn cx.source lx.cursor k i j) (hlt : lx.cursor < i)
      (hk : Token.fromKind k = (tk, trim)) (hb : tk.isBeginTag = true) (hp : tk.pair = some e)
      (hs : slice cx.source lx.cursor i = some t) (ht : Spec.Trimmed lx.leftTrim trim t a u b) :
      Step syn cx lx (.raw, ⟨lx.cursor + blen a, lx.cursor + blen a + blen u⟩)
        { cursor := j, state := enter tk ⟨i, j⟩ e, leftTrim := false, next := some (tk, ⟨i, j⟩) }
  | rawEnd {lx : Lexer} {t a u} (hn : lx.next = none) (hst : lx.state = .template)
      (hd : ∀ k i j, lx.cursor ≤ i → ¬ Spec.Occurs syn cx.source k i j)
      (hlt : lx.cursor < blen cx.source)
      (hs : slice cx.source lx.cursor (blen cx.source) = some t)
      (ht : Spec.Trimmed lx.leftTrim false t a u []) :
      Step syn cx lx (.raw, ⟨lx.cursor + blen a, lx.cursor + blen a + blen u⟩)
        { cursor := blen cx.source, state := .template, leftTrim := false, next := none }
  | closeTag {lx : Lexer} {bs b e k j trim} (hn : lx.next = none) (hst : lx.state = blockOf bs b e)
      (hd : Spec.DelimAt syn cx.source k lx.cursor j) (hk : Token.fromKind k = (e, trim)) :
      Step syn cx lx (e, ⟨lx.cursor, j⟩)
        { cursor := j, state := .template, leftTrim := trim, next := none }
  | inner {lx : Lexer} {bs b e tk t} (hn : lx.next = none) (hst : lx.state = blockOf bs b e)
      (hd : ∀ k j, ¬ Spec.Occurs syn cx.source k lx.cursor j)
      (hs : slice cx.source lx.cursor (lx.cursor + blen t) = some t) (ht : Spec.TokText cx.env tk t)
      (hne : t ≠ []) (hat : Spec.TokAt cx.env cx.source (pathOf bs) lx.cursor tk t) :
      Step syn cx lx (tk, ⟨lx.cursor, lx.cursor + blen t⟩)
        { lx with cursor := lx.cursor + blen t, state := nextBlock bs tk b e }
  | closeComment {lx : Lexer} {b e k j trim} (hn : lx.next = none) (hst : lx.state = .comment b e)
      (hd : Spec.DelimAt syn cx.source k lx.cursor j) (hk : Token.fromKind k = (e, trim)) :
      Step syn cx lx (e, ⟨lx.cursor, j⟩)
        { cursor := j, state := .template, leftTrim := trim, next := none }
  | rawComment {lx : Lexer} {b e k i j trim} (hn : lx.next = none) (hst : lx.state = .comment b e)
      (hd : Spec.Chosen syn cx.source lx.cursor k i j) (hlt : lx.cursor < i)
      (hk : Token.fromKind k = (e, trim)) :
      Step syn cx lx (.raw, ⟨lx.cursor, i⟩)
        { cursor := j, state := .template, leftTrim := trim, next := some (e, ⟨i, j⟩) }
  | rawCommentEnd {lx : Lexer} {b e} (hn : lx.next = none) (hst : lx.state = .comment b e)
      (hd : ∀ k i j, lx.cursor ≤ i → ¬ Spec.Occurs syn cx.source k i j)
      (hlt : lx.cursor < blen cx.source) :
      Step syn cx lx (.raw, ⟨lx.cursor, blen cx.source⟩) { lx with cursor := blen cx.source }

/-- At the start, or after a closing delimiter. -/
def AtText (syn : Syn) (src : Str) (n : Nat) : Prop :=
  n = 0 ∨ ∃ k i, Spec.isEnd k = true ∧ Spec.Occurs syn src k i n

/-- The lexer invariant. -/
structure Inv (syn : Syn) (cx : LexCx) (lx : Lexer) : Prop where
  bnd : Boundary cx.source lx.cursor
  nx : ∀ tk sp, lx.next = some (tk, sp) → (∃ k trim i, Token.fromKind k = (tk, trim) ∧
      Spec.DelimAt syn cx.source k i lx.cursor ∧ sp = ⟨i, lx.cursor⟩) ∧
      ((tk.isBeginTag = true ∧ ∃ e, tk.pair = some e ∧ lx.state = enter tk sp e) ∨
        (tk = .endComment ∧ lx.state = .template))
  blk : ∀ b e, (lx.state = .block b e ∨ lx.state = .blockPath b e) →
    (∃ t, slice cx.source b.m b.n = some t) ∧ (e = .endExpr ∨ e = .endBlock)
  cmt : ∀ b e, lx.state = .comment b e →
    (∃ t, slice cx.source b.m b.n = some t) ∧ e = .endComment
  tmpl : lx.state = .template → lx.cursor < blen cx.source → AtText syn cx.source lx.cursor

theorem Inv.new (syn : Syn) (cx : LexCx) : Inv syn cx Lexer.new := by
  refine ⟨boundary_zero _, by simp [Lexer.new], by simp [Lexer.new], by simp [Lexer.new], ?_⟩
  intro _ _
  exact .inl rfl

theorem chosen_occurs {syn : Syn} {src : Str} {s k i j} (h : Spec.Chosen syn src s k i j) :
    Spec.Occurs syn src k i j := by
  obtain ⟨d, b, l, e, st, _⟩ := h.first
  exact ⟨d, by rw [e]; simp, st⟩

/-- A chosen delimiter is also the one chosen when searching from its start. -/
theorem chosen_delimAt {syn : Syn} {src : Str} {s k i j} (h : Spec.Chosen syn src s k i j) :
    Spec.DelimAt syn src k i j :=
  ⟨Nat.le_refl _, fun _ _ _ h1 _ => h1, h.longest, h.first⟩

theorem occurs_slice {syn : Syn} {src : Str} {k i j} (h : Spec.Occurs syn src k i j) :
    ∃ d, (k, d) ∈ syn ∧ slice src i j = some d := by
  obtain ⟨d, hd, pre, post, e, h1, h2⟩ := h
  exact ⟨d, hd, slice_eq_some.mpr ⟨pre, post, by simpa using e, h1, by simp at h2; omega⟩⟩

theorem occurs_lt {syn : Syn} (hs : Spec.NonEmptyDelims syn) {src : Str} {k i j}
    (h : Spec.Occurs syn src k i j) : i < j := by
  obtain ⟨d, hd, pre, post, e, h1, h2⟩ := h
  have : blen d ≠ 0 := fun e => hs _ hd (blen_eq_zero.mp e)
  simp at h2; omega

theorem occurs_boundary {syn : Syn} {src : Str} {k i j} (h : Spec.Occurs syn src k i j) :
    Boundary src i ∧ Boundary src j := by
  obtain ⟨d, _, h⟩ := occurs_slice h
  have := boundary_of_slice h
  exact ⟨this.1, this.2.1⟩

theorem isEnd_of_not_begin {k : Kind} (h : (Token.fromKind k).1.isBeginTag = false) : Spec.isEnd k = true := by
  cases k <;> simp [Token.fromKind, Token.isBeginTag, Spec.isEnd] at h ⊢

/-- Whitespace that is to be trimmed at its end, and nothing else, follows no whitespace. -/
theorem nw_of_after {syn : Syn} {cx : LexCx} (g : Good syn cx) {i j n : Nat} {k : Kind} {t : Str}
    (h : AtText syn cx.source i) (ho : Spec.Occurs syn cx.source k j n) (hb : Spec.isEnd k = false)
    (hs : slice cx.source i j = some t) (hne : t ≠ []) (ht : Spec.isTrim k = true) (hw : ∀ c ∈ t, isWhite c = true) :
    NW cx.source i := by
  rcases h with rfl | ⟨k', m, hk', d, hd, pre, post, e, h1, h2⟩
  · intro v c post _ h
    have := c.utf8Size_pos
    simp at h
    omega
  · obtain ⟨d', hd', pre', post', e', h1', h2'⟩ := ho
    obtain ⟨a, b, e'', h3, h4⟩ := slice_eq_some.mp hs
    intro v c post'' e3 h5
    rcases List.eq_nil_or_concat d with h0 | ⟨x, y, h0⟩
    · exact absurd h0 (g.nonEmpty _ hd)
    · have h0' : d = x ++ [y] := by simpa using h0
      have hp : pre ++ d = a := (append_blen_inj (show (pre ++ d) ++ post = a ++ (t ++ b) by rw [← e, e'']) (by rw [h2, h3])).1
      have hq : pre' = a ++ t := (append_blen_inj (show pre' ++ (d' ++ post') = (a ++ t) ++ b by rw [← List.append_assoc, ← e', e'', List.append_assoc])
        (by rw [h1', blen_append, h3, h4])).1
      have hy := g.tidy _ hd hk' _ hd' hb ht pre t post' (by rw [e', hq, ← hp]) hne hw x y h0'
      have hh : (pre ++ d) ++ post = (v ++ [c]) ++ post'' := by rw [← e, ← e3]
      have := (append_blen_inj hh (by rw [h2, h5])).1
      rw [h0', ← List.append_assoc] at this
      have := (List.append_inj' this rfl).2
      simp at this
      subst this; exact hy

variable {syn : Syn} {cx : LexCx}

theorem findAt_cases (g : Good syn cx) (i : Nat) :
    (∃ k j j', findAt cx i = .ok (some (k, j, j')) ∧ Spec.Chosen syn cx.source i k j j') ∨
    (findAt cx i = .ok none ∧ ∀ k j j', i ≤ j → ¬ Spec.Occurs syn cx.source k j j') := by
  obtain ⟨a, nm, h1, h2⟩ := AC.new_spec g.nonEmpty
  rw [g.searcher] at h1; injection h1 with h1; subst h1
  rcases AC.searcherFindAt_spec g.nonEmpty h2 cx.source i with ⟨k, j, j', h, hc⟩ | ⟨h, hc⟩
  · left; exact ⟨k, j, j', by simp [findAt, h, Res.ofOption], hc⟩
  · right; exact ⟨by simp [findAt, h, Res.ofOption], hc⟩

theorem startsWith_cases (g : Good syn cx) (i : Nat) :
    (∃ k j, startsWith cx i = .ok (some (k, j)) ∧ Spec.DelimAt syn cx.source k i j) ∨
    (startsWith cx i = .ok none ∧ ∀ k j, ¬ Spec.Occurs syn cx.source k i j) := by
  obtain ⟨a, nm, h1, h2⟩ := AC.new_spec g.nonEmpty
  rw [g.searcher] at h1; injection h1 with h1; subst h1
  rcases AC.searcherStartsWith_spec g.nonEmpty h2 cx.source i with ⟨k, j, h, hc⟩ | ⟨h, hc⟩
  · left; exact ⟨k, j, by simp [startsWith, h, Res.ofOption], hc⟩
  · right; exact ⟨by simp [startsWith, h, Res.ofOption], hc⟩

/-- Trimming the raw text between `i` and `j`. -/
theorem trimRawToken_spec (lx : Lexer) {i j : Nat} {rt : Bool} {t : Str}
    (hs : slice cx.source i j = some t) (hnw : rt = true → (∀ c ∈ t, isWhite c = true) → NW cx.source i) :
    ∃ a u b, Spec.Trimmed lx.leftTrim rt t a u b ∧
      trimRawToken cx lx i j rt =
        .ok (some (.raw, ⟨i + blen a, i + blen a + blen u⟩), { lx with leftTrim := false }) := by
  obtain ⟨pre, post, e, h1, h2⟩ := slice_eq_some.mp hs
  have hpre : rt = true → (∀ c ∈ t, isWhite c = true) → ∀ w c, pre = w ++ [c] → isWhite c = false := by
    intro hr ha w c hw
    exact hnw hr ha w c (t ++ post) (by rw [← hw, e]) (by rw [← hw, h1])
  -- right trim
  obtain ⟨u', b, hu', hwb, hkb, hmb, hj⟩ : ∃ u' b, t = u' ++ b ∧ (∀ c ∈ b, isWhite c = true) ∧
      (rt = false → b = []) ∧ (rt = true → ∀ v c, u' = v ++ [c] → isWhite c = false) ∧
      ∀ K : Nat → Res (Option (Token × Span) × Lexer),
        (if rt = true then (Res.ofOption (slice cx.source 0 j)).bind fun s => K (blen (trimEnd s))
          else K j) = K (i + blen u') := by
    cases rt with
    | false =>
      exact ⟨t, [], by simp, by simp, by simp, by simp, by intro K; simp [h2]⟩
    | true =>
      obtain ⟨b, h3, h4, h5⟩ := trimEnd_spec t
      refine ⟨trimEnd t, b, h3, h4, by simp, fun _ => h5, ?_⟩
      have : slice cx.source 0 j = some (pre ++ t) :=
        slice_eq_some.mpr ⟨[], post, by simp [e], rfl, by simp; omega⟩
      intro K
      simp only [if_true, this, Res.ofOption, Res.bind, trimEnd_append_nw (hpre rfl), blen_append, h1]
  obtain ⟨K, hK⟩ : ∃ K : Nat → Res (Option (Token × Span) × Lexer), K = (fun j =>
      if lx.leftTrim = true then
        (Res.ofOption (slice cx.source i j)).bind fun s =>
          .ok (some (Token.raw, ⟨i + (blen s - blen (trimStart s)), j⟩), { lx with leftTrim := false })
      else .ok (some (Token.raw, ⟨i, j⟩), lx)) := ⟨_, rfl⟩
  have hT : trimRawToken cx lx i j rt = K (i + blen u') := by
    rw [← hj K, hK]
    cases rt <;> rfl
  rw [hT, hK]
  cases hl : lx.leftTrim with
  | false =>
    refine ⟨[], u', b, ⟨by simpa using hu', by simp, hwb, by simp, hkb, by simp, hmb, by simp⟩, ?_⟩
    have : lx = { lx with leftTrim := false } := by rw [← hl]
    simp
    exact this
  | true =>
    obtain ⟨a, h3, h4, h5⟩ := trimStart_spec u'
    refine ⟨a, trimStart u', b, ⟨by rw [← h3]; exact hu', h4, hwb, by simp, hkb, fun _ => h5, ?_, ?_⟩, ?_⟩
    · intro hr v c hv
      exact hmb hr (a ++ v) c (by rw [List.append_assoc, ← hv, ← h3])
    · intro hr h0
      rcases List.eq_nil_or_concat a with h6 | ⟨v, c, h6⟩
      · exact h6
      · have h6' : a = v ++ [c] := by simpa using h6
        have h7 := hmb hr v c (by rw [h3, h0, h6', List.append_nil])
        rw [h4 c (by rw [h6']; simp)] at h7
        cases h7
    · have : slice cx.source i (i + blen u') = some u' :=
        slice_eq_some.mpr ⟨pre, b ++ post, by rw [e, hu']; simp, h1, rfl⟩
      have hbl : blen u' = blen a + blen (trimStart u') := by
        rw [← blen_append, ← h3]
      simp only [if_true, this, Res.ofOption, Res.bind]
      rw [hbl]
      have : i + (blen a + blen (trimStart u') - blen (trimStart u')) = i + blen a := by omega
      rw [this, Nat.add_assoc]

theorem fromKind_pair {k : Kind} {tk : Token} {trim : Bool} (h : Token.fromKind k = (tk, trim)) :
    ∃ e, tk.pair = some e := by
  cases k <;> simp [Token.fromKind] at h <;> obtain ⟨rfl, _⟩ := h <;> simp [Token.pair]

theorem begin_pair {tk e : Token} (hb : tk.isBeginTag = true) (hp : tk.pair = some e) :
    (tk = .beginComment → e = .endComment) ∧ (tk ≠ .beginComment → e = .endExpr ∨ e = .endBlock) := by
  cases tk <;> simp [Token.isBeginTag, Token.pair] at hb hp ⊢ <;> subst hp <;> simp

theorem inv_enter {tk e : Token} {i j : Nat} (hb : tk.isBeginTag = true) (hp : tk.pair = some e)
    {s : Str} (hs : slice cx.source i j = some s) :
    (∀ b' e', (enter tk ⟨i, j⟩ e = .block b' e' ∨ enter tk ⟨i, j⟩ e = .blockPath b' e') →
      (∃ t, slice cx.source b'.m b'.n = some t) ∧ (e' = .endExpr ∨ e' = .endBlock)) ∧
    (∀ b' e', enter tk ⟨i, j⟩ e = .comment b' e' →
      (∃ t, slice cx.source b'.m b'.n = some t) ∧ e' = .endComment) ∧
    enter tk ⟨i, j⟩ e ≠ .template := by
  obtain ⟨h1, h2⟩ := begin_pair hb hp
  unfold enter
  split
  · next h =>
    refine ⟨by simp, ?_, by simp⟩
    intro b' e' he
    injection he with he1 he2
    subst he1 he2
    exact ⟨⟨s, hs⟩, h1 h⟩
  · next h =>
    refine ⟨?_, by simp, by simp⟩
    rintro b' e' (he | he)
    · injection he with he1 he2
      subst he1 he2
      exact ⟨⟨s, hs⟩, h2 h⟩
    · cases he

theorem nextBlock_cases (bs : BlockState) (tk : Token) (b : Span) (e : Token) :
    nextBlock bs tk b e = .block b e ∨ nextBlock bs tk b e = .blockPath b e := by
  cases bs <;> cases tk <;> simp [nextBlock]

/-- The invariant is preserved. -/
theorem Step.inv (g : Good syn cx) {lx lx' : Lexer} {t : Token × Span} (inv : Inv syn cx lx)
    (h : Step syn cx lx t lx') : Inv syn cx lx' := by
  cases h with
  | pending hn => exact ⟨inv.bnd, by simp, inv.blk, inv.cmt, inv.tmpl⟩
  | openTag hn hst hd hk hb hp =>
    obtain ⟨d, hd', hsl⟩ := occurs_slice (chosen_occurs hd)
    obtain ⟨h1, h2, h3⟩ := inv_enter hb hp hsl
    exact ⟨(occurs_boundary (chosen_occurs hd)).2, by simp [hn], h1, h2, fun h => absurd h h3⟩
  | rawTag hn hst hd hlt hk hb hp hs ht =>
    obtain ⟨d, hd', hsl⟩ := occurs_slice (chosen_occurs hd)
    obtain ⟨h1, h2, h3⟩ := inv_enter hb hp hsl
    refine ⟨(occurs_boundary (chosen_occurs hd)).2, ?_, h1, h2, fun h => absurd h h3⟩
    intro tk sp h
    simp at h
    obtain ⟨rfl, rfl⟩ := h
    exact ⟨⟨_, _, _, hk, chosen_delimAt hd, rfl⟩, Or.inl ⟨hb, _, hp, rfl⟩⟩
  | rawEnd hn hst hd hlt hs ht =>
    exact ⟨boundary_len _, by simp, by simp, by simp, fun _ h => absurd h (Nat.lt_irrefl _)⟩
  | closeTag hn hst hd hk =>
    rename_i bs b e k j trim
    have he := (inv.blk b e (by cases bs <;> simp [hst, blockOf])).2
    refine ⟨(occurs_boundary (chosen_occurs hd)).2, by simp, by simp, by simp, fun _ _ => ?_⟩
    refine .inr ⟨_, _, isEnd_of_not_begin ?_, chosen_occurs hd⟩
    rw [hk]
    rcases he with rfl | rfl <;> rfl
  | @inner bs b e tk t hn hst hd hs ht hne hat =>
    obtain ⟨h1, h2⟩ := inv.blk b e (by cases bs <;> simp [hst, blockOf])
    refine ⟨(boundary_of_slice hs).2.1, by simp [hn], ?_, ?_, ?_⟩
    · intro b' e' h
      rcases nextBlock_cases bs tk b e with hb | hb <;> simp [hb] at h <;> obtain ⟨rfl, rfl⟩ := h <;> exact ⟨h1, h2⟩
    · intro b' e' h
      rcases nextBlock_cases bs tk b e with hb | hb <;> simp [hb] at h
    · intro h
      rcases nextBlock_cases bs tk b e with hb | hb <;> simp [hb] at h
  | closeComment hn hst hd hk =>
    refine ⟨(occurs_boundary (chosen_occurs hd)).2, by simp, by simp, by simp, fun _ _ => ?_⟩
    refine .inr ⟨_, _, isEnd_of_not_begin ?_, chosen_occurs hd⟩
    rw [hk, (inv.cmt _ _ hst).2]; rfl
  | rawComment hn hst hd hlt hk =>
    have he := (inv.cmt _ _ hst).2
    refine ⟨(occurs_boundary (chosen_occurs hd)).2, ?_, by simp, by simp, fun _ _ => ?_⟩
    · intro tk sp h
      simp at h
      obtain ⟨rfl, rfl⟩ := h
      exact ⟨⟨_, _, _, hk, chosen_delimAt hd, rfl⟩, Or.inr ⟨he, rfl⟩⟩
    · refine .inr ⟨_, _, isEnd_of_not_begin ?_, chosen_occurs hd⟩
      rw [hk, he]; rfl
  | rawCommentEnd hn hst hd hlt =>
    refine ⟨boundary_len _, by simp [hn], ?_, ?_, ?_⟩
    · intro b' e' h; simp [hst] at h
    · intro b' e' h; exact inv.cmt b' e' h
    · intro h; simp [hst] at h

theorem source_ne {lx : Lexer} (h : lx.cursor < blen cx.source) : cx.source ≠ [] := by
  intro e; rw [e] at h; simp at h

theorem errUnclosed_err (hne : cx.source ≠ []) {α : Type} {b : Span} {e : Token} {t : Str}
    (h : slice cx.source b.m b.n = some t) (he : e = .endExpr ∨ e = .endBlock ∨ e = .endComment) :
    ∃ er, (errUnclosed cx b e : Res α) = .err er := by
  rcases he with rfl | rfl | rfl <;> exact errSyntax_err _ _ hne h

theorem nw_of_begin (g : Good syn cx) {i j n : Nat} {k : Kind} {tk : Token} {trim : Bool} {t : Str}
    (h : AtText syn cx.source i) (ho : Spec.Occurs syn cx.source k j n) (hk : Token.fromKind k = (tk, trim))
    (hb : tk.isBeginTag = true) (hs : slice cx.source i j = some t) (hlt : i < j) (ht : trim = true)
    (hw : ∀ c ∈ t, isWhite c = true) : NW cx.source i := by
  refine nw_of_after g h ho ?_ hs ?_ ?_ hw
  · cases k <;> simp [Token.fromKind] at hk <;> obtain ⟨rfl, _⟩ := hk <;> first | rfl | simp [Token.isBeginTag] at hb
  · rintro rfl
    obtain ⟨_, _, _, h1, h2⟩ := slice_eq_some.mp hs
    simp at h2; omega
  · cases k <;> simp [Token.fromKind] at hk <;> obtain ⟨_, rfl⟩ := hk <;> first | rfl | cases ht

theorem lexTemplate_cases (g : Good syn cx) {lx : Lexer} (inv : Inv syn cx lx) (hn : lx.next = none)
    (hst : lx.state = .template) (hlt : lx.cursor < blen cx.source) :
    (∃ e, lexTemplate cx lx lx.cursor = .err e) ∨
    ∃ t lx', lexTemplate cx lx lx.cursor = .ok (some t, lx') ∧ Step syn cx lx t lx' := by
  have hne := source_ne hlt
  have haf := inv.tmpl hst hlt
  rcases findAt_cases g lx.cursor with ⟨k, i, j, hf, hc⟩ | ⟨hf, hc⟩
  · obtain ⟨tk, trim, hk⟩ : ∃ tk trim, Token.fromKind k = (tk, trim) := ⟨_, _, rfl⟩
    have hocc := chosen_occurs hc
    obtain ⟨d, hd, hsl⟩ := occurs_slice hocc
    by_cases hb : tk.isBeginTag = true
    · right
      obtain ⟨e, hp⟩ := fromKind_pair hk
      by_cases hij : lx.cursor = i
      · subst hij
        refine ⟨(tk, ⟨lx.cursor, j⟩), _, ?_, .openTag hn hst hc hk hb hp⟩
        simp [lexTemplate, hf, hk, hb, hp, Res.ofOption, enter]
      · have hlt' : lx.cursor < i := by have := hc.after; omega
        obtain ⟨t, ht⟩ := inv.bnd.slice (occurs_boundary hocc).1 (by omega)
        obtain ⟨a, u, b, h1, h2⟩ := trimRawToken_spec (cx := cx)
          { lx with cursor := j, state := enter tk ⟨i, j⟩ e, next := some (tk, ⟨i, j⟩) } (rt := trim) ht (nw_of_begin g haf hocc hk hb ht hlt')
        refine ⟨_, _, ?_, .rawTag hn hst hc hlt' hk hb hp ht h1⟩
        simp only [enter] at h2
        simp [lexTemplate, hf, hk, hb, hp, Res.ofOption, hij, enter, h2]
    · left
      simp only [lexTemplate, hf, Res.ok_bind, hk]
      rw [if_pos (by simpa using hb)]
      exact errSyntax_err _ _ hne hsl
  · right
    obtain ⟨t, ht⟩ := inv.bnd.slice (boundary_len _) (Nat.le_of_lt hlt)
    obtain ⟨a, u, b, h1, h2⟩ := trimRawToken_spec (cx := cx)
          { lx with cursor := blen cx.source } (rt := false) ht nofun
    have hb : b = [] := h1.keepB rfl
    subst hb
    refine ⟨_, _, ?_, .rawEnd hn hst hc hlt ht h1⟩
    simp only [lexTemplate, hf, Res.ok_bind, h2]
    simp [hst, hn]

theorem lexBlock_cases (g : Good syn cx) {lx : Lexer} (inv : Inv syn cx lx) (hn : lx.next = none)
    {bs : BlockState} {b : Span} {e : Token} (hst : lx.state = blockOf bs b e)
    (hlt : lx.cursor < blen cx.source) :
    (∃ er, lexBlock cx lx bs b e lx.cursor = .err er) ∨
    ∃ t lx', lexBlock cx lx bs b e lx.cursor = .ok (some t, lx') ∧ Step syn cx lx t lx' := by
  have hne := source_ne hlt
  obtain ⟨⟨tb, htb⟩, he⟩ := inv.blk b e (by cases bs <;> simp [hst, blockOf])
  rcases startsWith_cases g lx.cursor with ⟨k, j, hf, hc⟩ | ⟨hf, hc⟩
  · obtain ⟨tk, trim, hk⟩ : ∃ tk trim, Token.fromKind k = (tk, trim) := ⟨_, _, rfl⟩
    have hocc := chosen_occurs hc
    obtain ⟨d, hd, hsl⟩ := occurs_slice hocc
    by_cases hb : tk.isBeginTag = true
    · left
      obtain ⟨er, her⟩ := errUnclosed_err (α := (Token × Nat) × Lexer) hne htb
        (he.elim Or.inl (fun h => Or.inr (Or.inl h)))
      exact ⟨er, by simp [lexBlock, hf, hk, hb, her]⟩
    · by_cases hte : tk = e
      · right
        subst hte
        refine ⟨_, _, ?_, .closeTag hn hst hc hk⟩
        simp only [lexBlock, hf, Res.ok_bind, hk, if_neg hb, ne_eq, not_true_eq_false, if_false, Res.pure_eq]
        rcases he with rfl | rfl <;> cases bs <;> simp [hn]
      · left
        obtain ⟨er, her⟩ : ∃ er, (errUnexpectedToken cx tk lx.cursor j : Res ((Token × Nat) × Lexer)) = .err er :=
          errSyntax_err _ _ hne hsl
        exact ⟨er, by simp [lexBlock, hf, hk, hb, hte, her]⟩
  · obtain ⟨pre, post, e1, h1⟩ := inv.bnd
    have hdrop : dropB cx.source lx.cursor = some post := dropB_eq_some.mpr ⟨pre, e1, h1⟩
    cases post with
    | nil => rw [e1] at hlt; simp at hlt; omega
    | cons c rest =>
      rcases lexChar_spec cx bs lx.cursor pre c rest e1 h1 with ⟨tk, t, post, h2, h3, h4, h6, h7, h5⟩ | ⟨er, h2⟩
      · right
        have hsl : slice cx.source lx.cursor (lx.cursor + blen t) = some t :=
          slice_eq_some.mpr ⟨pre, post, by rw [e1, h3], h1, rfl⟩
        refine ⟨_, _, ?_, .inner hn hst hc hsl h4 h5 ⟨post, by rw [hdrop, h3], h4, h6, h7⟩⟩
        simp only [lexBlock, hf, Res.ok_bind, hdrop, Res.ofOption, h2, Res.pure_eq]
        obtain ⟨c0, st0, l0, n0⟩ := lx
        simp only at hst
        subst hst
        cases bs <;> cases tk <;> rfl
      · left
        exact ⟨er, by simp [lexBlock, hf, hdrop, Res.ofOption, h2]⟩

theorem lexComment_cases (g : Good syn cx) {lx : Lexer} (inv : Inv syn cx lx) (hn : lx.next = none)
    {b : Span} {e : Token} (hst : lx.state = .comment b e) (hlt : lx.cursor < blen cx.source) :
    (∃ er, lexComment cx lx b e lx.cursor = .err er) ∨
    ∃ t lx', lexComment cx lx b e lx.cursor = .ok (some t, lx') ∧ Step syn cx lx t lx' := by
  have hne := source_ne hlt
  obtain ⟨⟨tb, htb⟩, he⟩ := inv.cmt b e hst
  rcases findAt_cases g lx.cursor with ⟨k, i, j, hf, hc⟩ | ⟨hf, hc⟩
  · obtain ⟨tk, trim, hk⟩ : ∃ tk trim, Token.fromKind k = (tk, trim) := ⟨_, _, rfl⟩
    have hocc := chosen_occurs hc
    obtain ⟨d, hd, hsl⟩ := occurs_slice hocc
    by_cases hb : tk.isBeginTag = true
    · left
      obtain ⟨er, her⟩ := errUnclosed_err (α := Option (Token × Span) × Lexer) hne htb (Or.inr (Or.inr he))
      exact ⟨er, by simp [lexComment, hf, hk, hb, her]⟩
    · by_cases hte : tk = e
      · right
        subst hte
        by_cases hij : lx.cursor = i
        · subst hij
          refine ⟨_, _, ?_, .closeComment hn hst hc hk⟩
          simp [lexComment, hf, hk, hb, hn]
        · have hlt' : lx.cursor < i := by have := hc.after; omega
          refine ⟨_, _, ?_, .rawComment hn hst hc hlt' hk⟩
          simp [lexComment, hf, hk, hb, hij]
      · left
        obtain ⟨er, her⟩ : ∃ er, (errUnexpectedToken cx tk i j : Res (Option (Token × Span) × Lexer)) = .err er :=
          errSyntax_err _ _ hne hsl
        exact ⟨er, by simp [lexComment, hf, hk, hb, hte, her]⟩
  · right
    refine ⟨_, _, ?_, .rawCommentEnd hn hst hc hlt⟩
    simp [lexComment, hf]

/-- One call of the lexer: the end, an error, or a step. -/
theorem lex_cases (g : Good syn cx) {lx : Lexer} (inv : Inv syn cx lx) :
    (lex cx lx = .ok (none, lx) ∧ lx.next = none ∧ lx.cursor = blen cx.source) ∨
    (∃ e, lex cx lx = .err e) ∨
    ∃ t lx', lex cx lx = .ok (some t, lx') ∧ Step syn cx lx t lx' ∧ Inv syn cx lx' := by
  cases hn : lx.next with
  | some t =>
    right; right
    refine ⟨t, _, by simp [lex, hn], .pending hn, ?_⟩
    exact Step.inv g inv (.pending hn)
  | none =>
    obtain ⟨pre, post, e1, h1⟩ := inv.bnd
    have hdrop : dropB cx.source lx.cursor = some post := dropB_eq_some.mpr ⟨pre, e1, h1⟩
    cases post with
    | nil =>
      left
      exact ⟨by simp [lex, hn, hdrop, Res.ofOption], rfl, by rw [e1]; simp [h1]⟩
    | cons c rest =>
      right
      have hlt : lx.cursor < blen cx.source := by
        have := c.utf8Size_pos
        rw [e1]; simp; omega
      have key : (∃ e, lex cx lx = .err e) ∨
          ∃ t lx', lex cx lx = .ok (some t, lx') ∧ Step syn cx lx t lx' := by
        cases hst : lx.state with
        | template =>
          have := lexTemplate_cases g inv hn hst hlt
          simpa [lex, hn, hdrop, Res.ofOption, hst] using this
        | block b e =>
          have := lexBlock_cases g inv hn (bs := .unknown) hst hlt
          simpa [lex, hn, hdrop, Res.ofOption, hst] using this
        | blockPath b e =>
          have := lexBlock_cases g inv hn (bs := .path) hst hlt
          simpa [lex, hn, hdrop, Res.ofOption, hst] using this
        | comment b e =>
          have := lexComment_cases g inv hn hst hlt
          simpa [lex, hn, hdrop, Res.ofOption, hst] using this
      rcases key with ⟨e, h⟩ | ⟨t, lx', h, hs⟩
      · exact Or.inl ⟨e, h⟩
      · exact Or.inr ⟨t, lx', h, hs, hs.inv g inv⟩

end Lexer
end Upon
