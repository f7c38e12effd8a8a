import Verif.Proofs.LexComplete
import Verif.Props.C01_C02
/-
C04, C05, C06, C37, C39: the lexer.
-/
namespace Upon

theorem good {b : SyntaxBuilder} {cx : LexCx} (s : Spec.Setup b cx) (hw : Spec.Tidy b.build cx.source) :
    Good b.build cx := ⟨build_nonEmpty (built_valid s.built), s.searcher, hw⟩

/-- **C04** Whatever the lexer has produced so far (also when a later call fails): every token's
byte range is a valid range of the source on character boundaries, and tokens do not overlap and
come in order. -/
theorem C04_spans {b : SyntaxBuilder} {cx : LexCx} (s : Spec.Setup b cx)
    (hw : Spec.Tidy b.build cx.source) {ts : List (Token × Span)} {lx : Lexer}
    (h : Spec.Lexes cx Lexer.new ts lx) :
    (∀ t ∈ ts, t.2.m ≤ t.2.n ∧ t.2.n ≤ blen cx.source ∧
      ∃ p x q, cx.source = p ++ x ++ q ∧ blen p = t.2.m ∧ blen (p ++ x) = t.2.n) ∧
    ts.Pairwise (fun x y => x.2.n ≤ y.2.m) := by
  obtain ⟨h1, h2, _⟩ := Lexer.Lexes.spans (good s hw) h (Lexer.Inv.new _ _)
  refine ⟨fun t ht => ?_, h2⟩
  obtain ⟨_, x, hx⟩ := h1 t ht
  obtain ⟨p, q, e, a, c⟩ := slice_eq_some.mp hx
  refine ⟨by omega, ?_, p, x, q, by simpa using e, a, by simp; omega⟩
  rw [e]; simp; omega

/-- Each call of the lexer returns: a token, the end or an error, never a crash. -/
theorem C04_total {b : SyntaxBuilder} {cx : LexCx} (s : Spec.Setup b cx)
    (hw : Spec.Tidy b.build cx.source) {ts : List (Token × Span)} {lx : Lexer}
    (h : Spec.Lexes cx Lexer.new ts lx) : lx.nextToken cx ≠ .crash := by
  have inv := (Lexer.Lexes.spans (good s hw) h (Lexer.Inv.new _ _)).2.2
  rcases Lexer.nextToken_cases (good s hw) inv with ⟨l, h1, _⟩ | ⟨e, h1⟩ | ⟨t', l1, l2, h1, _⟩ <;>
    rw [h1] <;> simp

/-- **C05** Losslessness: for a text that was lexed to its end the tokens, in order, cover it, and
what lies between two tokens is whitespace only. -/
theorem C05_cover {b : SyntaxBuilder} {cx : LexCx} (s : Spec.Setup b cx)
    (hw : Spec.Tidy b.build cx.source) {ts : List (Token × Span)} (h : Spec.Tokens cx ts) :
    Spec.Cover cx.source 0 (ts.map Prod.snd) := by
  obtain ⟨lx, h1, fin, h2⟩ := h
  exact (Lexer.Lexes.run (good s hw) h1 (Lexer.Inv.new _ _) h2).cover (good s hw) (Lexer.Inv.new _ _)

theorem Cover.nonWhite {src : Str} {i : Nat} {sps : List Span} (h : Spec.Cover src i sps) :
    ∀ rest, dropB src i = some rest →
      (sps.flatMap fun sp => ((sp.of src).getD []).filter (!isWhite ·)) = rest.filter (!isWhite ·) := by
  have white : ∀ g : Str, (∀ c ∈ g, isWhite c = true) → g.filter (!isWhite ·) = [] := by
    intro g hg
    simpa using hg
  have step : ∀ {i j : Nat} {g rest : Str}, slice src i j = some g → dropB src i = some rest →
      ∃ rest', rest = g ++ rest' ∧ dropB src j = some rest' := by
    intro i j g rest hs hd
    obtain ⟨p, q, e, a, b⟩ := slice_eq_some.mp hs
    obtain ⟨p', e', a'⟩ := dropB_eq_some.mp hd
    have hh : p ++ (g ++ q) = p' ++ rest := by rw [← e, e']
    obtain ⟨rfl, h⟩ := append_blen_inj hh (by omega)
    refine ⟨q, h.symm, dropB_eq_some.mpr ⟨p ++ g, by simpa using e, by simp; omega⟩⟩
  induction h with
  | nil h1 h2 =>
    intro rest hr
    obtain ⟨r, e, h3⟩ := step h1 hr
    obtain ⟨p, e', a⟩ := dropB_eq_some.mp h3
    have : r = [] := by
      have := congrArg blen e'
      simp at this
      exact blen_eq_zero.mp (by omega)
    subst this
    rw [e]; simp [white _ h2]
  | cons h1 h2 h3 _ ih =>
    intro rest hr
    obtain ⟨r, e, h4⟩ := step h1 hr
    obtain ⟨r', e', h5⟩ := step h3 h4
    have hi := ih r' h5
    rw [e, e']
    rw [List.flatMap_cons, hi]
    simp only [Span.of, h3, Option.getD_some, List.filter_append, white _ h2, List.nil_append]

/-- **C05** In particular the characters that are not whitespace are, in order, exactly those of the
token texts: none is skipped, duplicated or invented. -/
theorem C05_lossless {b : SyntaxBuilder} {cx : LexCx} (s : Spec.Setup b cx)
    (hw : Spec.Tidy b.build cx.source) {ts : List (Token × Span)} (h : Spec.Tokens cx ts) :
    (ts.flatMap fun t => ((t.2.of cx.source).getD []).filter (!isWhite ·)) =
      cx.source.filter (!isWhite ·) := by
  have := Cover.nonWhite (C05_cover s hw h) cx.source (by cases cx.source <;> rfl)
  rw [← this, List.flatMap_map]

/-- **C05/C06** The lexer accepts, with all tags closed, exactly the texts that are laid out as
`Spec.Layout` says, and yields exactly the tokens of the layout. -/
theorem C06_layout {b : SyntaxBuilder} {cx : LexCx} (s : Spec.Setup b cx)
    (hw : Spec.Tidy b.build cx.source) (ts : List (Token × Span)) :
    (Spec.Tokens cx ts ∧ Spec.Closed ts) ↔
      Spec.Layout b.build cx.env cx.source (.text false) 0 ts := Lexer.tokens_iff (good s hw) ts

/-- **C06** Whitespace control: a raw token outside of comments comes from the whole text between
two neighbouring tags (or an end of the template); it is that text, without its leading whitespace
exactly when the tag before ends in a trimming delimiter, and without its trailing whitespace
exactly when the tag after begins with a trimming delimiter. -/
theorem C06_raw {b : SyntaxBuilder} {cx : LexCx} (s : Spec.Setup b cx)
    (hw : Spec.Tidy b.build cx.source) {xs ys : List (Token × Span)} {sp : Span}
    (h : Spec.Tokens cx (xs ++ (.raw, sp) :: ys)) (hc : Spec.Closed (xs ++ (.raw, sp) :: ys))
    (outside : ∀ c, xs.getLast? = some c → c.1 ≠ .beginComment) :
    ∃ i j l r t a u b', slice cx.source i j = some t ∧ Spec.Trimmed l r t a u b' ∧
      slice cx.source sp.m sp.n = some u ∧
      ((i = 0 ∧ l = false) ∨
        ∃ k i', Spec.isEnd k = true ∧ Spec.DelimAt b.build cx.source k i' i ∧ l = Spec.isTrim k) ∧
      ((j = blen cx.source ∧ r = false) ∨
        ∃ k j', Spec.isEnd k = false ∧ Spec.DelimAt b.build cx.source k j j' ∧ r = Spec.isTrim k) := by
  exact Lexer.Layout.raw ((C06_layout s hw _).mp ⟨h, hc⟩)
    (by intro l hl; injection hl with hl; exact Or.inl ⟨rfl, hl.symm⟩) trivial xs ys rfl
    (by intro h; cases h) outside

/-- **C37** Every tag token is one of the configured delimiters. -/
theorem C37_tags {b : SyntaxBuilder} {cx : LexCx} (s : Spec.Setup b cx)
    (hw : Spec.Tidy b.build cx.source) {ts : List (Token × Span)} {lx : Lexer}
    (h : Spec.Lexes cx Lexer.new ts lx) :
    ∀ t ∈ ts, (Spec.isBeginTag t.1 = true ∨ Spec.isEndTag t.1 = true) →
      ∃ k, Spec.tokenOf k = t.1 ∧ Spec.Occurs b.build cx.source k t.2.m t.2.n := by
  intro t ht htag
  obtain ⟨k, h1, h2⟩ := Lexer.Lexes.tags (good s hw) h (Lexer.Inv.new _ _) t ht htag
  exact ⟨k, h1, Lexer.chosen_occurs h2⟩

/-- **C37** So a tag kind that is not configured never shows up. -/
theorem C37_unset {b : SyntaxBuilder} {cx : LexCx} (s : Spec.Setup b cx)
    (hw : Spec.Tidy b.build cx.source) {ts : List (Token × Span)} {lx : Lexer}
    (h : Spec.Lexes cx Lexer.new ts lx) :
    (b.expr = none → ∀ t ∈ ts, t.1 ≠ .beginExpr ∧ t.1 ≠ .endExpr) ∧
    (b.block = none → ∀ t ∈ ts, t.1 ≠ .beginBlock ∧ t.1 ≠ .endBlock) ∧
    (b.comment = none → ∀ t ∈ ts, t.1 ≠ .beginComment ∧ t.1 ≠ .endComment) := by
  have tags := C37_tags s hw h
  refine ⟨fun hb t ht => ⟨fun he => ?_, fun he => ?_⟩, fun hb t ht => ⟨fun he => ?_, fun he => ?_⟩,
    fun hb t ht => ⟨fun he => ?_, fun he => ?_⟩⟩ <;>
  · obtain ⟨k, h1, d, h2, _⟩ := tags t ht (by rw [he]; simp [Spec.isBeginTag, Spec.isEndTag])
    rw [he] at h1
    simp only [SyntaxBuilder.build, hb, List.mem_append] at h2
    cases k <;> simp [Spec.tokenOf] at h1 <;> revert h2 <;>
      (cases b.expr <;> cases b.block <;> cases b.comment <;> simp)

/-- **C39** A delimiter token is the longest delimiter at its place, and no delimiter at all stands
where another token inside a tag starts. -/
theorem C39_longest {b : SyntaxBuilder} {cx : LexCx} (s : Spec.Setup b cx)
    (hw : Spec.Tidy b.build cx.source) {ts : List (Token × Span)} {lx : Lexer}
    (h : Spec.Lexes cx Lexer.new ts lx) : ∀ t ∈ ts,
    ((Spec.isBeginTag t.1 = true ∨ Spec.isEndTag t.1 = true) →
      ∀ k j, Spec.Occurs b.build cx.source k t.2.m j → j ≤ t.2.n) ∧
    (Spec.isBeginTag t.1 = false → Spec.isEndTag t.1 = false → t.1 ≠ .raw →
      ∀ k j, ¬ Spec.Occurs b.build cx.source k t.2.m j) := by
  intro t ht
  refine ⟨fun htag k j ho => ?_, fun h1 h2 h3 => ?_⟩
  · obtain ⟨k', _, h2⟩ := Lexer.Lexes.tags (good s hw) h (Lexer.Inv.new _ _) t ht htag
    exact h2.longest k j ho
  · have inv := Lexer.Inv.new b.build cx
    generalize Lexer.new = l0 at h inv
    induction h with
    | none => simp at ht
    | some hx _ ih =>
      obtain ⟨l1, g1, g2, g3, g4⟩ := Lexer.nextToken_some (good s hw) inv hx
      rcases List.mem_cons.mp ht with rfl | ht
      · have hi := g1.inv (good s hw) inv
        cases g2 with
        | pending hn =>
          obtain ⟨⟨k, trim, i, a1, a2, a3⟩, _⟩ := hi.nx _ _ hn
          have := (Lexer.fromKind_inv a1).1
          rw [← this] at h1 h2
          cases k <;> simp [Spec.tokenOf, Spec.isBeginTag, Spec.isEndTag] at h1 h2
        | openTag hn hst hd hk hb =>
          rw [Lexer.isBeginTag_eq, hb] at h1; cases h1
        | rawTag => exact absurd rfl h3
        | rawEnd => exact absurd rfl h3
        | rawComment => exact absurd rfl h3
        | rawCommentEnd => exact absurd rfl h3
        | @closeTag bs b' e k j trim hn hst hd hk =>
          have he := (hi.blk b' e (by cases bs <;> simp [hst, Lexer.blockOf])).2
          rcases he with rfl | rfl <;> simp [Spec.isEndTag] at h2
        | closeComment hn hst hd hk =>
          rw [(hi.cmt _ _ hst).2] at h2; simp [Spec.isEndTag] at h2
        | inner hn hst hd => exact hd
      · exact ih ht g4

/-- **C39** So where a tag token starts at a place at which its trimming form stands, it is the
trimming form: its text is the trimming delimiter (here for expressions; blocks and comments are
the same). -/
theorem C39_trim {b : SyntaxBuilder} {cx : LexCx} (s : Spec.Setup b cx)
    (hw : Spec.Tidy b.build cx.source) {ts : List (Token × Span)} {lx : Lexer}
    (h : Spec.Lexes cx Lexer.new ts lx) {t : Token × Span} (ht : t ∈ ts) {x y : Str} :
    (b.expr = some (x, y) → t.1 = .beginExpr → ∀ j, Spec.StandsAt cx.source (x ++ ['-']) t.2.m j → t.2.n = j) ∧
    (b.expr = some (x, y) → t.1 = .endExpr → ∀ j, Spec.StandsAt cx.source ('-' :: y) t.2.m j → t.2.n = j) ∧
    (b.block = some (x, y) → t.1 = .beginBlock → ∀ j, Spec.StandsAt cx.source (x ++ ['-']) t.2.m j → t.2.n = j) ∧
    (b.block = some (x, y) → t.1 = .endBlock → ∀ j, Spec.StandsAt cx.source ('-' :: y) t.2.m j → t.2.n = j) ∧
    (b.comment = some (x, y) → t.1 = .beginComment → ∀ j, Spec.StandsAt cx.source (x ++ ['-']) t.2.m j → t.2.n = j) ∧
    (b.comment = some (x, y) → t.1 = .endComment → ∀ j, Spec.StandsAt cx.source ('-' :: y) t.2.m j → t.2.n = j) := by
  have hlong := (C39_longest s hw h t ht).1
  have htags := C37_tags s hw h t ht
  have mem : ∀ k d, (k, d) ∈ b.build → 
      (∀ p, b.expr = some p → (k = .beginExpr → d = p.1) ∧ (k = .endExpr → d = p.2) ∧
        (k = .beginExprTrim → d = p.1 ++ ['-']) ∧ (k = .endExprTrim → d = '-' :: p.2)) ∧
      (∀ p, b.block = some p → (k = .beginBlock → d = p.1) ∧ (k = .endBlock → d = p.2) ∧
        (k = .beginBlockTrim → d = p.1 ++ ['-']) ∧ (k = .endBlockTrim → d = '-' :: p.2)) ∧
      (∀ p, b.comment = some p → (k = .beginComment → d = p.1) ∧ (k = .endComment → d = p.2) ∧
        (k = .beginCommentTrim → d = p.1 ++ ['-']) ∧ (k = .endCommentTrim → d = '-' :: p.2)) := by
    intro k d hm
    simp only [SyntaxBuilder.build, List.mem_append] at hm
    refine ⟨fun p hp => ?_, fun p hp => ?_, fun p hp => ?_⟩ <;> rw [hp] at hm <;> revert hm <;>
      cases b.expr <;> cases b.block <;> cases b.comment <;> cases k <;> simp
  have stands : ∀ {d d' : Str} {i j j' : Nat}, Spec.StandsAt cx.source d i j → Spec.StandsAt cx.source d' i j' →
      j = i + blen d ∧ j' = i + blen d' := by
    rintro d d' i j j' ⟨p, q, e, h1, h2⟩ ⟨p', q', e', h1', h2'⟩
    simp at h2 h2'
    omega
  have u1 : '-'.utf8Size = 1 := by decide
  have fin : ∀ {k : Kind} {d d' : Str} {j : Nat}, (k, d') ∈ b.build →
      Spec.StandsAt cx.source d' t.2.m j → Spec.StandsAt cx.source d t.2.m t.2.n →
      (blen d ≤ blen d') → j ≤ t.2.n → t.2.n = j := by
    intro k d d' j _ h1 h2 h3 h4
    have := stands h1 h2
    omega
  have build_mem : ∀ p, (b.expr = some p → (Kind.beginExprTrim, p.1 ++ ['-']) ∈ b.build ∧ (Kind.endExprTrim, '-' :: p.2) ∈ b.build) ∧
      (b.block = some p → (Kind.beginBlockTrim, p.1 ++ ['-']) ∈ b.build ∧ (Kind.endBlockTrim, '-' :: p.2) ∈ b.build) ∧
      (b.comment = some p → (Kind.beginCommentTrim, p.1 ++ ['-']) ∈ b.build ∧ (Kind.endCommentTrim, '-' :: p.2) ∈ b.build) := by
    intro p
    refine ⟨fun h => ?_, fun h => ?_, fun h => ?_⟩ <;> simp [SyntaxBuilder.build, h]
  obtain ⟨m1, m2, m3⟩ := build_mem (x, y)
  refine ⟨fun hb hk j hj => ?_, fun hb hk j hj => ?_, fun hb hk j hj => ?_, fun hb hk j hj => ?_,
    fun hb hk j hj => ?_, fun hb hk j hj => ?_⟩ <;>
  · obtain ⟨k, k1, d, k2, k3⟩ := htags (by rw [hk]; simp [Spec.isBeginTag, Spec.isEndTag])
    obtain ⟨e1, e2, e3⟩ := mem k d k2
    rw [hk] at k1
    first
    | (have mm := (m1 hb).1; have ee := e1 _ hb
       refine fin mm hj k3 ?_ (hlong (by rw [hk]; simp [Spec.isBeginTag, Spec.isEndTag]) _ _ ⟨_, mm, hj⟩)
       cases k <;> simp [Spec.tokenOf] at k1 <;> simp at ee <;> simp [ee, u1]; done)
    | (have mm := (m1 hb).2; have ee := e1 _ hb
       refine fin mm hj k3 ?_ (hlong (by rw [hk]; simp [Spec.isBeginTag, Spec.isEndTag]) _ _ ⟨_, mm, hj⟩)
       cases k <;> simp [Spec.tokenOf] at k1 <;> simp at ee <;> simp [ee, u1]; done)
    | (have mm := (m2 hb).1; have ee := e2 _ hb
       refine fin mm hj k3 ?_ (hlong (by rw [hk]; simp [Spec.isBeginTag, Spec.isEndTag]) _ _ ⟨_, mm, hj⟩)
       cases k <;> simp [Spec.tokenOf] at k1 <;> simp at ee <;> simp [ee, u1]; done)
    | (have mm := (m2 hb).2; have ee := e2 _ hb
       refine fin mm hj k3 ?_ (hlong (by rw [hk]; simp [Spec.isBeginTag, Spec.isEndTag]) _ _ ⟨_, mm, hj⟩)
       cases k <;> simp [Spec.tokenOf] at k1 <;> simp at ee <;> simp [ee, u1]; done)
    | (have mm := (m3 hb).1; have ee := e3 _ hb
       refine fin mm hj k3 ?_ (hlong (by rw [hk]; simp [Spec.isBeginTag, Spec.isEndTag]) _ _ ⟨_, mm, hj⟩)
       cases k <;> simp [Spec.tokenOf] at k1 <;> simp at ee <;> simp [ee, u1]; done)
    | (have mm := (m3 hb).2; have ee := e3 _ hb
       refine fin mm hj k3 ?_ (hlong (by rw [hk]; simp [Spec.isBeginTag, Spec.isEndTag]) _ _ ⟨_, mm, hj⟩)
       cases k <;> simp [Spec.tokenOf] at k1 <;> simp at ee <;> simp [ee, u1]; done)

end Upon
