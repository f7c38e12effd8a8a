import Verif.Proofs.LexRun
/-
Losslessness, and which runs end outside of tags.
-/
namespace Upon
namespace Lexer

variable {syn : Syn} {cx : LexCx}

theorem slice_self {src : Str} {i : Nat} (h : Boundary src i) : slice src i i = some [] := by
  obtain ⟨p, q, e, h⟩ := h
  exact slice_eq_some.mpr ⟨p, q, by simpa using e, h, by simp⟩

theorem slice_join {src : Str} {i j k : Nat} {s t : Str} (h1 : slice src i j = some s)
    (h2 : slice src j k = some t) : slice src i k = some (s ++ t) := by
  obtain ⟨p, q, e, a, b⟩ := slice_eq_some.mp h1
  obtain ⟨p', q', e', a', b'⟩ := slice_eq_some.mp h2
  have hh : (p ++ s) ++ q = p' ++ (t ++ q') := by rw [← e', e]; simp
  obtain ⟨h3, h4⟩ := append_blen_inj hh (by simp; omega)
  refine slice_eq_some.mpr ⟨p, q', ?_, a, by simp; omega⟩
  rw [e, h4]; simp

theorem blank_white {env : Env} {t : Str} (h : Spec.TokText env .whitespace t) : ∀ c ∈ t, isWhite c = true := by
  intro c hc
  rcases h.2 c hc with rfl | rfl <;> decide

/-- The text between where the lexer stood and its token, and between the token and where it now
stands. -/
theorem Step.gaps {lx lx' : Lexer} {t : Token × Span} (inv : Inv syn cx lx)
    (h : Step syn cx lx t lx') :
    (∃ a, slice cx.source (lo lx) t.2.m = some a ∧ ∀ c ∈ a, isWhite c = true) ∧
    (∃ b, slice cx.source t.2.n (lo lx') = some b ∧ ∀ c ∈ b, isWhite c = true) ∧
    (∃ s, slice cx.source t.2.m t.2.n = some s) := by
  have hspan := h.span inv
  refine ⟨?_, ?_, hspan.2.2⟩
  · obtain ⟨s0, hs0⟩ := hspan.2.2
    have hb0 := boundary_of_slice hs0
    have triv : lo lx = t.2.m → ∃ a, slice cx.source (lo lx) t.2.m = some a ∧ ∀ c ∈ a, isWhite c = true := by
      intro e; rw [e]; exact ⟨[], slice_self hb0.1, by simp⟩
    cases h with
    | pending hn => exact triv (by simp [lo, hn])
    | openTag hn => exact triv (by simp [lo, hn])
    | closeTag hn => exact triv (by simp [lo, hn])
    | inner hn => exact triv (by simp [lo, hn])
    | closeComment hn => exact triv (by simp [lo, hn])
    | rawComment hn => exact triv (by simp [lo, hn])
    | rawCommentEnd hn => exact triv (by simp [lo, hn])
    | rawTag hn hst hd hlt hk hb hp hs ht =>
      obtain ⟨_, _, h3, _⟩ := trimmed_slice hs ht
      exact ⟨_, by simpa [lo, hn] using h3, ht.whiteA⟩
    | rawEnd hn hst hd hlt hs ht =>
      obtain ⟨_, _, h3, _⟩ := trimmed_slice hs ht
      exact ⟨_, by simpa [lo, hn] using h3, ht.whiteA⟩
  · obtain ⟨s0, hs0⟩ := hspan.2.2
    have hb0 := boundary_of_slice hs0
    have triv : lo lx' = t.2.n → ∃ a, slice cx.source t.2.n (lo lx') = some a ∧ ∀ c ∈ a, isWhite c = true := by
      intro e; rw [e]; exact ⟨[], slice_self hb0.2.1, by simp⟩
    cases h with
    | pending hn =>
      obtain ⟨tk, sp⟩ := t
      obtain ⟨⟨k, trim, i, h1, h2, rfl⟩, _⟩ := inv.nx _ _ hn
      exact triv (by simp [lo])
    | openTag hn => exact triv (by simp [lo, hn])
    | closeTag hn => exact triv (by simp [lo])
    | inner hn => exact triv (by simp [lo, hn])
    | closeComment hn => exact triv (by simp [lo])
    | rawComment hn => exact triv (by simp [lo])
    | rawCommentEnd hn => exact triv (by simp [lo, hn])
    | rawTag hn hst hd hlt hk hb hp hs ht =>
      obtain ⟨_, _, _, h3⟩ := trimmed_slice hs ht
      exact ⟨_, by simpa [lo] using h3, ht.whiteB⟩
    | rawEnd hn hst hd hlt hs ht =>
      obtain ⟨_, _, _, h3⟩ := trimmed_slice hs ht
      exact ⟨_, by simpa [lo] using h3, by simp⟩

theorem Cover.widen {src : Str} {i j : Nat} {g : Str} {sps : List Span} (hg : slice src i j = some g)
    (hw : ∀ c ∈ g, isWhite c = true) (h : Spec.Cover src j sps) : Spec.Cover src i sps := by
  have app : ∀ (x : Str), (∀ c ∈ x, isWhite c = true) → ∀ c ∈ g ++ x, isWhite c = true := by
    intro x hx c hc
    rcases List.mem_append.mp hc with hc | hc
    · exact hw c hc
    · exact hx c hc
  cases h with
  | nil h1 h2 => exact .nil (slice_join hg h1) (app _ h2)
  | cons h1 h2 h3 h4 => exact .cons (slice_join hg h1) (app _ h2) h3 h4

theorem step_whitespace {lx lx' : Lexer} {sp : Span} (inv : Inv syn cx lx)
    (hs : Step syn cx lx (.whitespace, sp) lx') :
    lo lx = sp.m ∧ lo lx' = sp.n ∧ ∃ s, slice cx.source sp.m sp.n = some s ∧ ∀ c ∈ s, isWhite c = true := by
  generalize ht : (Token.whitespace, sp) = t at hs
  cases hs with
  | pending hn =>
    subst ht
    obtain ⟨⟨k, trim, i, h1, _⟩, _⟩ := inv.nx _ _ hn
    exact absurd (fromKind_inv h1).1 (tokenOf_ne k).1
  | openTag hn hst hd hk hb hp =>
    injection ht with ht; subst ht; cases hb
  | rawTag => simp at ht
  | rawEnd => simp at ht
  | rawComment => simp at ht
  | rawCommentEnd => simp at ht
  | @closeTag bs b e k j trim hn hst hd hk =>
    injection ht with ht; subst ht
    exact absurd (fromKind_inv hk).1 (tokenOf_ne k).1
  | @closeComment b e k j trim hn hst hd hk =>
    injection ht with ht; subst ht
    exact absurd (fromKind_inv hk).1 (tokenOf_ne k).1
  | @inner bs b e tk t hn hst hd hs ht' hne =>
    injection ht with ht h2; subst ht h2
    exact ⟨by simp [lo, hn], by simp [lo, hn], _, hs, blank_white ht'⟩

/-- The tokens of a complete run cover the source. -/
theorem Run.cover (g : Good syn cx) {lx fin : Lexer} {ts : List (Token × Span)}
    (r : Run syn cx lx ts fin) (inv : Inv syn cx lx) :
    Spec.Cover cx.source (lo lx) (ts.map Prod.snd) := by
  induction r with
  | done hn hc =>
    refine .nil (t := []) ?_ (by simp)
    simp only [lo, hn, hc]
    exact slice_self (boundary_len _)
  | skip hs _ ih =>
    obtain ⟨h1, h2, s, h3, h4⟩ := step_whitespace inv hs
    have := ih (hs.inv g inv)
    rw [h1]
    rw [h2] at this
    exact Cover.widen h3 h4 this
  | step hs hw _ ih =>
    obtain ⟨⟨a, a1, a2⟩, ⟨b, b1, b2⟩, s, hs'⟩ := hs.gaps inv
    exact .cons a1 a2 hs' (Cover.widen b1 b2 (ih (hs.inv g inv)))

/-! Being inside a tag, as the reader of the tokens sees it. -/

/-- Inside a tag after reading a token. -/
def inTagNext (b : Bool) (tk : Token) : Bool :=
  if Spec.isBeginTag tk then true else if Spec.isEndTag tk then false else b

/-- Inside a tag, as far as the tokens returned so far tell. -/
def inTag (lx : Lexer) : Bool :=
  match lx.next with
  | some (tk, _) => !Spec.isBeginTag tk
  | none => lx.state ≠ .template

theorem isBeginTag_eq (tk : Token) : Spec.isBeginTag tk = tk.isBeginTag := by cases tk <;> rfl

theorem tokText_not_tag {env : Env} {tk : Token} {t : Str} (h : Spec.TokText env tk t) :
    Spec.isBeginTag tk = false ∧ Spec.isEndTag tk = false := by
  cases tk <;> simp [Spec.TokText] at h <;> simp [Spec.isBeginTag, Spec.isEndTag]

theorem enter_ne (tk : Token) (sp : Span) (e : Token) : enter tk sp e ≠ .template := by
  unfold enter; split <;> simp

theorem Step.inTag {lx lx' : Lexer} {t : Token × Span} (inv : Inv syn cx lx)
    (h : Step syn cx lx t lx') : inTag lx' = inTagNext (inTag lx) t.1 := by
  cases h with
  | pending hn =>
    obtain ⟨tk, sp⟩ := t
    obtain ⟨⟨k, trim, i, h1, h2, rfl⟩, h3⟩ := inv.nx _ _ hn
    rcases h3 with ⟨hb, e, hp, hst⟩ | ⟨rfl, hst⟩
    · rw [← isBeginTag_eq] at hb
      simp [Lexer.inTag, inTagNext, hb, hst, enter_ne]
    · simp [Lexer.inTag, inTagNext, hst, Spec.isBeginTag, Spec.isEndTag]
  | openTag hn hst hd hk hb hp =>
    rw [← isBeginTag_eq] at hb
    simp [Lexer.inTag, inTagNext, hb, enter_ne, hn]
  | rawTag hn hst hd hlt hk hb hp hs ht =>
    rw [← isBeginTag_eq] at hb
    simp only [Lexer.inTag, inTagNext, hn, hst]
    rw [hb]; rfl
  | rawEnd hn hst => simp [Lexer.inTag, inTagNext, hn, hst, Spec.isBeginTag, Spec.isEndTag]
  | @closeTag bs b e k j trim hn hst hd hk =>
    have he := (inv.blk b e (by cases bs <;> simp [hst, blockOf])).2
    rcases he with rfl | rfl <;> simp [Lexer.inTag, inTagNext, Spec.isBeginTag, Spec.isEndTag]
  | @inner bs b e tk t hn hst hd hs ht hne =>
    obtain ⟨h1, h2⟩ := tokText_not_tag ht
    have h3 : nextBlock bs tk b e ≠ .template := by
      rcases nextBlock_cases bs tk b e with h | h <;> simp [h]
    have h4 : blockOf bs b e ≠ .template := by cases bs <;> simp [blockOf]
    simp [Lexer.inTag, inTagNext, h1, h2, hn, hst, h3, h4]
  | closeComment hn hst hd hk =>
    have he := (inv.cmt _ _ hst).2
    simp [Lexer.inTag, inTagNext, he, Spec.isBeginTag, Spec.isEndTag]
  | rawComment hn hst hd hlt hk =>
    have he := (inv.cmt _ _ hst).2
    simp [Lexer.inTag, inTagNext, hn, hst, he, Spec.isBeginTag, Spec.isEndTag]
  | rawCommentEnd hn hst hd hlt =>
    simp [Lexer.inTag, inTagNext, hn, hst, Spec.isBeginTag, Spec.isEndTag]

theorem Run.inTag (g : Good syn cx) {lx fin : Lexer} {ts : List (Token × Span)}
    (r : Run syn cx lx ts fin) (inv : Inv syn cx lx) :
    fin.next = none ∧ Lexer.inTag fin = (ts.map Prod.fst).foldl inTagNext (Lexer.inTag lx) := by
  induction r with
  | done hn hc => exact ⟨hn, rfl⟩
  | skip hs _ ih =>
    obtain ⟨h1, h2⟩ := ih (hs.inv g inv)
    refine ⟨h1, ?_⟩
    rw [h2, hs.inTag inv]; rfl
  | step hs hw _ ih =>
    obtain ⟨h1, h2⟩ := ih (hs.inv g inv)
    refine ⟨h1, ?_⟩
    rw [h2, hs.inTag inv]; rfl

theorem foldl_inTag_open : ∀ (ts : List (Token × Span)) (b : Bool),
    (ts.map Prod.fst).foldl inTagNext b = true →
    (b = true ∧ ∀ y ∈ ts, Spec.isEndTag y.1 = false) ∨
    ∃ xs t ys, ts = xs ++ t :: ys ∧ Spec.isBeginTag t.1 = true ∧ ∀ y ∈ ys, Spec.isEndTag y.1 = false := by
  intro ts
  induction ts with
  | nil => intro b h; left; exact ⟨h, by simp⟩
  | cons t ts ih =>
    intro b h
    simp only [List.map_cons, List.foldl_cons] at h
    rcases ih _ h with ⟨h1, h2⟩ | ⟨xs, t', ys, h1, h2, h3⟩
    · by_cases hb : Spec.isBeginTag t.1 = true
      · right; exact ⟨[], t, ts, rfl, hb, h2⟩
      · by_cases he : Spec.isEndTag t.1 = true
        · simp [inTagNext, hb, he] at h1
        · left
          simp [inTagNext, hb, he] at h1
          refine ⟨h1, ?_⟩
          intro y hy
          rcases List.mem_cons.mp hy with rfl | hy
          · simpa using he
          · exact h2 y hy
    · right; exact ⟨t :: xs, t', ys, by simp [h1], h2, h3⟩

theorem Run.closed_template (g : Good syn cx) {fin : Lexer} {ts : List (Token × Span)}
    (r : Run syn cx Lexer.new ts fin) (hc : Spec.Closed ts) : fin.state = .template := by
  obtain ⟨h1, h2⟩ := r.inTag g (Inv.new syn cx)
  apply Classical.byContradiction
  intro hne
  have : Lexer.inTag fin = true := by simp [Lexer.inTag, h1, hne]
  rw [this] at h2
  rcases foldl_inTag_open ts _ h2.symm with ⟨h3, _⟩ | ⟨xs, t, ys, h3, h4, h5⟩
  · simp [Lexer.inTag, Lexer.new] at h3
  · obtain ⟨y, hy, hy2⟩ := hc xs t ys h3 h4
    rw [h5 y hy] at hy2; cases hy2

/-- Tags come from configured delimiters. -/
theorem Step.tag {lx lx' : Lexer} {t : Token × Span} (inv : Inv syn cx lx) (h : Step syn cx lx t lx')
    (ht : Spec.isBeginTag t.1 = true ∨ Spec.isEndTag t.1 = true) :
    ∃ k, Spec.tokenOf k = t.1 ∧ Spec.DelimAt syn cx.source k t.2.m t.2.n := by
  cases h with
  | pending hn =>
    obtain ⟨tk, sp⟩ := t
    obtain ⟨⟨k, trim, i, h1, h2, rfl⟩, h3⟩ := inv.nx _ _ hn
    exact ⟨k, (fromKind_inv h1).1, h2⟩
  | openTag hn hst hd hk hb hp => exact ⟨_, (fromKind_inv hk).1, hd⟩
  | rawTag => simp [Spec.isBeginTag, Spec.isEndTag] at ht
  | rawEnd => simp [Spec.isBeginTag, Spec.isEndTag] at ht
  | closeTag hn hst hd hk => exact ⟨_, (fromKind_inv hk).1, hd⟩
  | inner hn hst hd hs ht' hne =>
    obtain ⟨h1, h2⟩ := tokText_not_tag ht'
    rcases ht with ht | ht
    · rw [h1] at ht; cases ht
    · rw [h2] at ht; cases ht
  | closeComment hn hst hd hk => exact ⟨_, (fromKind_inv hk).1, hd⟩
  | rawComment => simp [Spec.isBeginTag, Spec.isEndTag] at ht
  | rawCommentEnd => simp [Spec.isBeginTag, Spec.isEndTag] at ht

theorem Lexes.tags (g : Good syn cx) {lx lx' : Lexer} {ts : List (Token × Span)}
    (h : Spec.Lexes cx lx ts lx') (inv : Inv syn cx lx) :
    ∀ t ∈ ts, (Spec.isBeginTag t.1 = true ∨ Spec.isEndTag t.1 = true) →
      ∃ k, Spec.tokenOf k = t.1 ∧ Spec.DelimAt syn cx.source k t.2.m t.2.n := by
  induction h with
  | none => simp
  | some hx _ ih =>
    obtain ⟨l1, h1, h2, h3, h4⟩ := nextToken_some g inv hx
    intro t ht htag
    rcases List.mem_cons.mp ht with rfl | ht
    · exact h2.tag (h1.inv g inv) htag
    · exact ih h4 t ht htag

end Lexer
end Upon
