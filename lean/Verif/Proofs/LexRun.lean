import Verif.Proofs.LexStep
/-
Whole runs of the lexer.
-/
namespace Upon
namespace Lexer

variable {syn : Syn} {cx : LexCx}

theorem fromKind_eq (k : Kind) : Token.fromKind k = (Spec.tokenOf k, Spec.isTrim k) := by
  cases k <;> rfl

theorem fromKind_inv {k : Kind} {tk : Token} {trim : Bool} (h : Token.fromKind k = (tk, trim)) :
    Spec.tokenOf k = tk ∧ Spec.isTrim k = trim := by
  rw [fromKind_eq] at h
  injection h with h1 h2
  exact ⟨h1, h2⟩

theorem isEnd_eq (k : Kind) : Spec.isEnd k = !(Spec.tokenOf k).isBeginTag := by cases k <;> rfl

/-- What is left to read. -/
def left (cx : LexCx) (lx : Lexer) : Nat :=
  blen cx.source - lx.cursor + (if lx.next.isSome then 1 else 0)

/-- Where the next token starts at the earliest. -/
def lo (lx : Lexer) : Nat :=
  match lx.next with
  | some (_, sp) => sp.m
  | none => lx.cursor

theorem blen_pos {t : Str} (h : t ≠ []) : 0 < blen t := by
  rcases Nat.eq_zero_or_pos (blen t) with h0 | h0
  · exact absurd (blen_eq_zero.mp h0) h
  · exact h0

theorem chosen_le {s : Nat} {k : Kind} {i j : Nat} (h : Spec.Chosen syn cx.source s k i j) :
    j ≤ blen cx.source := (occurs_boundary (chosen_occurs h)).2.le

theorem Step.left_lt (g : Good syn cx) {lx lx' : Lexer} {t : Token × Span}
    (h : Step syn cx lx t lx') : left cx lx' < left cx lx := by
  cases h with
  | pending hn => simp [left, hn]
  | openTag hn hst hd hk hb hp =>
    have := occurs_lt g.nonEmpty (chosen_occurs hd)
    have := chosen_le hd
    simp [left, hn]; omega
  | rawTag hn hst hd hlt hk hb hp hs ht =>
    have := occurs_lt g.nonEmpty (chosen_occurs hd)
    have := chosen_le hd
    simp [left, hn]; omega
  | rawEnd hn hst hd hlt hs ht => simp [left, hn]; omega
  | closeTag hn hst hd hk =>
    have := occurs_lt g.nonEmpty (chosen_occurs hd)
    have := chosen_le hd
    simp [left, hn]; omega
  | inner hn hst hd hs ht hne =>
    have := blen_pos hne
    have := (boundary_of_slice hs).2.2.2
    simp [left, hn]; omega
  | closeComment hn hst hd hk =>
    have := occurs_lt g.nonEmpty (chosen_occurs hd)
    have := chosen_le hd
    simp [left, hn]; omega
  | rawComment hn hst hd hlt hk =>
    have := occurs_lt g.nonEmpty (chosen_occurs hd)
    have := chosen_le hd
    simp [left, hn]; omega
  | rawCommentEnd hn hst hd hlt => simp [left, hn]; omega

theorem trimmed_slice {src : Str} {i j : Nat} {l r : Bool} {t a u b : Str} (hs : slice src i j = some t)
    (ht : Spec.Trimmed l r t a u b) :
    slice src (i + blen a) (i + blen a + blen u) = some u ∧ j = i + blen a + blen u + blen b ∧
      slice src i (i + blen a) = some a ∧ slice src (i + blen a + blen u) j = some b := by
  obtain ⟨pre, post, e, h1, h2⟩ := slice_eq_some.mp hs
  have := ht.split
  subst this
  refine ⟨slice_eq_some.mpr ⟨pre ++ a, b ++ post, by simp [e], by simp [h1], rfl⟩, ?_,
    slice_eq_some.mpr ⟨pre, u ++ b ++ post, by simp [e], h1, rfl⟩,
    slice_eq_some.mpr ⟨pre ++ a ++ u, post, by simp [e], by simp [h1, Nat.add_assoc], ?_⟩⟩
  · simp at h2; omega
  · simp at h2; omega

/-- Spans of tokens are in order and can be sliced. -/
theorem Step.span {lx lx' : Lexer} {t : Token × Span} (inv : Inv syn cx lx)
    (h : Step syn cx lx t lx') :
    lo lx ≤ t.2.m ∧ t.2.n ≤ lo lx' ∧ ∃ s, slice cx.source t.2.m t.2.n = some s := by
  cases h with
  | pending hn =>
    obtain ⟨tk, sp⟩ := t
    obtain ⟨⟨k, trim, i, h1, h2, rfl⟩, _⟩ := inv.nx _ _ hn
    obtain ⟨d, _, hd⟩ := occurs_slice (chosen_occurs h2)
    refine ⟨by simp [lo, hn], by simp [lo], d, hd⟩
  | openTag hn hst hd hk hb hp =>
    obtain ⟨d, _, hd'⟩ := occurs_slice (chosen_occurs hd)
    exact ⟨by simp [lo, hn], by simp [lo, hn], d, hd'⟩
  | rawTag hn hst hd hlt hk hb hp hs ht =>
    obtain ⟨h1, h2, _⟩ := trimmed_slice hs ht
    exact ⟨by simp [lo, hn], by simp [lo]; omega, _, h1⟩
  | rawEnd hn hst hd hlt hs ht =>
    obtain ⟨h1, h2, _⟩ := trimmed_slice hs ht
    exact ⟨by simp [lo, hn], by simp [lo]; omega, _, h1⟩
  | closeTag hn hst hd hk =>
    obtain ⟨d, _, hd'⟩ := occurs_slice (chosen_occurs hd)
    exact ⟨by simp [lo, hn], by simp [lo], d, hd'⟩
  | inner hn hst hd hs ht hne => exact ⟨by simp [lo, hn], by simp [lo, hn], _, hs⟩
  | closeComment hn hst hd hk =>
    obtain ⟨d, _, hd'⟩ := occurs_slice (chosen_occurs hd)
    exact ⟨by simp [lo, hn], by simp [lo], d, hd'⟩
  | rawComment hn hst hd hlt hk =>
    obtain ⟨s, hs⟩ := inv.bnd.slice (occurs_boundary (chosen_occurs hd)).1 (by omega)
    exact ⟨by simp [lo, hn], by simp [lo], s, hs⟩
  | rawCommentEnd hn hst hd hlt =>
    obtain ⟨s, hs⟩ := inv.bnd.slice (boundary_len _) (by omega)
    exact ⟨by simp [lo, hn], by simp [lo, hn], s, hs⟩

/-- Skipping blanks. -/
inductive Skip (syn : Syn) (cx : LexCx) : Lexer → Lexer → Prop
  | refl {lx} : Skip syn cx lx lx
  | step {lx sp lx' lx''} : Step syn cx lx (.whitespace, sp) lx' → Skip syn cx lx' lx'' → Skip syn cx lx lx''

theorem Skip.lo_le {lx lx' : Lexer} (g : Good syn cx) (h : Skip syn cx lx lx') (inv : Inv syn cx lx) :
    lo lx ≤ lo lx' := by
  induction h with
  | refl => exact Nat.le_refl _
  | step h1 _ ih =>
    have h2 := h1.span inv
    have := ih (h1.inv g inv)
    obtain ⟨a, b, s, hs⟩ := h2
    have := (boundary_of_slice hs).2.2.1
    omega

theorem Skip.inv {lx lx' : Lexer} (g : Good syn cx) (h : Skip syn cx lx lx') (inv : Inv syn cx lx) :
    Inv syn cx lx' := by
  induction h with
  | refl => exact inv
  | step h1 _ ih => exact ih (h1.inv g inv)

theorem Skip.left_le {lx lx' : Lexer} (g : Good syn cx) (h : Skip syn cx lx lx') : left cx lx' ≤ left cx lx := by
  induction h with
  | refl => exact Nat.le_refl _
  | step h1 _ ih => have := h1.left_lt g; omega

theorem nextLoop_cases (g : Good syn cx) : ∀ (fuel : Nat) (lx : Lexer), Inv syn cx lx → left cx lx < fuel →
    (∃ lx', nextLoop cx fuel lx = .ok (none, lx') ∧ Skip syn cx lx lx' ∧ lx'.next = none ∧
      lx'.cursor = blen cx.source) ∨
    (∃ e, nextLoop cx fuel lx = .err e) ∨
    ∃ t lx1 lx', nextLoop cx fuel lx = .ok (some t, lx') ∧ Skip syn cx lx lx1 ∧ Step syn cx lx1 t lx' ∧
      t.1 ≠ .whitespace := by
  intro fuel
  induction fuel with
  | zero => intro lx _ h; omega
  | succ fuel ih =>
    intro lx inv hf
    rcases lex_cases g inv with ⟨h, hn, hc⟩ | ⟨e, h⟩ | ⟨⟨tk, sp⟩, lx', h, hs, inv'⟩
    · left; exact ⟨lx, by simp [nextLoop, h], .refl, hn, hc⟩
    · right; left; exact ⟨e, by simp [nextLoop, h]⟩
    · by_cases hw : tk = .whitespace
      · subst hw
        have hl := hs.left_lt g
        have e : nextLoop cx (fuel + 1) lx = nextLoop cx fuel lx' := by simp [nextLoop, h]
        rw [e]
        rcases ih lx' inv' (by omega) with ⟨l2, h1, h2, h3⟩ | ⟨e, h1⟩ | ⟨t, l1, l2, h1, h2, h3, h4⟩
        · left; exact ⟨l2, h1, .step hs h2, h3⟩
        · right; left; exact ⟨e, h1⟩
        · right; right; exact ⟨t, l1, l2, h1, .step hs h2, h3, h4⟩
      · right; right
        exact ⟨(tk, sp), lx, lx', by simp [nextLoop, h, hw], .refl, hs, hw⟩

theorem left_le (g : Good syn cx) (lx : Lexer) (inv : Inv syn cx lx) : left cx lx ≤ blen cx.source := by
  cases hn : lx.next with
  | none => simp [left, hn]
  | some t =>
    obtain ⟨tk, sp⟩ := t
    obtain ⟨⟨k, trim, i, h1, h2, rfl⟩, _⟩ := inv.nx _ _ hn
    have := inv.bnd.le
    have := occurs_lt g.nonEmpty (chosen_occurs h2)
    simp [left, hn]; omega

/-- What `next` returns. -/
theorem nextToken_cases (g : Good syn cx) {lx : Lexer} (inv : Inv syn cx lx) :
    (∃ lx', nextToken cx lx = .ok (none, lx') ∧ Skip syn cx lx lx' ∧ lx'.next = none ∧
      lx'.cursor = blen cx.source) ∨
    (∃ e, nextToken cx lx = .err e) ∨
    ∃ t lx1 lx', nextToken cx lx = .ok (some t, lx') ∧ Skip syn cx lx lx1 ∧ Step syn cx lx1 t lx' ∧
      t.1 ≠ .whitespace ∧ Inv syn cx lx' := by
  have hl := left_le g lx inv
  rcases nextLoop_cases g (blen cx.source + 1) lx inv (by omega) with h | h | ⟨t, l1, l2, h1, h2, h3, h4⟩
  · exact Or.inl h
  · exact Or.inr (Or.inl h)
  · exact Or.inr (Or.inr ⟨t, l1, l2, h1, h2, h3, h4, h3.inv g (h2.inv g inv)⟩)

theorem nextToken_some (g : Good syn cx) {lx lx' : Lexer} {t : Token × Span} (inv : Inv syn cx lx)
    (h : nextToken cx lx = .ok (some t, lx')) :
    ∃ lx1, Skip syn cx lx lx1 ∧ Step syn cx lx1 t lx' ∧ t.1 ≠ .whitespace ∧ Inv syn cx lx' := by
  rcases nextToken_cases g inv with ⟨l, h1, _⟩ | ⟨e, h1⟩ | ⟨t', l1, l2, h1, h2, h3, h4, h5⟩
  · rw [h] at h1; simp at h1
  · rw [h] at h1; simp at h1
  · rw [h] at h1
    injection h1 with h1
    injection h1 with h1 h6
    injection h1 with h1
    subst h1 h6
    exact ⟨l1, h2, h3, h4, h5⟩

theorem nextToken_none (g : Good syn cx) {lx lx' : Lexer} (inv : Inv syn cx lx)
    (h : nextToken cx lx = .ok (none, lx')) :
    Skip syn cx lx lx' ∧ lx'.next = none ∧ lx'.cursor = blen cx.source := by
  rcases nextToken_cases g inv with ⟨l, h1, h2⟩ | ⟨e, h1⟩ | ⟨t', l1, l2, h1, h2, h3, h4, h5⟩
  · rw [h] at h1
    injection h1 with h1
    injection h1 with _ h6
    subst h6; exact h2
  · rw [h] at h1; simp at h1
  · rw [h] at h1; simp at h1

/-- Tokens are in order. -/
theorem Lexes.spans (g : Good syn cx) {lx lx' : Lexer} {ts : List (Token × Span)}
    (h : Spec.Lexes cx lx ts lx') (inv : Inv syn cx lx) :
    (∀ t ∈ ts, lo lx ≤ t.2.m ∧ ∃ s, slice cx.source t.2.m t.2.n = some s) ∧
    ts.Pairwise (fun x y => x.2.n ≤ y.2.m) ∧ Inv syn cx lx' := by
  induction h with
  | none => exact ⟨by simp, .nil, inv⟩
  | some hx _ ih =>
    obtain ⟨l1, h1, h2, h3, h4⟩ := nextToken_some g inv hx
    obtain ⟨i1, i2, i3⟩ := ih h4
    have hlo := h1.lo_le g inv
    obtain ⟨a1, a2, s, a3⟩ := h2.span (h1.inv g inv)
    refine ⟨?_, ?_, i3⟩
    · intro t ht
      rcases List.mem_cons.mp ht with rfl | ht
      · exact ⟨by omega, s, a3⟩
      · have := (boundary_of_slice a3).2.2.1
        exact ⟨by have := (i1 t ht).1; omega, (i1 t ht).2⟩
    · rw [List.pairwise_cons]
      exact ⟨fun y hy => by have := (i1 y hy).1; omega, i2⟩

theorem Lexes.length_le (g : Good syn cx) {lx lx' : Lexer} {ts : List (Token × Span)}
    (h : Spec.Lexes cx lx ts lx') (inv : Inv syn cx lx) : ts.length + left cx lx' ≤ left cx lx := by
  induction h with
  | none => simp
  | some hx _ ih =>
    obtain ⟨l1, h1, h2, h3, h4⟩ := nextToken_some g inv hx
    have := ih h4
    have := h1.left_le g
    have := h2.left_lt g
    simp; omega

/-! Complete runs, with blanks removed. -/

/-- A run of the lexer to the end of the source. -/
inductive Run (syn : Syn) (cx : LexCx) : Lexer → List (Token × Span) → Lexer → Prop
  | done {lx} : lx.next = none → lx.cursor = blen cx.source → Run syn cx lx [] lx
  | skip {lx sp lx' ts fin} : Step syn cx lx (.whitespace, sp) lx' → Run syn cx lx' ts fin → Run syn cx lx ts fin
  | step {lx t lx' ts fin} : Step syn cx lx t lx' → t.1 ≠ .whitespace → Run syn cx lx' ts fin →
      Run syn cx lx (t :: ts) fin

theorem Skip.run {lx lx' fin : Lexer} {ts : List (Token × Span)} (h : Skip syn cx lx lx')
    (r : Run syn cx lx' ts fin) : Run syn cx lx ts fin := by
  induction h with
  | refl => exact r
  | step h1 _ ih => exact .skip h1 (ih r)

theorem Lexes.run (g : Good syn cx) {lx lx' fin : Lexer} {ts : List (Token × Span)}
    (h : Spec.Lexes cx lx ts lx') (inv : Inv syn cx lx) (hf : nextToken cx lx' = .ok (none, fin)) :
    Run syn cx lx ts fin := by
  induction h with
  | none =>
    obtain ⟨h1, h2, h3⟩ := nextToken_none g inv hf
    exact h1.run (.done h2 h3)
  | some hx _ ih =>
    obtain ⟨l1, h1, h2, h3, h4⟩ := nextToken_some g inv hx
    exact h1.run (.step h2 h3 (ih h4 hf))

/-- The reader's mode in a lexer state without a pending token. -/
def modeOf (lx : Lexer) : Spec.Mode :=
  match lx.state with
  | .template => .text lx.leftTrim
  | .block _ e => .tag e false
  | .blockPath _ e => .tag e true
  | .comment _ _ => .comment

theorem inside_enter {k : Kind} {tk e : Token} {trim : Bool} (hk : Token.fromKind k = (tk, trim))
    (hb : tk.isBeginTag = true) (hp : tk.pair = some e) (c : Nat) (n : Option (Token × Span)) (l : Bool) (sp : Span) :
    modeOf ⟨c, enter tk sp e, l, n⟩ = Spec.inside k := by
  cases k <;> simp [Token.fromKind] at hk <;> obtain ⟨rfl, _⟩ := hk <;>
    simp [Token.isBeginTag, Token.pair] at hb hp <;> subst hp <;> rfl

theorem tokenOf_ne (k : Kind) : Spec.tokenOf k ≠ .whitespace ∧ Spec.tokenOf k ≠ .raw := by
  cases k <;> simp [Spec.tokenOf]

theorem Run.at_end (g : Good syn cx) {lx fin : Lexer} {ts : List (Token × Span)} (r : Run syn cx lx ts fin)
    (hn : lx.next = none) (hc : lx.cursor = blen cx.source) : ts = [] ∧ fin = lx := by
  cases r with
  | done => exact ⟨rfl, rfl⟩
  | skip h =>
    have := h.left_lt g
    simp [left, hn, hc] at this
  | step h =>
    have := h.left_lt g
    simp [left, hn, hc] at this

theorem modeOf_block {lx : Lexer} {bs : BlockState} {b : Span} {e : Token} (h : lx.state = blockOf bs b e) :
    modeOf lx = .tag e (pathOf bs) := by
  simp only [modeOf, h]; cases bs <;> rfl

theorem modeOf_nextBlock {lx : Lexer} {bs : BlockState} {tk : Token} {b : Span} {e : Token} {c : Nat} :
    modeOf { lx with cursor := c, state := nextBlock bs tk b e } =
      .tag e (Spec.nextPath (pathOf bs) tk) := by
  cases bs <;> cases tk <;> rfl

/-- A run that ends outside of tags is laid out as specified. -/
theorem Run.layout (g : Good syn cx) {lx fin : Lexer} {ts : List (Token × Span)}
    (r : Run syn cx lx ts fin) (inv : Inv syn cx lx) (hfin : fin.state = .template) :
    (lx.next = none → Spec.Layout syn cx.env cx.source (modeOf lx) lx.cursor ts) ∧
    (∀ t, lx.next = some t → ∃ ts', ts = t :: ts' ∧
      Spec.Layout syn cx.env cx.source (modeOf lx) lx.cursor ts') := by
  induction r with
  | done hn hc =>
    refine ⟨fun _ => ?_, fun t h => by rw [hn] at h; cases h⟩
    simp only [modeOf, hfin, hc]
    exact .done
  | skip hs _ ih =>
    have inv' := hs.inv g inv
    obtain ⟨ih1, ih2⟩ := ih inv' hfin
    generalize ht : (Token.whitespace, _) = t at hs
    cases hs with
    | pending hn =>
      subst ht
      obtain ⟨⟨k, trim, i, h1, _⟩, _⟩ := inv.nx _ _ hn
      exact absurd (fromKind_inv h1).1 (tokenOf_ne k).1
    | openTag hn hst hd hk hb hp =>
      injection ht with ht; subst ht; cases hb
    | rawTag => simp at ht
    | rawEnd => simp at ht
    | rawComment => simp at ht
    | rawCommentEnd => simp at ht
    | @closeTag bs b e k j trim hn hst hd hk =>
      injection ht with ht; subst ht
      exact absurd (fromKind_inv hk).1 (tokenOf_ne k).1
    | @closeComment b e k j trim hn hst hd hk =>
      injection ht with ht; subst ht
      exact absurd (fromKind_inv hk).1 (tokenOf_ne k).1
    | @inner bs b e tk t hn hst hd hs ht' hne hat =>
      refine ⟨fun _ => ?_, fun t h => by rw [hn] at h; cases h⟩
      have := ih1 hn
      injection ht with ht; subst ht
      rw [modeOf_block hst]
      rw [modeOf_nextBlock] at this
      exact .blank hd hat this
  | step hs hw r ih =>
    have inv' := hs.inv g inv
    obtain ⟨ih1, ih2⟩ := ih inv' hfin
    cases hs with
    | pending hn =>
      refine ⟨fun h => (by rw [hn] at h; cases h), fun t h => ?_⟩
      rw [hn] at h; injection h with h; subst h
      exact ⟨_, rfl, ih1 rfl⟩
    | openTag hn hst hd hk hb hp =>
      refine ⟨fun _ => ?_, fun t h => by rw [hn] at h; cases h⟩
      have := ih1 hn
      rw [inside_enter hk hb hp] at this
      obtain ⟨h1, h2⟩ := fromKind_inv hk
      subst h1
      simp only [modeOf, hst]
      exact .tag hd (by rw [isEnd_eq, hb]; rfl) this
    | rawTag hn hst hd hlt hk hb hp hs ht =>
      refine ⟨fun _ => ?_, fun t h => by rw [hn] at h; cases h⟩
      obtain ⟨ts', e, h⟩ := ih2 _ rfl
      rw [inside_enter hk hb hp] at h
      obtain ⟨h1, h2⟩ := fromKind_inv hk
      subst h1 h2
      simp only [modeOf, hst, e]
      refine .textTag hd (by rw [isEnd_eq, hb]; rfl) hs ?_ ht h
      rintro rfl
      have := (slice_eq_some.mp hs)
      obtain ⟨_, _, _, _, h⟩ := this
      simp at h; omega
    | rawEnd hn hst hd hlt hs ht =>
      refine ⟨fun _ => ?_, fun t h => by rw [hn] at h; cases h⟩
      obtain ⟨rfl, _⟩ := r.at_end g rfl rfl
      simp only [modeOf, hst]
      refine .textEnd hd hs ?_ ht
      rintro rfl
      obtain ⟨_, _, _, _, h⟩ := (slice_eq_some.mp hs)
      simp at h; omega
    | closeTag hn hst hd hk =>
      refine ⟨fun _ => ?_, fun t h => by rw [hn] at h; cases h⟩
      have := ih1 rfl
      obtain ⟨h1, h2⟩ := fromKind_inv hk
      rw [modeOf_block hst]
      subst h2
      exact .close hd h1 this
    | inner hn hst hd hs ht hne hat =>
      refine ⟨fun _ => ?_, fun t h => by rw [hn] at h; cases h⟩
      have := ih1 hn
      rw [modeOf_block hst]
      rw [modeOf_nextBlock] at this
      exact .token hd hat hw this
    | closeComment hn hst hd hk =>
      refine ⟨fun _ => ?_, fun t h => by rw [hn] at h; cases h⟩
      have := ih1 rfl
      obtain ⟨h1, h2⟩ := fromKind_inv hk
      have he := (inv.cmt _ _ hst).2
      subst h2
      rw [he] at h1
      simp only [modeOf, hst, he]
      exact .emptyComment hd h1 this
    | rawComment hn hst hd hlt hk =>
      refine ⟨fun _ => ?_, fun t h => by rw [hn] at h; cases h⟩
      obtain ⟨ts', e, h⟩ := ih2 _ rfl
      obtain ⟨h1, h2⟩ := fromKind_inv hk
      have he := (inv.cmt _ _ hst).2
      subst h2
      rw [he] at h1
      simp only [modeOf, hst, he, e]
      exact .comment hd h1 hlt h
    | rawCommentEnd hn hst hd hlt =>
      exfalso
      obtain ⟨_, rfl⟩ := r.at_end g hn rfl
      simp [hst] at hfin

end Lexer
end Upon
