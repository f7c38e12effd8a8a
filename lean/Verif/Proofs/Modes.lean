import Verif.Proofs.ParseTemplate
/-
Which tokens can stand in text, in tags and in comments (for C51).
-/
namespace Upon
open Lexer (Inv Step Skip)

/-- Where the lexer is, as far as the tokens returned so far tell. -/
inductive Mode3 where
  | text | tag | comment
deriving DecidableEq

namespace Mode3

def next : Mode3 → Token → Mode3
  | _, .beginComment => .comment
  | _, .beginExpr => .tag
  | _, .beginBlock => .tag
  | _, .endExpr => .text
  | _, .endBlock => .text
  | _, .endComment => .text
  | m, _ => m

def Allows : Mode3 → Token → Prop
  | .text, tk => tk = .raw ∨ Spec.isBeginTag tk = true
  | .tag, tk => tk ≠ .raw ∧ Spec.isBeginTag tk = false ∧ tk ≠ .endComment
  | .comment, tk => tk = .raw ∨ tk = .endComment

/-- The mode of the lexer. -/
def of (lx : Lexer) : Mode3 :=
  match lx.next with
  | some (tk, _) => if Spec.isBeginTag tk then .text else .comment
  | none =>
    match lx.state with
    | .template => .text
    | .block _ _ => .tag
    | .blockPath _ _ => .tag
    | .comment _ _ => .comment

end Mode3

/-- Tokens as they can stand from this mode on. -/
inductive Form : Mode3 → List Tok → Prop
  | nil {m} : Form m []
  | cons {m t ts} : m.Allows t.1 → Form (m.next t.1) ts → Form m (t :: ts)

variable {syn : Syn} {cx : LexCx}

theorem of_block {lx : Lexer} (hn : lx.next = none) {bs : BlockState} {b : Span} {e : Token} (h : lx.state = Lexer.blockOf bs b e) :
    Mode3.of lx = .tag := by
  rw [Mode3.of, hn, h]; cases bs <;> rfl

theorem Step.mode {lx lx' : Lexer} {t : Tok} (inv : Inv syn cx lx) (h : Step syn cx lx t lx') :
    (Mode3.of lx).Allows t.1 ∧ Mode3.of lx' = (Mode3.of lx).next t.1 := by
  cases h with
  | pending hn =>
    obtain ⟨tk, sp⟩ := t
    obtain ⟨⟨k, trim, i, h1, h2, rfl⟩, h3⟩ := inv.nx _ _ hn
    rcases h3 with ⟨hb, e, hp, hst⟩ | ⟨rfl, hst⟩
    · rw [← Lexer.isBeginTag_eq] at hb
      have : Mode3.of lx = .text := by rw [Mode3.of, hn]; simp [hb]
      rw [this]
      refine ⟨Or.inr hb, ?_⟩
      simp only [Mode3.of, hst, Lexer.enter]
      cases tk <;> simp [Spec.isBeginTag] at hb <;> rfl
    · have : Mode3.of lx = .comment := by rw [Mode3.of, hn]; rfl
      rw [this]
      refine ⟨Or.inr rfl, ?_⟩
      simp only [Mode3.of, hst]; rfl
  | @openTag k tk trim e j hn hst hd hk hb hp =>
    rw [← Lexer.isBeginTag_eq] at hb
    have : Mode3.of lx = .text := by rw [Mode3.of, hn, hst]
    rw [this]
    refine ⟨Or.inr hb, ?_⟩
    simp only [Mode3.of, hn, Lexer.enter]
    cases tk <;> simp [Spec.isBeginTag] at hb <;> rfl
  | rawTag hn hst hd hlt hk hb hp hs ht =>
    rw [← Lexer.isBeginTag_eq] at hb
    have : Mode3.of lx = .text := by rw [Mode3.of, hn, hst]
    rw [this]
    exact ⟨Or.inl rfl, by simp only [Mode3.of, hb, if_true]; rfl⟩
  | rawEnd hn hst =>
    have : Mode3.of lx = .text := by rw [Mode3.of, hn, hst]
    rw [this]
    exact ⟨Or.inl rfl, rfl⟩
  | @closeTag bs b e k j trim hn hst hd hk =>
    have he := (inv.blk b e (by cases bs <;> simp [hst, Lexer.blockOf])).2
    rw [of_block hn hst]
    rcases he with rfl | rfl <;> exact ⟨⟨by simp, rfl, by simp⟩, rfl⟩
  | @inner bs b e tk t hn hst hd hs ht hne =>
    rw [of_block hn hst]
    obtain ⟨h1, h2⟩ := Lexer.tokText_not_tag ht
    refine ⟨⟨?_, h1, ?_⟩, ?_⟩
    · rintro rfl; exact ht
    · rintro rfl; exact ht
    · have h3 : Mode3.of { lx with cursor := lx.cursor + blen t, state := Lexer.nextBlock bs tk b e } = .tag := by
        rcases Lexer.nextBlock_cases bs tk b e with h | h <;> simp [Mode3.of, hn, h]
      rw [h3]
      cases tk <;> simp [Spec.isBeginTag, Spec.isEndTag] at h1 h2 <;> rfl
  | closeComment hn hst hd hk =>
    have he := (inv.cmt _ _ hst).2
    have : Mode3.of lx = .comment := by rw [Mode3.of, hn, hst]
    rw [this, he]
    exact ⟨Or.inr rfl, rfl⟩
  | rawComment hn hst hd hlt hk =>
    have he := (inv.cmt _ _ hst).2
    have : Mode3.of lx = .comment := by rw [Mode3.of, hn, hst]
    rw [this, he]
    exact ⟨Or.inl rfl, rfl⟩
  | rawCommentEnd hn hst hd hlt =>
    have : Mode3.of lx = .comment := by rw [Mode3.of, hn, hst]
    rw [this]
    exact ⟨Or.inl rfl, by rw [Mode3.of]; simp only [hn, hst]; rfl⟩

theorem Skip.mode (g : Good syn cx) {lx lx' : Lexer} (h : Skip syn cx lx lx') (inv : Inv syn cx lx) :
    Mode3.of lx' = Mode3.of lx := by
  induction h with
  | refl => rfl
  | step h1 _ ih => rw [ih (h1.inv g inv), (Step.mode inv h1).2]; rfl

theorem Yields.form (g : Good syn cx) {lx : Lexer} {ts : List Tok} {r : Option Err} (h : Yields cx lx ts r)
    (inv : Inv syn cx lx) : Form (Mode3.of lx) ts := by
  induction h with
  | eof => exact .nil
  | err => exact .nil
  | @cons lx t lx' ts r hx hy ih =>
    obtain ⟨l1, h1, h2, h3, h4⟩ := Lexer.nextToken_some g inv hx
    have inv1 := h1.inv g inv
    obtain ⟨a, b⟩ := Step.mode inv1 h2
    rw [← Skip.mode g h1 inv]
    exact .cons a (b ▸ ih h4)

theorem form_new (g : Good syn cx) {ts : List Tok} {r : Option Err} (h : Yields cx Lexer.new ts r) : Form .text ts :=
  h.form g (Inv.new syn cx)

/-- The tokens that are read first. -/
theorem Yields.lexes {lx : Lexer} {a b : List Tok} {r : Option Err} (h : Yields cx lx (a ++ b) r) :
    ∃ lx', Spec.Lexes cx lx a lx' ∧ Yields cx lx' b r := by
  induction a generalizing lx with
  | nil => exact ⟨lx, .none, h⟩
  | cons t a ih =>
    cases h with
    | cons h1 h2 =>
      obtain ⟨l, h3, h4⟩ := ih h2
      exact ⟨l, .some h1 h3, h4⟩

end Upon
