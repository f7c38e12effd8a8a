import Verif.Spec.Words
/-
Vocabulary for C69: template texts written one after the other.
-/
namespace Upon.Spec

/-- The text `y` can follow the text `x` without anything new at the seam: no delimiter comes about across it, and no whitespace control reaches across it. -/
structure Seamless (syn : Syn) (x y : Str) : Prop where
  /-- no delimiter begins in `x` and ends in `y` -/
  across : ∀ p ∈ syn, ∀ d e, p.2 = d ++ e → d <:+ x → e <+: y → d = [] ∨ e = []
  /-- if `y` begins with a tag that trims what is before it (after nothing but whitespace), then `x` does not end in whitespace -/
  before : ∀ p ∈ syn, isEnd p.1 = false → isTrim p.1 = true → ∀ white rest, y = white ++ p.2 ++ rest → (∀ c ∈ white, isWhite c = true) →
    ∀ u c, x = u ++ [c] → isWhite c = false
  /-- if `x` ends with a tag that trims what is after it (before nothing but whitespace), then `y` does not begin with whitespace -/
  after : ∀ p ∈ syn, isEnd p.1 = true → isTrim p.1 = true → ∀ white rest, x = rest ++ p.2 ++ white → (∀ c ∈ white, isWhite c = true) →
    ∀ c u, y = c :: u → isWhite c = false

end Upon.Spec
