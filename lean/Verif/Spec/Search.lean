import Verif.Model.Syntax
/-
What it means for a delimiter to occur in a text and which occurrence a search should report
(C01, C02).  Nothing here mentions automata, tries or states.
-/
namespace Upon.Spec

/-- The text `d` stands in `src` at bytes `i..j`. -/
def StandsAt (src d : Str) (i j : Nat) : Prop :=
  ∃ pre post, src = pre ++ d ++ post ∧ blen pre = i ∧ blen (pre ++ d) = j

/-- A delimiter of kind `k` of the syntax stands in `src` at bytes `i..j`. -/
def Occurs (syn : Syn) (src : Str) (k : Kind) (i j : Nat) : Prop :=
  ∃ d, (k, d) ∈ syn ∧ StandsAt src d i j

/-- The occurrence a search from byte `start` should report: leftmost, then longest, then the
delimiter that was configured first. -/
structure Chosen (syn : Syn) (src : Str) (start : Nat) (k : Kind) (i j : Nat) : Prop where
  after : start ≤ i
  leftmost : ∀ k' i' j', start ≤ i' → Occurs syn src k' i' j' → i ≤ i'
  longest : ∀ k' j', Occurs syn src k' i j' → j' ≤ j
  first : ∃ d before later, syn = before ++ (k, d) :: later ∧ StandsAt src d i j ∧
    ∀ k', (k', d) ∉ before

/-- No delimiter of the syntax is the empty text (the builder asserts this). -/
def NonEmptyDelims (syn : Syn) : Prop := ∀ p ∈ syn, p.2 ≠ []

/-- The builders a user can obtain: `SyntaxBuilder::new` followed by setter calls that do not
panic. -/
inductive Built : SyntaxBuilder → Prop
  | new : Built .new
  | expr {b b' x y} : Built b → b.setExpr x y = some b' → Built b'
  | block {b b' x y} : Built b → b.setBlock x y = some b' → Built b'
  | comment {b b' x y} : Built b → b.setComment x y = some b' → Built b'

end Upon.Spec
