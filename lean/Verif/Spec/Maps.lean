import Verif.Model.Value
/-
Vocabulary for maps (C19, C28, C29, C33, C34, C38).
-/
namespace Upon.Spec

/-- Alphabetical order of the UTF-8 bytes: `a` is a proper prefix of `b`, or at the first place where
they differ `a` has the smaller byte. -/
def Before (a b : Str) : Prop :=
  (∃ x t, utf8 b = utf8 a ++ x :: t) ∨
  ∃ p x s y t, utf8 a = p ++ x :: s ∧ utf8 b = p ++ y :: t ∧ x < y

/-- The keys are in ascending order, each once. -/
def Ascending {V : Type} (m : List (Str × V)) : Prop := (m.map Prod.fst).Pairwise Before

mutual
/-- Every map inside the value is ascending, as `BTreeMap`s are. -/
def Ordered : Value → Prop
  | .list l => OrderedList l
  | .map m => Ascending m ∧ OrderedMap m
  | _ => True
def OrderedList : List Value → Prop
  | [] => True
  | v :: l => Ordered v ∧ OrderedList l
def OrderedMap : List (Str × Value) → Prop
  | [] => True
  | p :: m => Ordered p.2 ∧ OrderedMap m
end

end Upon.Spec
