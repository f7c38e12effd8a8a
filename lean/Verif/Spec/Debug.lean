import Verif.Model.Debug
/-
Vocabulary for C74 and C75.
-/
namespace Upon.Spec

/-- The bits of an `f64` that stand for no number: all bits of the exponent set, and some bit of the fraction. -/
def NotNumber (f : BitVec 64) : Prop := (∀ i, 52 ≤ i → i < 63 → f.getLsbD i = true) ∧ ∃ i, i < 52 ∧ f.getLsbD i = true

mutual
/-- The same value, except that all floats that are no numbers count as one. -/
inductive ShownAs : Value → Value → Prop
  | none : ShownAs .none .none
  | bool {b} : ShownAs (.bool b) (.bool b)
  | integer {i} : ShownAs (.integer i) (.integer i)
  | float {f} : ShownAs (.float f) (.float f)
  | nan {f g} : NotNumber f → NotNumber g → ShownAs (.float f) (.float g)
  | string {s} : ShownAs (.string s) (.string s)
  | list {l l'} : ShownList l l' → ShownAs (.list l) (.list l')
  | map {m m'} : ShownMap m m' → ShownAs (.map m) (.map m')
inductive ShownList : List Value → List Value → Prop
  | nil : ShownList [] []
  | cons {v v' l l'} : ShownAs v v' → ShownList l l' → ShownList (v :: l) (v' :: l')
inductive ShownMap : List (Str × Value) → List (Str × Value) → Prop
  | nil : ShownMap [] []
  | cons {k v v' m m'} : ShownAs v v' → ShownMap m m' → ShownMap ((k, v) :: m) ((k, v') :: m')
end

/-- `Debug` of floats: it tells numbers apart, shows all floats that are no numbers in the same way, and contains no closing parenthesis. -/
structure ShowsFloats (float : BitVec 64 → Str) : Prop where
  apart : ∀ f g, float f = float g → f = g ∨ (NotNumber f ∧ NotNumber g)
  nan : ∀ f g, NotNumber f → NotNumber g → float f = float g
  closed : ∀ f, ')' ∉ float f

/-- `Debug` of I/O errors: it can be read back, whatever follows. -/
def Readable (io : Nat → Str) : Prop := ∀ a b x y, io a ++ x = io b ++ y → a = b ∧ x = y

/-- A value somewhere inside another, or the value itself. -/
inductive PartOf (x : Value) : Value → Prop
  | self : PartOf x x
  | item {l v} : v ∈ l → PartOf x v → PartOf x (.list l)
  | entry {m k v} : (k, v) ∈ m → PartOf x v → PartOf x (.map m)

/-- What can be listed of an engine: the names and kinds of its functions, the names of its templates, and the limit of includes. -/
def inventory (e : Engine) : List (Str × EngineFn) × List Str × Nat :=
  (e.functions.map fun p => (p.1, p.2.discriminant), e.templates.map Prod.fst, e.maxIncludeDepth)

end Upon.Spec
