import Verif.Spec.Mentions
import Verif.Spec.Output
import Mathlib.Data.List.Forall2
/-
Vocabulary for C61 and C62: renders of the same template with corresponding data.
-/
namespace Upon.Spec

/-- What a filter is given in one render corresponds to what it is given in the other. -/
inductive ArgAlike (R : Value → Value → Prop) : ArgVal → ArgVal → Prop
  | same {a} : ArgAlike R a a
  | str {s s'} : R (.string s) (.string s') → ArgAlike R (.str s) (.str s')
  | list {l l'} : R (.list l) (.list l') → ArgAlike R (.list l) (.list l')
  | map {m m'} : R (.map m) (.map m') → ArgAlike R (.map m) (.map m')
  | value {v v'} : R v v' → ArgAlike R (.value v) (.value v')

/-- Filters that succeed when they are given some values also succeed when they are given corresponding ones, and return corresponding results. -/
def FiltersFollow (R : Value → Value → Prop) (fs : BMap EngFn) : Prop :=
  ∀ n f, BMap.get fs n = some (.filter f) → ∀ a a' as as' v, ArgAlike R a a' → List.Forall₂ (ArgAlike R) as as' → f.call a as = .ok v →
    ∃ v', f.call a' as' = .ok v' ∧ R v v'

/-- The formatter, writing to a string, succeeds on the value and appends the text. -/
def Appends (f : Formatter) (v : Value) (t : Str) : Prop := ∀ o, (f v).run stringSink o = (o ++ t, .ok ())

/-- The formatter writes corresponding values as corresponding texts, and fails only on both. -/
def Follows (R : Value → Value → Prop) (P : Str → Str → Prop) (f : Formatter) : Prop :=
  ∀ v v' t, R v v' → Appends f v t → ∃ t', Appends f v' t' ∧ P t t'

/-- All formatters of the engine do so. -/
def FormattersFollow (R : Value → Value → Prop) (P : Str → Str → Prop) (e : Engine) : Prop :=
  Follows R P e.defaultFormatter ∧ ∀ n f, BMap.get e.functions n = some (.formatter f) → Follows R P f

/-- The texts consist of the same number of pieces, and each piece of one is the same as or corresponds to the piece of the other. -/
def Pieces (P : Str → Str → Prop) (o o' : Str) : Prop :=
  ∃ ps : List (Str × Str), (∀ p ∈ ps, p.1 = p.2 ∨ P p.1 p.2) ∧ o = (ps.map (·.1)).flatten ∧ o' = (ps.map (·.2)).flatten

/-! C61 -/

mutual
/-- The same value, but for strings, which are replaced by strings that `S` relates them to. -/
inductive Recoded (S : Str → Str → Prop) : Value → Value → Prop
  | none : Recoded S .none .none
  | bool {b} : Recoded S (.bool b) (.bool b)
  | integer {i} : Recoded S (.integer i) (.integer i)
  | float {f} : Recoded S (.float f) (.float f)
  | string {s s'} : S s s' → Recoded S (.string s) (.string s')
  | list {l l'} : RecodedList S l l' → Recoded S (.list l) (.list l')
  | map {m m'} : RecodedMap S m m' → Recoded S (.map m) (.map m')
inductive RecodedList (S : Str → Str → Prop) : List Value → List Value → Prop
  | nil : RecodedList S [] []
  | cons {v v' l l'} : Recoded S v v' → RecodedList S l l' → RecodedList S (v :: l) (v' :: l')
inductive RecodedMap (S : Str → Str → Prop) : List (Str × Value) → List (Str × Value) → Prop
  | nil : RecodedMap S [] []
  | cons {k v v' m m'} : Recoded S v v' → RecodedMap S m m' → RecodedMap S ((k, v) :: m) ((k, v') :: m')
end

/-- The data of one render corresponds to that of the other. -/
inductive GlobalsAlike (R : Value → Value → Prop) : Globals → Globals → Prop
  | borrowed {v v'} : R v v' → GlobalsAlike R (.borrowed v) (.borrowed v')
  | owned {v v'} : R v v' → GlobalsAlike R (.owned (.ok v)) (.owned (.ok v'))
  | fn {f f' : ValueFn} : (∀ p v, f p = .ok v → ∃ v', f' p = .ok v' ∧ R v v') → GlobalsAlike R (.fn f) (.fn f')

/-! C62 -/

mutual
/-- The same value, but for entries with keys in `K` that maps have in addition (maps that are empty stay empty). -/
inductive Extends (K : Str → Prop) : Value → Value → Prop
  | none : Extends K .none .none
  | bool {b} : Extends K (.bool b) (.bool b)
  | integer {i} : Extends K (.integer i) (.integer i)
  | float {f} : Extends K (.float f) (.float f)
  | string {s} : Extends K (.string s) (.string s)
  | list {l l'} : ExtendsList K l l' → Extends K (.list l) (.list l')
  | map {m m'} : (m = [] → m' = []) → ExtendsMap K m m' → Extends K (.map m) (.map m')
inductive ExtendsList (K : Str → Prop) : List Value → List Value → Prop
  | nil : ExtendsList K [] []
  | cons {v v' l l'} : Extends K v v' → ExtendsList K l l' → ExtendsList K (v :: l) (v' :: l')
inductive ExtendsMap (K : Str → Prop) : List (Str × Value) → List (Str × Value) → Prop
  | nil : ExtendsMap K [] []
  | keep {k v v' m m'} : Extends K v v' → ExtendsMap K m m' → ExtendsMap K ((k, v) :: m) ((k, v') :: m')
  | new {k v m m'} : K k → BMap.get m k = none → ExtendsMap K m m' → ExtendsMap K m ((k, v) :: m')
end

/-- The globals are a map, and are given entries with keys in `K`, at any depth. -/
inductive GlobalsExtended (K : Str → Prop) : Globals → Globals → Prop
  | borrowed {m m'} : ExtendsMap K m m' → GlobalsExtended K (.borrowed (.map m)) (.borrowed (.map m'))
  | owned {m m'} : ExtendsMap K m m' → GlobalsExtended K (.owned (.ok (.map m))) (.owned (.ok (.map m')))
  | fn {f f' : ValueFn} : (∀ p v, f p = .ok v → ∃ v', f' p = .ok v' ∧ Extends K v v') → GlobalsExtended K (.fn f) (.fn f')

mutual
/-- No loop in the statement runs over the entries of a map. -/
def stmtNoPairs : Stmt → Prop
  | .raw _ | .inlineExpr _ _ | .include_ _ _ => True
  | .ifElse _ _ t none => stmtsNoPairs t
  | .ifElse _ _ t (some f) => stmtsNoPairs t ∧ stmtsNoPairs f
  | .forLoop (.item _) _ b => stmtsNoPairs b
  | .forLoop (.keyValue _ _ _) _ _ => False
  | .with_ _ _ b => stmtsNoPairs b
def stmtsNoPairs : List Stmt → Prop
  | [] => True
  | s :: ss => stmtNoPairs s ∧ stmtsNoPairs ss
end

/-- The template does not ask whether a map has an entry with a key in `K`: it has no optional access `?.k` with such a key, and no loop over the entries
of a map. -/
def Unaware (K : Str → Prop) (T : Tree) : Prop :=
  stmtsNoPairs T.body ∧ ∀ v, HasVar T v → ∀ m ∈ v.path, m.op = .optional → ∀ k n, m.access = .key k → k.span.of T.source = some n → ¬ K n

end Upon.Spec
