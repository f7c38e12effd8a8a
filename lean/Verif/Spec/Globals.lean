import Verif.Model.Engine
/-
Vocabulary for C48: globals given as a value and globals given by a function.
-/
namespace Upon.Spec

/-- Where a path leads, starting at a value. An optional access to a key or position that is missing ends the path with none. -/
inductive GoesTo : Value → List ValueMember → Value → Prop
  | here {v} : GoesTo v [] v
  | key {m k op x p y} : BMap.get m k = some x → GoesTo x p y → GoesTo (.map m) (⟨op, .key k⟩ :: p) y
  | index {l i op x p y} : l[i]? = some x → GoesTo x p y → GoesTo (.list l) (⟨op, .index i⟩ :: p) y
  | noKey {m k p} : BMap.get m k = none → GoesTo (.map m) (⟨.optional, .key k⟩ :: p) .none
  | noIndex {l i p} : l[i]? = none → GoesTo (.list l) (⟨.optional, .index i⟩ :: p) .none

/-- The function answers from the value: asked for a path whose first name the value has, it returns what the path leads to, and it
fails otherwise (with whatever message). -/
def AnswersFrom (f : ValueFn) (v : Value) : Prop :=
  ∀ m ms x, f (m :: ms) = .ok x ↔ ∃ y, GoesTo v [⟨.direct, m.access⟩] y ∧ GoesTo y ms x

/-- Types of arguments that a filter takes by reference: `&str`, `&[Value]`, `&BTreeMap<String, Value>` and `&Value`. -/
def ByReference (t : ArgTy) : Prop := t = .str ∨ t = .listRef ∨ t = .mapRef ∨ t = .valueRef

/-- No filter takes an argument (other than the value it is applied to) by reference. -/
def OwnedArgs (e : Engine) : Prop := ∀ n f, BMap.get e.functions n = some (.filter f) → ∀ t ∈ f.args, ¬ ByReference t

/-- The globals are the value: given as it is, or as something that was converted to it. -/
def GivenAs (g : Globals) (v : Value) : Prop := g = .borrowed v ∨ g = .owned (.ok v)

end Upon.Spec
