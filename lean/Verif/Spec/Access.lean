import Verif.Model.Stack
import Verif.Spec.Names
/-
Member access (C24): what a path such as `.a.0?.b` means, starting at a value.
-/
namespace Upon.Spec

/-- The member exists and is `v'`: a key of a map, or a position in a list. -/
inductive Found (src : Str) : Value → Member → Value → Prop
  | key {mp op k sp n v} : k.span.of src = some n → (n, v) ∈ mp → (∀ v', (n, v') ∈ mp → v' = v) →
      Found src (.map mp) ⟨op, .key k, sp⟩ v
  | index {l op i sp v} : l[i.value]? = some v → Found src (.list l) ⟨op, .index i, sp⟩ v

/-- The value could have such a member but has not. -/
inductive Missing (src : Str) : Value → Member → String → Prop
  | key {mp op k sp n} : k.span.of src = some n → (∀ v, (n, v) ∉ mp) →
      Missing src (.map mp) ⟨op, .key k, sp⟩ "not found in map"
  | index {l op i sp} : l.length ≤ i.value →
      Missing src (.list l) ⟨op, .index i, sp⟩ s!"index out of bounds, the length is {l.length}"

/-- The value can have no such member. -/
inductive NoMember : Value → Member → String → Prop
  | key {v op k sp} : (∀ mp, v ≠ .map mp) → NoMember v ⟨op, .key k, sp⟩ s!"{typeName v} does not support key-based access"
  | index {v op i sp} : (∀ l, v ≠ .list l) →
      NoMember v ⟨op, .index i, sp⟩ s!"{typeName v} does not support integer-based access"

/-- The path leads to a value. An optional access to a member that is missing ends the path with
none; what follows is not looked at. -/
inductive Leads (src : Str) : Value → List Member → Value → Prop
  | nil {v} : Leads src v [] v
  | step {v m v' ms r} : Found src v m v' → Leads src v' ms r → Leads src v (m :: ms) r
  | miss {v m ms msg} : Missing src v m msg → m.op = .optional → Leads src v (m :: ms) .none

/-- The path fails, at the given member and with the given message. -/
inductive Fails (src : Str) : Value → List Member → Member → String → Prop
  | missing {v m ms msg} : Missing src v m msg → m.op = .direct → Fails src v (m :: ms) m msg
  | noMember {v m ms msg} : NoMember v m msg → Fails src v (m :: ms) m msg
  | step {v m v' ms at_ msg} : Found src v m v' → Fails src v' ms at_ msg → Fails src v (m :: ms) at_ msg

end Upon.Spec
