import Verif.Spec.Rendering
import Verif.Spec.Maps
/-
All maps in a running render are in key order (C19). In the code this holds by type, since maps are
`BTreeMap`s; in the model a map is a list of entries, so it has to be shown.
-/
namespace Upon.Spec
variable {σ : Type}

def OrderedLoop : LoopState → Prop
  | .list _ _ _ rem v => (∀ x ∈ rem, Ordered x) ∧ ∀ p, v = some p → Ordered p.2
  | .map _ _ _ _ rem v => (∀ p ∈ rem, Ordered p.2) ∧ ∀ p, v = some p → Ordered p.2.2

def OrderedState : SState → Prop
  | .valueFn f => ∀ p v, f p = .ok v → Ordered v
  | .scope c => Ordered c.val
  | .var _ c => Ordered c.val
  | .loop ls => OrderedLoop ls
  | .boundary => True

/-- All values bound on the stack are ordered. -/
def OrderedStack (st : Stack) : Prop := ∀ s ∈ st, OrderedState s

def OrderedArg : ArgVal → Prop
  | .value v => Ordered v
  | .list l => ∀ x ∈ l, Ordered x
  | .map m => Ordered (.map m)
  | _ => True

/-- Filters return ordered values when they are given ordered values. -/
def OrderedFilters (fs : BMap EngFn) : Prop :=
  ∀ n f a as v, BMap.get fs n = some (.filter f) → OrderedArg a → (∀ x ∈ as, OrderedArg x) → f.call a as = .ok v → Ordered v

def OrderedBase : BaseExpr → Prop
  | .var _ => True
  | .lit l => Ordered l.value

def OrderedInstr : Instr → Prop
  | .exprStartLit v => Ordered v
  | .apply _ _ args => ∀ x ∈ (args.map Args.values).getD [], OrderedBase x
  | _ => True

/-- All literals in the code are ordered. -/
def OrderedCode (is : List Instr) : Prop := ∀ i ∈ is, OrderedInstr i

/-- All values in a state of a render are ordered. -/
structure OrderedVM (vm : VM σ) : Prop where
  code : ∀ fr ∈ vm.frames, OrderedCode fr.tmpl.instrs
  stack : OrderedStack vm.stack
  expr : ∀ c, vm.expr = some c → Ordered c.val

/-- The values a render is given are ordered. -/
def OrderedGlobals : Globals → Prop
  | .owned r => ∀ v, r = .ok v → Ordered v
  | .borrowed v => Ordered v
  | .fn f => ∀ p v, f p = .ok v → Ordered v

/-- `vm'` is reached from `vm`. -/
inductive Reachable (cfg : RenderCfg σ) (vm : VM σ) : VM σ → Prop
  | refl : Reachable cfg vm vm
  | step {vm' vm''} : Reachable cfg vm vm' → step cfg vm' = .next vm'' → Reachable cfg vm vm''

end Upon.Spec
