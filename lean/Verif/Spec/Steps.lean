import Verif.Spec.Data
/-
Vocabulary for C23, C27: the includes a render executes.
-/
namespace Upon.Spec
variable {σ : Type}

/-- The `include` that is executed next, with the source it stands in, if the next step executes one. -/
def including (vm : VM σ) : Option (AstString × Str) :=
  match vm.frames with
  | [] => none
  | fr :: _ =>
    match fr.tmpl.instrs[fr.pc]?, vm.expr with
    | some (.include_ n), _ => some (n, fr.tmpl.source)
    | some (.includeWith n), some _ => some (n, fr.tmpl.source)
    | _, _ => none

/-- The names in the `include`s that are executed in at most `fuel` steps, in order. -/
def included (cfg : RenderCfg σ) : Nat → VM σ → List Str
  | 0, _ => []
  | fuel + 1, vm =>
    ((including vm).map fun p => p.1.name).toList ++
      match step cfg vm with
      | .halt _ => []
      | .next vm' => included cfg fuel vm'

/-- At some point an `include` finds a template which would be one more than `d` active ones. -/
def WouldExceed (cfg : RenderCfg σ) (vm : VM σ) (d : Nat) : Prop :=
  ∃ vm' n src w t, Reachable cfg vm vm' ∧ including vm' = some (n, src) ∧
    getTemplate cfg src n vm'.w = (w, .ok t) ∧ d < vm'.frames.length + 1

/-- The names a template function has been asked for when the render ended (most recent first). -/
def askedBy : RunRes σ → Option (List Str)
  | .ok w => some w.asked
  | .err _ w => some w.asked
  | .crash => none

/-- The path of a variable as the value function gets it: for each part whether it is optional (`?.`) and the
key or the index. -/
inductive PathIs (src : Str) : List Member → List ValueMember → Prop
  | nil : PathIs src [] []
  | key {op k sp n ms vs} : k.span.of src = some n → PathIs src ms vs → PathIs src (⟨op, .key k, sp⟩ :: ms) (⟨op, .key n⟩ :: vs)
  | index {op i sp ms vs} : PathIs src ms vs → PathIs src (⟨op, .index i, sp⟩ :: ms) (⟨op, .index i.value⟩ :: vs)

end Upon.Spec
