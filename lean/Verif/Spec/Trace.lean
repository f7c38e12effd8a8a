import Verif.Spec.Rendering
import Verif.Spec.Filters
/-
Vocabulary for C13: which filters are called, with what, in which order.
-/
namespace Upon.Spec

/-- One call of a filter: its name, the value it is applied to and its arguments, as it gets them. -/
structure Call where
  name : Str
  val : ArgVal
  args : List ArgVal

variable {σ : Type}

/-- The call made by applying what `name` denotes to a value: there is one only if `name` denotes a filter
and the value and the arguments could be converted for it (src/filters/mod.rs:98-110). -/
def callOf (cfg : RenderCfg σ) (src : Str) (st : Stack) (name : Ident) (v : Cow) (args : List BaseExpr) : List Call :=
  match name.span.of src with
  | none => []
  | some n =>
    match BMap.get cfg.functions n with
    | some (.filter f) =>
      match fromState cfg.env f src st name v args with
      | .ok (a, as) => [⟨n, a, as⟩]
      | _ => []
    | _ => []

/-- The call the machine makes in its next step (`C13_calls_only` says that there are no others). -/
def called (cfg : RenderCfg σ) (vm : VM σ) : List Call :=
  match vm.frames with
  | [] => []
  | fr :: _ =>
    match fr.tmpl.instrs[fr.pc]?, vm.expr with
    | some (.apply name _ args), some v =>
      callOf cfg fr.tmpl.source vm.stack name v ((args.map Args.values).getD [])
    | some (.emitWith name _), some v => callOf cfg fr.tmpl.source vm.stack name v []
    | _, _ => []

/-- The calls the machine makes in at most `fuel` steps, in order. -/
def calls (cfg : RenderCfg σ) : Nat → VM σ → List Call
  | 0, _ => []
  | fuel + 1, vm =>
    called cfg vm ++
      match step cfg vm with
      | .halt _ => []
      | .next vm' => calls cfg fuel vm'

/-- The machine halts with the given result, after making these calls. -/
def HaltsWith (cfg : RenderCfg σ) (vm : VM σ) (cs : List Call) (r : RunRes σ) : Prop :=
  ∃ n, run cfg n vm = some r ∧ calls cfg n vm = cs

/-- `Piece`, with the calls that are made. -/
def PieceCalls (cfg : RenderCfg σ) (k : Nat) (name : Option Str) (src : Str) (ss : List Stmt) (st : Stack) (w : World σ)
    (cs : List Call) (res : RunRes σ) : Prop :=
  ∃ t, Compiler.compileTemplate src ss = some t ∧
    HaltsWith cfg ⟨⟨t, name, 0, false⟩ :: List.replicate k idle, st, none, w⟩ cs res

/-- Evaluating an expression, from left to right: the calls that are made and the outcome. -/
inductive Pipeline (cfg : RenderCfg σ) (src : Str) (st : Stack) : Expr → List Call → Res Cow → Prop
  /-- a variable -/
  | var {v} : Pipeline cfg src st (.base (.var v)) [] (lookupVar cfg.env src st v)
  /-- a literal -/
  | lit {l} : Pipeline cfg src st (.base (.lit l)) [] (.ok (.owned l.value))
  /-- a filter is called with the value so far, and gives the next value -/
  | call {recv cs v name args sp n f a as r} :
      Pipeline cfg src st recv cs (.ok v) → name.span.of src = some n →
      BMap.get cfg.functions n = some (.filter f) →
      Converts cfg.env f.val v.val a → PassAll cfg.env src st f.args ((args.map Args.values).getD []) as →
      f.call a as = .ok r →
      Pipeline cfg src st (.call name args recv sp) (cs ++ [⟨n, a, as⟩]) (.ok (.owned r))
  /-- a filter is called with the value so far, and fails: the error is placed at its name -/
  | fails {recv cs v name args sp n f a as m} :
      Pipeline cfg src st recv cs (.ok v) → name.span.of src = some n →
      BMap.get cfg.functions n = some (.filter f) →
      Converts cfg.env f.val v.val a → PassAll cfg.env src st f.args ((args.map Args.values).getD []) as →
      f.call a as = .error m →
      Pipeline cfg src st (.call name args recv sp) (cs ++ [⟨n, a, as⟩]) (filterFault cfg.env m src name.span)
  /-- the name denotes no filter, or the value and arguments do not fit its parameters: no call is made
  (what the error is, C30 and C31 say) -/
  | refused {recv cs v name args sp} :
      Pipeline cfg src st recv cs (.ok v) →
      (∀ n f a as, name.span.of src = some n → BMap.get cfg.functions n = some (.filter f) →
        Converts cfg.env f.val v.val a → ¬ PassAll cfg.env src st f.args ((args.map Args.values).getD []) as) →
      Pipeline cfg src st (.call name args recv sp) cs (valueOf cfg src st (.call name args recv sp))
  /-- evaluating what stands to the left failed: nothing else is done -/
  | stops {recv cs r name args sp} :
      Pipeline cfg src st recv cs r → (∀ v, r ≠ .ok v) → Pipeline cfg src st (.call name args recv sp) cs r

/-- Another set of functions with the same names, kinds and signatures, which gives the same answers to
these calls. -/
structure SameOn (fs gs : BMap EngFn) (cs : List Call) : Prop where
  none : ∀ n, BMap.get fs n = none → BMap.get gs n = none
  formatter : ∀ n f, BMap.get fs n = some (.formatter f) → BMap.get gs n = some (.formatter f)
  filter : ∀ n f, BMap.get fs n = some (.filter f) → ∃ g, BMap.get gs n = some (.filter g) ∧
    g.val = f.val ∧ g.args = f.args ∧ ∀ a as, ⟨n, a, as⟩ ∈ cs → g.call a as = f.call a as

end Upon.Spec
