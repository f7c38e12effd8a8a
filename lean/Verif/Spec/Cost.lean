import Verif.Spec.Data
import Verif.Spec.Values
import Verif.Spec.Size
/-
Vocabulary for C60: how much work a render is.
-/
namespace Upon.Spec
variable {σ : Type}

/-- The value that a loop is about to run over. -/
def loopsOver (vm : VM σ) : Option Value :=
  match vm.frames with
  | [] => none
  | fr :: _ =>
    match fr.tmpl.instrs[fr.pc]?, vm.expr with
    | some (.loopStart _ _), some c => some c.val
    | _, _ => none

/-- During the render that starts in `vm`, no loop runs over more than `n` items. -/
def LoopsAtMost (cfg : RenderCfg σ) (vm : VM σ) (n : Nat) : Prop :=
  ∀ vm' v, Reachable cfg vm vm' → loopsOver vm' = some v → items v ≤ n

mutual
/-- No list or map in the value has more than `n` elements. -/
def Within (n : Nat) : Value → Prop
  | .list l => l.length ≤ n ∧ WithinList n l
  | .map m => m.length ≤ n ∧ WithinMap n m
  | _ => True
def WithinList (n : Nat) : List Value → Prop
  | [] => True
  | v :: vs => Within n v ∧ WithinList n vs
def WithinMap (n : Nat) : List (Str × Value) → Prop
  | [] => True
  | (_, v) :: ps => Within n v ∧ WithinMap n ps
end

/-- A formatter that writes at most `L` bytes for some value, whether or not its writes succeed. -/
inductive WritesAtMost : Nat → FmtProg → Prop
  | done {L} (r) : WritesAtMost L (.done r)
  | write {L s k} : (∀ ok, WritesAtMost L (k ok)) → WritesAtMost (blen s + L) (.write s k)

/-- The formatters of an engine write at most `L` bytes for each value that has the property. -/
structure Terse (P : Value → Prop) (L : Nat) (e : Engine) : Prop where
  shown : ∀ v, P v → WritesAtMost L (e.defaultFormatter v)
  named : ∀ n f, BMap.get e.functions n = some (.formatter f) → ∀ v, P v → WritesAtMost L (f v)

mutual
/-- No list or map in the value has more than `n` elements, no string, no key and no number takes more than `L` bytes. -/
def Sized (env : Env) (n L : Nat) : Value → Prop
  | .none => True
  | .bool _ => True
  | .integer i => blen (showInt i) ≤ L
  | .float f => blen (env.showF64 f).flatten ≤ L
  | .string s => blen s ≤ L
  | .list l => l.length ≤ n ∧ SizedList env n L l
  | .map m => m.length ≤ n ∧ SizedMap env n L m
def SizedList (env : Env) (n L : Nat) : List Value → Prop
  | [] => True
  | v :: vs => Sized env n L v ∧ SizedList env n L vs
def SizedMap (env : Env) (n L : Nat) : List (Str × Value) → Prop
  | [] => True
  | (k, v) :: ps => blen k ≤ L ∧ Sized env n L v ∧ SizedMap env n L ps
end

end Upon.Spec
