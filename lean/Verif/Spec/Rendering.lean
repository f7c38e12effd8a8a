import Verif.Model.Engine
import Verif.Spec.Lexing
import Verif.Spec.Grammar
import Verif.Spec.Semantics
/-
Vocabulary for the rendering properties (C13-C24, C30).
-/
namespace Upon.Spec

variable {σ : Type}

/-- An engine compiled `t`: from some text, in some syntax, in which no closing delimiter that ends in whitespace
meets more whitespace before a trimming tag (see `Tidy`). -/
def Compiled (env : Env) (t : Template) : Prop :=
  ∃ b a src, Setup b ⟨env, a, src⟩ ∧ Tidy b.build src ∧ compileSource ⟨env, a, src⟩ = .ok t

/-- An engine compiled `t`, and `T` is the text and its tree according to the grammar. -/
def Parsed (env : Env) (t : Template) (T : Tree) : Prop :=
  ∃ b a ts, Setup b ⟨env, a, T.source⟩ ∧ Tidy b.build T.source ∧ compileSource ⟨env, a, T.source⟩ = .ok t ∧
    Layout b.build env T.source (.text false) 0 ts ∧ GStmts env T.source ts T.body

/-- Every template an `include` may find was compiled by an engine. -/
def AllCompiled (cfg : RenderCfg σ) : Prop := ∀ t, Includable cfg t → Compiled cfg.env t

/-- Every loop on the stack is in one of its rounds. -/
def InRound (st : Stack) : Prop := ∀ ls, SState.loop ls ∈ st → ls.indexAndRem ≠ none

/-- A template that has nothing left to do. -/
def idle : Frame := ⟨⟨[], []⟩, none, 0, false⟩

/-- Running the code of the statements `ss` of a template with source `src`, with the bindings on the
stack `st`, while `k` other templates are active, gives `res`. -/
def Piece (cfg : RenderCfg σ) (k : Nat) (name : Option Str) (src : Str) (ss : List Stmt) (st : Stack) (w : World σ)
    (res : RunRes σ) : Prop :=
  ∃ t, Compiler.compileTemplate src ss = some t ∧
    Halts cfg ⟨⟨t, name, 0, false⟩ :: List.replicate k idle, st, none, w⟩ res

/-- What holds at every point of a render of compiled templates (see `live_initial` and the theorems
on pieces): `k` is the number of other active templates. -/
structure Live (cfg : RenderCfg σ) (k : Nat) (st : Stack) : Prop where
  compiled : AllCompiled cfg
  rounds : InRound st
  depth : k + 1 ≤ max 1 cfg.maxIncludeDepth

/-- The value of an expression with the bindings on the stack: a name is looked up, a literal stands
for itself, a call is applied to the value of its receiver. -/
def valueOf (cfg : RenderCfg σ) (src : Str) (st : Stack) : Expr → Res Cow
  | .base (.var v) => lookupVar cfg.env src st v
  | .base (.lit l) => .ok (.owned l.value)
  | .call name args recv _ => do
    let v ← valueOf cfg src st recv
    let n ← Res.ofOption (name.span.of src)
    match BMap.get cfg.functions n with
    | some (.filter f) => do
      let r ← enrich cfg.env src name.span
        (callFilter cfg.env f src st name v ((args.map Args.values).getD []))
      .ok (.owned r)
    | some (.formatter _) => fault cfg.env "expected filter, found formatter" src name.span
    | none => fault cfg.env "unknown filter" src name.span

/-- The result is not a success. -/
def Failed (res : RunRes σ) : Prop := ∀ w, res ≠ .ok w

/-- One after the other: the second starts where the first ended; if the first fails that is all. -/
def Then (P : World σ → RunRes σ → Prop) (Q : World σ → RunRes σ → Prop) (w : World σ) (res : RunRes σ) : Prop :=
  (∃ w', P w (.ok w') ∧ Q w' res) ∨ (P w res ∧ Failed res)

/-- The rounds `i`, `i + 1`, …, `n - 1` in turn, until one fails. -/
inductive InTurn (round : Nat → World σ → RunRes σ → Prop) (n : Nat) : Nat → World σ → RunRes σ → Prop
  | done {w} : InTurn round n n w (.ok w)
  | next {i w w' res} : i < n → round i w (.ok w') → InTurn round n (i + 1) w' res → InTurn round n i w res
  | stop {i w res} : i < n → round i w res → Failed res → InTurn round n i w res

/-- The values that count as false in a condition: none, false, zero, 0.0 and -0.0, the empty string,
the empty list, the empty map. -/
inductive Falsy : Value → Prop
  | none : Falsy .none
  | false_ : Falsy (.bool false)
  | zero : Falsy (.integer 0)
  | fzero : Falsy (.float 0)
  | fnegZero : Falsy (.float (1#64 <<< 63))
  | string : Falsy (.string [])
  | list : Falsy (.list [])
  | map : Falsy (.map [])

end Upon.Spec
