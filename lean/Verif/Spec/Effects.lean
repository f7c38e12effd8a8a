import Verif.Spec.Semantics
import Verif.Spec.Escaping
import Verif.Model.Effects
/-
What a template means when filters, formatters and value functions may answer differently each time (C58): the meaning of
`Spec/Semantics`, in which every use of a function happens at a moment, later than those before it, and gets the answer of that moment.
-/
namespace Upon.Spec
variable {σ : Type}

/-- The bindings, at a moment when the functions behave like this. -/
def Binding.acting (b : Behaviour) : Binding → Binding
  | .provider _ => .provider b.valueFn
  | x => x

/-- The bindings in force at that moment. -/
def Scope.acting (b : Behaviour) (ρ : Scope) : Scope := ρ.map (Binding.acting b)

/-- What `| name: args` makes of a value. -/
def callOn (q : Quirks) (cfg : RenderCfg σ) (src : Str) (ρ : Scope) (name : Ident) (args : Option Args) (v : Cow) : Res Cow := do
  let n ← Res.ofOption (name.span.of src)
  match BMap.get cfg.functions n with
  | some (.filter f) => do
    let r ← applyFilter q cfg.env src ρ f name v ((args.map Args.values).getD [])
    .ok (.owned r)
  | some (.formatter _) => fault cfg.env "expected filter, found formatter" src name.span
  | none => fault cfg.env "unknown filter" src name.span

/-- What `{{ … | fn }}` does with the value of `…`: `fn` may be a formatter, or a filter. -/
def emitCall (q : Quirks) (cfg : RenderCfg σ) (name : Option Str) (src : Str) (ρ : Scope) (fn : Ident) (span : Span) (v : Cow)
    (w : World σ) : RunRes σ :=
  andThen name w (Res.ofOption (fn.span.of src)) fun n =>
  match BMap.get cfg.functions n with
  | some (.formatter f) => write cfg name f v.val src fn.span w
  | some (.filter f) =>
    andThen name w (applyFilter q cfg.env src ρ f fn v []) fun r => write cfg name cfg.defaultFormatter r src span w
  | none => andThen (α := Unit) name w (fault cfg.env "unknown filter or formatter" src fn.span) (fun _ => .crash)

/-- Writing text of the template. -/
def writeRaw (cfg : RenderCfg σ) (name : Option Str) (src : Str) (span : Span) (w : World σ) : RunRes σ :=
  andThen name w (Res.ofOption (span.of src)) fun t =>
    match cfg.sink.write w.out t with
    | (out, true) => .ok { w with out }
    | (out, false) => .err (formatErr.attachName name) { w with out }

/-- From a moment on, something comes out before another moment. -/
abbrev Timed (α : Type) := Nat → α → Nat → Prop

/-- Go on with a value; an error ends the render, with the name of the running template. -/
def andThenAt {α : Type} (name : Option Str) (w : World σ) (r : Res α) (k : α → Timed (RunRes σ)) : Timed (RunRes σ)
  | a, res, b =>
    match r with
    | .ok x => k x a res b
    | .err e => res = .err (e.attachName name) w ∧ a ≤ b
    | .crash => res = .crash ∧ a ≤ b

/-- One after the other. -/
def seqAt (P : Timed (RunRes σ)) (Q : World σ → Timed (RunRes σ)) : Timed (RunRes σ)
  | a, res, b => ∃ r c, P a r c ∧
    match r with
    | .ok w => Q w c res b
    | r => res = r ∧ c ≤ b

/-- Some time within the given moments. -/
def within (P : Timed (RunRes σ)) : Timed (RunRes σ)
  | a, res, b => ∃ c d, a ≤ c ∧ P c res d ∧ d ≤ b

/-- The same for each element, in order, until one fails. -/
def forEachAt {α : Type} (f : α → World σ → Timed (RunRes σ)) : List α → World σ → Timed (RunRes σ)
  | [], w => fun a res b => res = .ok w ∧ a ≤ b
  | x :: xs, w => seqAt (within (f x w)) (forEachAt f xs)

section
variable (q : Quirks) (cfg : RenderCfg σ) (bs : Nat → Behaviour)

/-- The value of an expression: a variable is looked up at some moment, a filter is called at some later moment. -/
def evalAt (q : Quirks) (cfg : RenderCfg σ) (bs : Nat → Behaviour) (src : Str) (ρ : Scope) : Expr → Timed (Res Cow)
  | .base x => fun a r b => ∃ t, a ≤ t ∧ t < b ∧ r = evalBase q cfg.env src (Scope.acting (bs t) ρ) x
  | .call name args recv _ => fun a r b => ∃ v c, evalAt q cfg bs src ρ recv a v c ∧ ∃ t, c ≤ t ∧ t < b ∧
      r = (do let v ← v; callOn q (cfg.acting (bs t)) src (Scope.acting (bs t) ρ) name args v)

/-- `{{ e }}`. -/
def emitAt (name : Option Str) (src : Str) (ρ : Scope) (e : Expr) (w : World σ) : Timed (RunRes σ)
  | a, res, b =>
    match e with
    | .call fn none recv span => ∃ r c, evalAt q cfg bs src ρ recv a r c ∧ ∃ t, c ≤ t ∧ t < b ∧
        res = andThen name w r fun v => emitCall q (cfg.acting (bs t)) name src (Scope.acting (bs t) ρ) fn span v w
    | e => ∃ r c, evalAt q cfg bs src ρ e a r c ∧ ∃ t, c ≤ t ∧ t < b ∧
        res = andThen name w r fun v => write (cfg.acting (bs t)) name (bs t).defaultFormatter v.val src e.span w

/-- Rendering an included template. -/
abbrev IncludeAt (σ : Type) := AstString → Str → Option Str → Scope → World σ → Timed (RunRes σ)

mutual
/-- One statement. -/
def stmtAt (q : Quirks) (cfg : RenderCfg σ) (bs : Nat → Behaviour) (inc : IncludeAt σ) (name : Option Str) (src : Str) (ρ : Scope) :
    Stmt → World σ → Timed (RunRes σ)
  | .raw span, w => fun a res b => res = writeRaw cfg name src span w ∧ a ≤ b
  | .inlineExpr e _, w => emitAt q cfg bs name src ρ e w
  | .include_ n none, w => inc n src name ρ w
  | .include_ n (some e), w => fun a res b => ∃ r c, evalAt q cfg bs src ρ e a r c ∧
      andThenAt name w r (fun v => inc n src name (.globals v :: .wall :: ρ) w) c res b
  | .ifElse neg cond then_ else_, w => fun a res b => ∃ r c, evalAt q cfg bs src ρ cond a r c ∧
      andThenAt name w r (fun v =>
        if truthy v.val ≠ neg then stmtsAt q cfg bs inc name src ρ then_ w
        else match else_ with
          | some ss => stmtsAt q cfg bs inc name src ρ ss w
          | none => fun a res b => res = .ok w ∧ a ≤ b) c res b
  | .forLoop vars e body, w => fun a res b => ∃ r c, evalAt q cfg bs src ρ e a r c ∧
      andThenAt name w r (fun v =>
        andThenAt name w (rounds cfg.env src vars v e.span) fun rs =>
          forEachAt (fun x => stmtsAt q cfg bs inc name src (x :: ρ) body) rs w) c res b
  | .with_ e n body, w => fun a res b => ∃ r c, evalAt q cfg bs src ρ e a r c ∧
      andThenAt name w r (fun v => stmtsAt q cfg bs inc name src (.name (withName q src n) v :: ρ) body w) c res b

/-- Statements, in order. -/
def stmtsAt (q : Quirks) (cfg : RenderCfg σ) (bs : Nat → Behaviour) (inc : IncludeAt σ) (name : Option Str) (src : Str) (ρ : Scope) :
    List Stmt → World σ → Timed (RunRes σ)
  | [], w => fun a res b => res = .ok w ∧ a ≤ b
  | s :: ss, w => seqAt (within (stmtAt q cfg bs inc name src ρ s w)) (stmtsAt q cfg bs inc name src ρ ss)
end

/-- Including a template when `left` more levels of nesting are allowed. -/
def includeAt (tree : Template → Tree) : Nat → IncludeAt σ
  | left, n, src, name, ρ, w =>
    match find cfg src n w with
    | (w, .ok t) =>
      match left with
      | 0 => fun a res b => res = .err (depthErr cfg.maxIncludeDepth) w ∧ a ≤ b
      | left + 1 => stmtsAt q cfg bs (includeAt tree left) (some n.name) (tree t).source ρ (tree t).body w
    | (w, .err e) => fun a res b => res = .err (e.attachName name) w ∧ a ≤ b
    | (_, .crash) => fun a res b => res = .crash ∧ a ≤ b

/-- Rendering a template. -/
def renderAt (tree : Template → Tree) (t : Tree) (name : Option Str) (ρ : Scope) (w : World σ) : Timed (RunRes σ) :=
  stmtsAt q cfg bs (includeAt q cfg bs tree (cfg.maxIncludeDepth - 1)) name t.source ρ t.body w

end

/-- The functions do what they do at the moment. -/
def _root_.Upon.Renderer.acting (act : Behaviour) (r : Renderer) : Renderer :=
  { r with
    engine := { r.engine with functions := act.functions, defaultFormatter := act.defaultFormatter }
    globals := match r.globals with
      | .fn _ => .fn act.valueFn
      | g => g }

/-- What the functions given to the engine and the renderer do, if they do the same each time. -/
def _root_.Upon.Renderer.own (r : Renderer) : Behaviour :=
  ⟨r.engine.functions, r.engine.defaultFormatter, match r.globals with
    | .fn f => f
    | _ => fun _ => .ok .none⟩

/-- The text of the templates needed, and all that the default formatter and the other formatters used in these templates ever write
satisfies `P`. -/
structure AlwaysAirtight (env : Env) (tree : Template → Tree) (T : Tree) (r : Renderer) (bs : Nat → Behaviour) (P : Str → Prop) : Prop where
  text : ∀ U, Needs (r.cfg env stringSink) tree T U → ∀ s, HasText U s → P s
  shown : ∀ t v, OnlyWrites P ((bs t).defaultFormatter v)
  named : ∀ t U, Needs (r.cfg env stringSink) tree T U → ∀ n f, HasFormatter U n → BMap.get (bs t).functions n = some (.formatter f) →
    ∀ v, OnlyWrites P (f v)

end Upon.Spec
