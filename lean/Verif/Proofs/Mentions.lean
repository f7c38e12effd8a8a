import Verif.Spec.Mentions
import Verif.Props.Blame
/-
Renders that agree on what the templates mention agree (for C43).
-/
namespace Upon
open Spec
variable {σ : Type}

namespace Frame

/-- Two configurations that differ in functions and templates, and two sets of globals, that agree on everything
mentioned in the trees `S`. -/
structure Agree (S : Tree → Prop) (cfg cfg' : RenderCfg σ) (tree : Template → Tree) (b b' : SState) : Prop where
  env : cfg.env = cfg'.env
  fmt : cfg.defaultFormatter = cfg'.defaultFormatter
  provider : cfg.templateFn = cfg'.templateFn
  depth : cfg.maxIncludeDepth = cfg'.maxIncludeDepth
  sink : cfg.sink = cfg'.sink
  globals : ∀ T, S T → SameGlobals T b b'
  functions : ∀ T, S T → ∀ n, HasCall T n → BMap.get cfg.functions n = BMap.get cfg'.functions n
  templates : ∀ T, S T → ∀ n, HasInclude T n → BMap.get cfg.templates n = BMap.get cfg'.templates n
  registered : ∀ T, S T → ∀ n t, HasInclude T n → cfg.templateFn = none → BMap.get cfg.templates n = some t → S (tree t)
  provided : ∀ T, S T → ∀ n t f asked, HasInclude T n → cfg.templateFn = some f → f asked n = .ok t → S (tree t)

variable {S : Tree → Prop} {cfg cfg' : RenderCfg σ} {tree : Template → Tree} {b b' : SState} {q : Quirks}

theorem get_base (h : SameGlobals T b b') {v : Var} (hv : HasVar T v) (env : Env) :
    (ofBase b).get q env T.source v = (ofBase b').get q env T.source v := by
  cases h with
  | @maps m m' h =>
    simp only [ofBase, Binding.get, Cow.val]
    have key : lookup env T.source (.map m) v.first = lookup env T.source (.map m') v.first := by
      rw [lookup.eq_def, lookup.eq_def]
      cases ha : v.first.access with
      | index i => simp [Value.human]
      | key k =>
        cases hk : k.span.of T.source with
        | none => simp [Res.ofOption, hk]
        | some n =>
          have := h n ⟨v, hv, by rw [ha]; exact hk⟩
          simp only [Res.ofOption, hk, Res.ok_bind, this]
    rw [key]
    rfl
  | @providers f f' h =>
    simp only [ofBase, Binding.get]
    cases hp : pathOf T.source v.path with
    | ok p => simp only [Res.ok_bind, h v p hv hp]
    | err e => rfl
    | crash => rfl

theorem resolve_same (h : SameGlobals T b b') {v : Var} (hv : HasVar T v) (env : Env) (l : Scope) :
    resolve q env T.source (l ++ [ofBase b]) v = resolve q env T.source (l ++ [ofBase b']) v := by
  induction l with
  | nil =>
    rw [List.nil_append, List.nil_append, resolve, resolve, get_base h hv]
    rfl
  | cons x l ih =>
    rw [List.cons_append, List.cons_append, resolve, resolve, ih]

/-- All of the expression is mentioned. -/
structure ExprIn (T : Tree) (e : Expr) : Prop where
  vars : ∀ v ∈ exprVars e, HasVar T v
  calls : ∀ i ∈ exprCalls e, ∀ n, i.span.of T.source = some n → HasCall T n

theorem evalArg_same {T : Tree} (h : SameGlobals T b b') (env : Env) (l : Scope) (t : ArgTy) {a : BaseExpr}
    (ha : ∀ v ∈ baseVars a, HasVar T v) :
    evalArg q env T.source (l ++ [ofBase b]) t a = evalArg q env T.source (l ++ [ofBase b']) t a := by
  cases a with
  | lit _ => rfl
  | var v => rw [evalArg, evalArg, resolve_same h (ha v (by simp [baseVars]))]

theorem evalArgs_same {T : Tree} (h : SameGlobals T b b') (env : Env) (l : Scope) (ts : List ArgTy) {as : List BaseExpr}
    (ha : ∀ v ∈ as.flatMap baseVars, HasVar T v) :
    evalArgs q env T.source (l ++ [ofBase b]) ts as = evalArgs q env T.source (l ++ [ofBase b']) ts as := by
  induction as generalizing ts with
  | nil => cases ts <;> rfl
  | cons a as ih =>
    cases ts with
    | nil => rfl
    | cons t ts =>
      rw [evalArgs, evalArgs, evalArg_same h env l t fun v hv => ha v (by simp [hv]),
        ih ts fun v hv => ha v (by rw [List.flatMap_cons]; exact List.mem_append_right _ hv)]

theorem applyFilter_same {T : Tree} (h : SameGlobals T b b') (env : Env) (l : Scope) (f : Filter) (name : Ident) (c : Cow)
    {as : List BaseExpr} (ha : ∀ v ∈ as.flatMap baseVars, HasVar T v) :
    applyFilter q env T.source (l ++ [ofBase b]) f name c as = applyFilter q env T.source (l ++ [ofBase b']) f name c as := by
  rw [applyFilter, applyFilter, evalArgs_same h env l _ ha]

theorem evalExpr_same (h : Agree S cfg cfg' tree b b') {T : Tree} (hT : S T) (l : Scope) {e : Expr} (he : ExprIn T e) :
    evalExpr q cfg T.source (l ++ [ofBase b]) e = evalExpr q cfg' T.source (l ++ [ofBase b']) e := by
  induction e with
  | base x =>
    rw [evalExpr, evalExpr]
    cases x with
    | lit _ => rfl
    | var v => rw [evalBase, evalBase, resolve_same (h.globals T hT) (he.vars v (by simp [exprVars, baseVars])), h.env]
  | call name args recv sp ih =>
    rw [evalExpr, evalExpr, ih ⟨fun v hv => he.vars v (by rw [exprVars]; exact List.mem_append_left _ hv),
      fun i hi => he.calls i (by rw [exprCalls]; exact List.mem_cons_of_mem _ hi)⟩]
    congr 1; funext c
    cases hn : name.span.of T.source with
    | none => rfl
    | some n =>
      have hf := h.functions T hT n (he.calls name (by simp [exprCalls]) n hn)
      simp only [Res.ofOption, Res.ok_bind]
      rw [hf, h.env]
      have ha := fun f => applyFilter_same (q := q) (h.globals T hT) cfg'.env l f name c
        (as := (args.map Args.values).getD []) fun v hv => he.vars v (by rw [exprVars]; exact List.mem_append_right _ hv)
      split
      · rw [ha]
      · rfl
      · rfl

theorem emitExpr_same (h : Agree S cfg cfg' tree b b') {T : Tree} (hT : S T) (name : Option Str) (l : Scope) {e : Expr}
    (he : ExprIn T e) (w : World σ) :
    emitExpr q cfg name T.source (l ++ [ofBase b]) e w = emitExpr q cfg' name T.source (l ++ [ofBase b']) e w := by
  have hw : ∀ f v sp w, write cfg name f v T.source sp w = write cfg' name f v T.source sp w := by
    intro f v sp w; rw [write, write, h.sink, h.env]
  match e with
  | .base x => simp only [emitExpr, evalExpr_same h hT l he, hw, h.fmt]
  | .call fn (some as) recv sp => simp only [emitExpr, evalExpr_same h hT l he, hw, h.fmt]
  | .call fn none recv sp =>
    simp only [emitExpr]
    rw [evalExpr_same h hT l (e := recv) ⟨fun v hv => he.vars v (by rw [exprVars]; exact List.mem_append_left _ hv),
      fun i hi => he.calls i (by rw [exprCalls]; exact List.mem_cons_of_mem _ hi)⟩]
    congr 1; funext c
    cases hn : fn.span.of T.source with
    | none => rfl
    | some n =>
      have hf := h.functions T hT n (he.calls fn (by simp [exprCalls]) n hn)
      simp only [Res.ofOption, andThen]
      rw [hf, h.env, h.fmt]
      have ha := fun f => applyFilter_same (q := q) (h.globals T hT) cfg'.env l f fn c (as := []) (by simp)
      simp only [ha, hw]

/-- All of the statements are mentioned. -/
structure StmtsIn (T : Tree) (es : List Expr) (is : List AstString) : Prop where
  exprs : ∀ e ∈ es, ExprIn T e
  includes : ∀ a ∈ is, HasInclude T a.name

theorem StmtsIn.sub {T : Tree} {es es' : List Expr} {is is' : List AstString} (h : StmtsIn T es is)
    (h1 : ∀ e ∈ es', e ∈ es) (h2 : ∀ a ∈ is', a ∈ is) : StmtsIn T es' is' :=
  ⟨fun e he => h.exprs e (h1 e he), fun a ha => h.includes a (h2 a ha)⟩

theorem StmtsIn.whole (T : Tree) : StmtsIn T (stmtsExprs T.body) (stmtsIncludes T.body) :=
  ⟨fun e he => ⟨fun _ hv => ⟨e, he, hv⟩, fun i hi _ hn => ⟨e, he, i, hi, hn⟩⟩, fun a ha => ⟨a, ha, rfl⟩⟩

/-- Two ways to include that agree on included templates. -/
def SameInc (T : Tree) (b b' : SState) (inc inc' : Include σ) : Prop :=
  ∀ (a : AstString), HasInclude T a.name → ∀ name (l : Scope) w,
    inc a T.source name (l ++ [ofBase b]) w = inc' a T.source name (l ++ [ofBase b']) w

theorem forEach_congr {α : Type} {f g : α → World σ → RunRes σ} (h : ∀ a w, f a w = g a w) (l : List α) (w : World σ) :
    forEach f l w = forEach g l w := by
  rw [show f = g from funext fun a => funext fun w => h a w]

mutual
theorem evalStmt_same (h : Agree S cfg cfg' tree b b') {T : Tree} (hT : S T) {inc inc' : Include σ}
    (hi : SameInc T b b' inc inc') (name : Option Str) : ∀ (s : Stmt) (l : Scope) (w : World σ),
    StmtsIn T (stmtExprs s) (stmtIncludes s) →
    evalStmt q cfg inc name T.source (l ++ [ofBase b]) s w = evalStmt q cfg' inc' name T.source (l ++ [ofBase b']) s w
  | .raw sp, l, w, _ => by rw [evalStmt, evalStmt, h.sink]
  | .inlineExpr e sp, l, w, hs => by
    rw [evalStmt, evalStmt, emitExpr_same h hT name l (hs.exprs e (by simp [stmtExprs]))]
  | .include_ n none, l, w, hs => by
    rw [evalStmt, evalStmt, hi n (hs.includes n (by simp [stmtIncludes]))]
  | .include_ n (some e), l, w, hs => by
    rw [evalStmt, evalStmt, evalExpr_same h hT l (hs.exprs e (by simp [stmtExprs]))]
    congr 1; funext v
    exact hi n (hs.includes n (by simp [stmtIncludes])) name (.globals v :: .wall :: l) w
  | .ifElse neg e t none, l, w, hs => by
    rw [evalStmt, evalStmt, evalExpr_same h hT l (hs.exprs e (by simp [stmtExprs]))]
    congr 1; funext v
    rw [evalStmts_same h hT hi name t l w (hs.sub (fun x hx => by simp [stmtExprs, hx]) fun x hx => by simp [stmtIncludes, hx])]
  | .ifElse neg e t (some f), l, w, hs => by
    rw [evalStmt, evalStmt, evalExpr_same h hT l (hs.exprs e (by simp [stmtExprs]))]
    congr 1; funext v
    rw [evalStmts_same h hT hi name t l w (hs.sub (fun x hx => by simp [stmtExprs, hx]) fun x hx => by simp [stmtIncludes, hx])]
    rw [evalStmts_same h hT hi name f l w (hs.sub (fun x hx => by simp [stmtExprs, hx]) fun x hx => by simp [stmtIncludes, hx])]
  | .forLoop vars e body, l, w, hs => by
    rw [evalStmt, evalStmt, evalExpr_same h hT l (hs.exprs e (by simp [stmtExprs])), h.env]
    congr 1; funext v
    congr 1; funext bs
    apply forEach_congr
    intro x w
    exact evalStmts_same h hT hi name body (x :: l) w
      (hs.sub (fun x hx => by simp [stmtExprs, hx]) fun x hx => by simpa [stmtIncludes] using hx)
  | .with_ e n body, l, w, hs => by
    rw [evalStmt, evalStmt, evalExpr_same h hT l (hs.exprs e (by simp [stmtExprs]))]
    congr 1; funext v
    exact evalStmts_same h hT hi name body (.name (withName q T.source n) v :: l) w
      (hs.sub (fun x hx => by simp [stmtExprs, hx]) fun x hx => by simpa [stmtIncludes] using hx)
theorem evalStmts_same (h : Agree S cfg cfg' tree b b') {T : Tree} (hT : S T) {inc inc' : Include σ}
    (hi : SameInc T b b' inc inc') (name : Option Str) : ∀ (ss : List Stmt) (l : Scope) (w : World σ),
    StmtsIn T (stmtsExprs ss) (stmtsIncludes ss) →
    evalStmts q cfg inc name T.source (l ++ [ofBase b]) ss w = evalStmts q cfg' inc' name T.source (l ++ [ofBase b']) ss w
  | [], l, w, _ => by rw [evalStmts, evalStmts]
  | s :: ss, l, w, hs => by
    rw [evalStmts, evalStmts, evalStmt_same h hT hi name s l w
      (hs.sub (fun x hx => by simp [stmtsExprs, hx]) fun x hx => by simp [stmtsIncludes, hx])]
    congr 1; funext w
    exact evalStmts_same h hT hi name ss l w
      (hs.sub (fun x hx => by simp [stmtsExprs, hx]) fun x hx => by simp [stmtsIncludes, hx])
end

theorem include_same (h : Agree S cfg cfg' tree b b') (left : Nat) {T : Tree} (hT : S T) :
    SameInc T b b' (include_ q cfg tree left) (include_ q cfg' tree left) := by
  induction left generalizing T with
  | zero =>
    intro a ha name l w
    rw [include_, include_, show find cfg T.source a w = find cfg' T.source a w from ?_, h.depth]
    rw [find, find, h.provider, h.env, h.templates T hT _ ha]
  | succ n ih =>
    intro a ha name l w
    have hf : find cfg T.source a w = find cfg' T.source a w := by
      rw [find, find, h.provider, h.env, h.templates T hT _ ha]
    rw [include_, include_, ← hf]
    cases hr : find cfg T.source a w with
    | mk w' r =>
      cases r with
      | err e => rfl
      | crash => rfl
      | ok t =>
        have hS : S (tree t) := by
          rw [find] at hr
          split at hr
          · rename_i f hff
            split at hr
            · rename_i t' ht'
              cases hr
              exact h.provided T hT _ _ f _ ha hff ht'
            · rename_i e he
              exact absurd (Prod.mk.inj hr).2 errRender_ok
          · rename_i hff
            split at hr
            · rename_i t' ht'
              cases hr
              exact h.registered T hT _ _ ha hff ht'
            · exact absurd (Prod.mk.inj hr).2 errRender_ok
        exact evalStmts_same h hS (ih hS) (some a.name) (tree t).body l w' (StmtsIn.whole (tree t))

theorem render_same (h : Agree S cfg cfg' tree b b') {T : Tree} (hT : S T) (name : Option Str) (w : World σ) :
    Spec.render q cfg tree T name [ofBase b] w = Spec.render q cfg' tree T name [ofBase b'] w := by
  rw [Spec.render, Spec.render, ← h.depth]
  exact evalStmts_same h hT (include_same h _ hT) name T.body [] w (StmtsIn.whole T)

end Frame
end Upon
