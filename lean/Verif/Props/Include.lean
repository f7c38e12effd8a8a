import Verif.Props.Lookup
/-
C21, C22, C30: includes and emitted expressions.
-/
namespace Upon
open Spec Compiler
variable {σ : Type} {cfg : RenderCfg σ} {k : Nat} {st : Stack} {name : Option Str} {src : Str}

/-- A piece depends only on the code. -/
theorem piece_code {src' : Str} {ss ss' : List Stmt} (h : compileTemplate src ss = compileTemplate src' ss') (w : World σ)
    (res : RunRes σ) : Piece cfg k name src ss st w res ↔ Piece cfg k name src' ss' st w res := by
  rw [Piece, Piece, h]

/-- **C21** `include "t"`, when one more template may be active, runs the body of the template found on
the caller's stack: it sees exactly what the caller sees at this place. -/
theorem C21_include (hl : Live cfg k st) {n : AstString} {w w' : World σ} {t : Template}
    (hf : getTemplate cfg src n w = (w', .ok t)) {T : Tree} (ht : compileTemplate T.source T.body = some t)
    (hk : k + 2 ≤ cfg.maxIncludeDepth) (res : RunRes σ) :
    Piece cfg k name src [.include_ n none] st w res ↔
      Piece cfg (k + 1) (some n.name) T.source T.body st w' res := by
  obtain ⟨tree, htr⟩ := trees_exist hl.compiled
  have htr := trees_of_parsed htr
  obtain ⟨ρ, hr⟩ := rel_exists hl.rounds
  rw [find_eq] at hf
  have hi := htr t (find_includable hf)
  rw [piece_iff htr hr hl.depth, piece_code (ht.trans hi.symm),
    piece_iff htr hr (k := k + 1) (by omega), evalStmts_one, evalStmt.eq_def]
  dsimp only
  obtain ⟨left, e⟩ : ∃ left, max 1 cfg.maxIncludeDepth - 1 - k = left + 1 := ⟨max 1 cfg.maxIncludeDepth - 2 - k, by omega⟩
  rw [e, include_, hf, show max 1 cfg.maxIncludeDepth - 1 - (k + 1) = left by omega]

/-- **C23** `include`, when no more template may be active, is the depth error. -/
theorem C23_too_deep (hl : Live cfg k st) {n : AstString} {w w' : World σ} {t : Template}
    (hf : getTemplate cfg src n w = (w', .ok t)) (hk : ¬ k + 2 ≤ cfg.maxIncludeDepth) (res : RunRes σ) :
    Piece cfg k name src [.include_ n none] st w res ↔ res = .err (depthErr cfg.maxIncludeDepth) w' := by
  obtain ⟨tree, ρ, _, _, hx, h⟩ := live_piece (src := src) (name := name) hl
  have := hl.depth
  rw [find_eq] at hf
  rw [h, evalStmts_one, evalStmt.eq_def]
  dsimp only
  rw [show max 1 cfg.maxIncludeDepth - 1 - k = 0 by omega, include_, hf]

/-- **C21**, **C27** If no template is found the include fails, with the error of the search. -/
theorem C21_unknown (hl : Live cfg k st) {n : AstString} {w w' : World σ} {e : Err}
    (hf : getTemplate cfg src n w = (w', .err e)) (res : RunRes σ) :
    Piece cfg k name src [.include_ n none] st w res ↔ res = .err (e.attachName name) w' := by
  obtain ⟨tree, ρ, _, _, hx, h⟩ := live_piece (src := src) (name := name) hl
  rw [find_eq] at hf
  rw [h, evalStmts_one, evalStmt.eq_def]
  dsimp only
  rw [include_, hf]

/-! A wall hides everything beyond it -/

section wall
variable (q : Quirks) (ρ ρ' : Scope)

theorem resolve_wall (env : Env) (src : Str) (v : Var) :
    resolve q env src (ρ ++ .wall :: ρ') v = resolve q env src ρ v := by
  induction ρ with
  | nil => exact errRender_bind env _ src _ _
  | cons b ρ ih =>
    rw [List.cons_append, resolve, resolve]
    congr 1; funext o
    cases o with
    | none => exact ih
    | some c => rfl

theorem evalArg_wall (env : Env) (src : Str) (t : ArgTy) (a : BaseExpr) :
    evalArg q env src (ρ ++ .wall :: ρ') t a = evalArg q env src ρ t a := by
  cases a with
  | lit l => rfl
  | var v => rw [evalArg, evalArg, resolve_wall]

theorem evalArgs_wall (env : Env) (src : Str) (ts : List ArgTy) (as : List BaseExpr) :
    evalArgs q env src (ρ ++ .wall :: ρ') ts as = evalArgs q env src ρ ts as := by
  induction ts generalizing as with
  | nil => rfl
  | cons t ts ih =>
    cases as with
    | nil => rfl
    | cons a as => rw [evalArgs, evalArgs, evalArg_wall, ih]

theorem applyFilter_wall (env : Env) (src : Str) (f : Filter) (name : Ident) (v : Cow) (args : List BaseExpr) :
    applyFilter q env src (ρ ++ .wall :: ρ') f name v args = applyFilter q env src ρ f name v args := by
  rw [applyFilter, applyFilter, evalArgs_wall]

theorem evalExpr_wall (src : Str) (e : Expr) :
    evalExpr q cfg src (ρ ++ .wall :: ρ') e = evalExpr q cfg src ρ e := by
  induction e with
  | base b => cases b with
    | var v => exact resolve_wall q ρ ρ' _ src v
    | lit l => rfl
  | call name args recv sp ih =>
    rw [evalExpr, evalExpr, ih]
    congr 1; funext v; congr 1; funext n
    cases BMap.get cfg.functions n with
    | none => rfl
    | some f => cases f with
      | formatter f => rfl
      | filter f => dsimp only; rw [applyFilter_wall]

theorem emitExpr_wall (name : Option Str) (src : Str) (e : Expr) (w : World σ) :
    emitExpr q cfg name src (ρ ++ .wall :: ρ') e w = emitExpr q cfg name src ρ e w := by
  cases e with
  | base b => rw [emitExpr, emitExpr, evalExpr_wall]; all_goals simp
  | call fn args recv sp =>
    cases args with
    | some a => rw [emitExpr, emitExpr, evalExpr_wall]; all_goals simp
    | none =>
      rw [emitExpr, emitExpr, evalExpr_wall]
      congr 1; funext v; congr 1; funext n
      cases BMap.get cfg.functions n with
      | none => rfl
      | some f => cases f with
        | formatter f => rfl
        | filter f => dsimp only; rw [applyFilter_wall]

theorem forEach_congr {α : Type} {f g : α → World σ → RunRes σ} (l : List α) (h : ∀ a w, f a w = g a w) (w : World σ) :
    forEach f l w = forEach g l w := by
  have : f = g := by funext a w; exact h a w
  rw [this]

variable {inc : Include σ} (hinc : ∀ (ρ ρ' : Scope) n src name w, inc n src name (ρ ++ .wall :: ρ') w = inc n src name ρ w)
include hinc

mutual
theorem evalStmt_wall (s : Stmt) (ρ ρ' : Scope) (name : Option Str) (src : Str) (w : World σ) :
    evalStmt q cfg inc name src (ρ ++ .wall :: ρ') s w = evalStmt q cfg inc name src ρ s w := by
  match s with
  | .raw sp => rw [evalStmt, evalStmt]
  | .inlineExpr e sp => rw [evalStmt, evalStmt]; exact emitExpr_wall q ρ ρ' name src e w
  | .include_ n none => rw [evalStmt, evalStmt]; exact hinc _ _ _ _ _ _
  | .include_ n (some e) =>
    rw [evalStmt, evalStmt, evalExpr_wall]
    congr 1; funext v
    exact (hinc [.globals v] (ρ ++ .wall :: ρ') n src name w).trans (hinc [.globals v] ρ n src name w).symm
  | .ifElse neg cond thn none =>
    rw [evalStmt.eq_def, evalStmt.eq_def]
    dsimp only
    rw [evalExpr_wall]
    congr 1; funext v
    rw [evalStmts_wall thn]
  | .ifElse neg cond thn (some els) =>
    rw [evalStmt.eq_def, evalStmt.eq_def]
    dsimp only
    rw [evalExpr_wall]
    congr 1; funext v
    rw [evalStmts_wall thn, evalStmts_wall els]
  | .forLoop vars e body =>
    rw [evalStmt.eq_def, evalStmt.eq_def]
    dsimp only
    rw [evalExpr_wall]
    congr 1; funext v; congr 1; funext bs
    exact forEach_congr bs (fun b w => evalStmts_wall body (b :: ρ) ρ' name src w) w
  | .with_ e n body =>
    rw [evalStmt.eq_def, evalStmt.eq_def]
    dsimp only
    rw [evalExpr_wall]
    congr 1; funext v
    exact evalStmts_wall body (_ :: ρ) ρ' name src w
theorem evalStmts_wall (ss : List Stmt) (ρ ρ' : Scope) (name : Option Str) (src : Str) (w : World σ) :
    evalStmts q cfg inc name src (ρ ++ .wall :: ρ') ss w = evalStmts q cfg inc name src ρ ss w := by
  match ss with
  | [] => rfl
  | s :: ss =>
    rw [evalStmts, evalStmts, evalStmt_wall s]
    congr 1; funext w
    exact evalStmts_wall ss ρ ρ' name src w
end
end wall

theorem include_wall (q : Quirks) (tree : Template → Tree) (left : Nat) : ∀ (ρ ρ' : Scope) n src name w,
    include_ q cfg tree left n src name (ρ ++ .wall :: ρ') w = include_ q cfg tree left n src name ρ w := by
  induction left with
  | zero =>
    intro ρ ρ' n src name w
    rw [include_, include_]
  | succ left ih =>
    intro ρ ρ' n src name w
    rw [include_, include_]
    rcases find cfg src n w with ⟨w', r⟩
    cases r with
    | ok t => exact evalStmts_wall q ih _ _ _ _ _ _
    | err e => rfl
    | crash => rfl

/-- **C22** `include "t" with e` runs the body of the template with the value of `e` as its only scope:
nothing of the caller's stack has any influence on it. -/
theorem C22_include_with (hl : Live cfg k st) {n : AstString} {e : Expr} {v : Cow} (hv : valueOf cfg src st e = .ok v)
    {w w' : World σ} {t : Template} (hf : getTemplate cfg src n w = (w', .ok t)) {T : Tree}
    (ht : compileTemplate T.source T.body = some t) (hk : k + 2 ≤ cfg.maxIncludeDepth) (res : RunRes σ) :
    Piece cfg k name src [.include_ n (some e)] st w res ↔
      Piece cfg (k + 1) (some n.name) T.source T.body [.scope v] w' res := by
  obtain ⟨tree, htr⟩ := trees_exist hl.compiled
  have htr := trees_of_parsed htr
  obtain ⟨ρ, hr⟩ := rel_exists hl.rounds
  rw [find_eq] at hf
  have hi := htr t (find_includable hf)
  rw [valueOf_eq cfg src hr] at hv
  rw [piece_iff htr hr hl.depth, piece_code (ht.trans hi.symm),
    piece_iff htr (Rel.scope v Rel.nil) (k := k + 1) (by omega), evalStmts_one, evalStmt.eq_def]
  simp only [hv, andThen]
  obtain ⟨left, e⟩ : ∃ left, max 1 cfg.maxIncludeDepth - 1 - k = left + 1 := ⟨max 1 cfg.maxIncludeDepth - 2 - k, by omega⟩
  rw [e, include_, hf, show max 1 cfg.maxIncludeDepth - 1 - (k + 1) = left by omega]
  dsimp only
  have := evalStmts_wall (cfg := cfg) asBuilt (include_wall (cfg := cfg) asBuilt tree left) (tree t).body [.globals v] ρ (some n.name)
    (tree t).source w'
  rw [List.singleton_append] at this
  rw [this]

/-- **C22** If the value cannot be computed nothing is included. -/
theorem C22_error (hl : Live cfg k st) {n : AstString} {e : Expr} {err : Err} (hv : valueOf cfg src st e = .err err)
    (w : World σ) (res : RunRes σ) :
    Piece cfg k name src [.include_ n (some e)] st w res ↔ res = .err (err.attachName name) w := by
  obtain ⟨tree, ρ, _, _, hx, h⟩ := live_piece (src := src) (name := name) hl
  rw [hx] at hv
  rw [h, evalStmts_one, evalStmt.eq_def]
  simp only [hv, andThen]

/-- **C22** Isolation, seen from the outside: two callers with any stacks, that include the same template
with the same value, get the same result. -/
theorem C22_isolated (hl : Live cfg k st) {st' : Stack} (hl' : Live cfg k st') {name' : Option Str} {src' : Str}
    {n n' : AstString} {e e' : Expr} {v : Cow} (hv : valueOf cfg src st e = .ok v) (hv' : valueOf cfg src' st' e' = .ok v)
    (hn : n.name = n'.name) {w w' : World σ} {t : Template} (hf : getTemplate cfg src n w = (w', .ok t))
    (hf' : getTemplate cfg src' n' w = (w', .ok t)) (hk : k + 2 ≤ cfg.maxIncludeDepth) (res : RunRes σ) :
    Piece cfg k name src [.include_ n (some e)] st w res ↔ Piece cfg k name' src' [.include_ n' (some e')] st' w res := by
  obtain ⟨T, hT⟩ := compiled_parsed (hl.compiled t (find_includable (src := src) (n := n) (w := w) (w' := w') (by rw [← find_eq]; exact hf)))
  rw [C22_include_with hl hv hf hT.code hk, C22_include_with hl' hv' hf' hT.code hk, hn]

/-! Emitted expressions -/

/-- Run a formatter on a value; if it fails, the error carries its message and the place `sp`. -/
def Spec.formats (cfg : RenderCfg σ) (name : Option Str) (f : Formatter) (v : Value) (src : Str) (sp : Span) (w : World σ)
    (res : RunRes σ) : Prop :=
  match (f v).run cfg.sink w.out with
  | (out, .ok ()) => res = .ok { w with out }
  | (out, .error reason) => ∃ p, Pretty.build cfg.env src sp = some p ∧
      res = .err (Err.attachName ⟨.format, none, reason, some p⟩ name) { w with out }

theorem write_formats {f : Formatter} {v : Value} {sp : Span} (hne : src ≠ []) (hin : SpanIn src sp) {w : World σ}
    {res : RunRes σ} : res = write cfg name f v src sp w ↔ formats cfg name f v src sp w res := by
  obtain ⟨t, ht⟩ := hin
  obtain ⟨p, hp⟩ := pretty_isSome cfg.env hne ht
  rw [write, formats]
  rcases (f v).run cfg.sink w.out with ⟨out, r⟩
  cases r with
  | ok u => exact Iff.rfl
  | error reason =>
    simp only [formatFault, hp, andThen]
    constructor
    · rintro rfl; exact ⟨p, rfl, rfl⟩
    · rintro ⟨p', h, rfl⟩; cases h; rfl

/-- **C30** `{{ e | f }}` where `f` is a formatter: it formats the value of `e`. -/
theorem C30_formatter (hl : Live cfg k st) {recv : Expr} {fn : Ident} {sp sp' : Span} {v : Cow}
    (hv : valueOf cfg src st recv = .ok v) {n : Str} (hn : fn.span.of src = some n) {f : Formatter}
    (hf : BMap.get cfg.functions n = some (.formatter f)) (hne : src ≠ []) (w : World σ) (res : RunRes σ) :
    Piece cfg k name src [.inlineExpr (.call fn none recv sp) sp'] st w res ↔ formats cfg name f v.val src fn.span w res := by
  obtain ⟨tree, ρ, _, _, hx, h⟩ := live_piece (src := src) (name := name) hl
  rw [hx] at hv
  rw [h, evalStmts_one, evalStmt, emitExpr, hv]
  simp only [andThen, hn, Res.ofOption, hf]
  exact write_formats hne ⟨n, hn⟩

/-- **C30** … where `f` is a filter: the default formatter formats what the filter makes of it. -/
theorem C30_filter (hl : Live cfg k st) {recv : Expr} {fn : Ident} {sp sp' : Span} (hsp : SpanIn src sp) {v : Cow}
    (hv : valueOf cfg src st recv = .ok v) {n : Str} (hn : fn.span.of src = some n) {f : Filter}
    (hf : BMap.get cfg.functions n = some (.filter f)) (hne : src ≠ []) (w : World σ) (res : RunRes σ) :
    (∀ r, callFilter cfg.env f src st fn v [] = .ok r →
      (Piece cfg k name src [.inlineExpr (.call fn none recv sp) sp'] st w res ↔
        formats cfg name cfg.defaultFormatter r src sp w res)) ∧
    (∀ e, callFilter cfg.env f src st fn v [] = .err e → Piece cfg k name src [.inlineExpr (.call fn none recv sp) sp'] st w res →
        ∃ e', res = .err e' w ∧ e'.kind = e.kind ∧ e'.reason = e.reason) := by
  obtain ⟨tree, htr⟩ := trees_exist hl.compiled
  have htr := trees_of_parsed htr
  obtain ⟨ρ, hr⟩ := rel_exists hl.rounds
  rw [valueOf_eq cfg src hr] at hv
  rw [piece_iff htr hr hl.depth, evalStmts_one, evalStmt, emitExpr, hv]
  simp only [andThen, hn, Res.ofOption, hf]
  rw [← callFilter_eq cfg.env f src hr]
  refine ⟨fun r h => ?_, fun e h => ?_⟩
  · rw [h]
    exact write_formats hne hsp
  · rw [h]
    obtain ⟨p, hp⟩ := pretty_isSome cfg.env hne hn
    cases hpe : e.pretty with
    | some q =>
      simp only [enrich, hpe]
      intro h; exact ⟨_, h, by cases name <;> exact ⟨rfl, rfl⟩⟩
    | none =>
      simp only [enrich, hpe, hp]
      intro h; exact ⟨_, h, by cases name <;> exact ⟨rfl, rfl⟩⟩

/-- **C30** … where the name is unknown: an error at the name. -/
theorem C30_unknown (hl : Live cfg k st) {recv : Expr} {fn : Ident} {sp sp' : Span} {v : Cow}
    (hv : valueOf cfg src st recv = .ok v) {n : Str} (hn : fn.span.of src = some n)
    (hf : BMap.get cfg.functions n = none) (hne : src ≠ []) (w : World σ) (res : RunRes σ) :
    Piece cfg k name src [.inlineExpr (.call fn none recv sp) sp'] st w res ↔
      ∃ p, Pretty.build cfg.env src fn.span = some p ∧
        res = .err (Err.attachName ⟨.render, none, some "unknown filter or formatter", some p⟩ name) w := by
  obtain ⟨tree, ρ, _, _, hx, h⟩ := live_piece (src := src) (name := name) hl
  rw [hx] at hv
  rw [h, evalStmts_one, evalStmt, emitExpr, hv]
  simp only [andThen, hn, Res.ofOption, hf]
  obtain ⟨p, hp⟩ := pretty_isSome cfg.env hne hn
  simp only [fault, hp]
  constructor
  · rintro rfl; exact ⟨p, rfl, rfl⟩
  · rintro ⟨p', h, rfl⟩; cases h; rfl

/-- **C30** `{{ e }}` where `e` is a name, a literal or a call with arguments: the default formatter
formats its value, or its error is the error. -/
theorem C30_default (hl : Live cfg k st) {e : Expr} {sp' : Span} (he : ∀ fn recv sp, e ≠ .call fn none recv sp)
    (hin : ExprIn src e) (hne : src ≠ []) (w : World σ) (res : RunRes σ) :
    (∀ v, valueOf cfg src st e = .ok v → (Piece cfg k name src [.inlineExpr e sp'] st w res ↔
      formats cfg name cfg.defaultFormatter v.val src e.span w res)) ∧
    (∀ err, valueOf cfg src st e = .err err → (Piece cfg k name src [.inlineExpr e sp'] st w res ↔
      res = .err (err.attachName name) w)) := by
  obtain ⟨tree, ρ, _, _, hx, h⟩ := live_piece (src := src) (name := name) hl
  have hemit : emitExpr asBuilt cfg name src ρ e w =
      andThen name w (evalExpr asBuilt cfg src ρ e) fun v => write cfg name cfg.defaultFormatter v.val src e.span w := by
    rw [emitExpr]
    exact fun fn recv sp h => he fn recv sp h
  rw [h, evalStmts_one, evalStmt, hemit, ← hx]
  refine ⟨fun v hv => ?_, fun err hv => ?_⟩
  · rw [hv]; exact write_formats hne (expr_span_in hin)
  · rw [hv]; exact Iff.rfl

/-- **C30** A formatter that is not the last call of an emitted expression (or has arguments, or stands
in a condition, a loop, a `with` or an `include`) is an error at its name, and so is an unknown name. -/
theorem C30_not_filter {recv : Expr} {fn : Ident} {args : Option Args} {sp : Span} {v : Cow}
    (hv : valueOf cfg src st recv = .ok v) {n : Str} (hn : fn.span.of src = some n) (hne : src ≠ []) :
    (∀ f, BMap.get cfg.functions n = some (.formatter f) →
      ∃ e, valueOf cfg src st (.call fn args recv sp) = .err e ∧ e.kind = .render ∧
        e.reason = some "expected filter, found formatter" ∧ e.pretty = Pretty.build cfg.env src fn.span) ∧
    (BMap.get cfg.functions n = none →
      ∃ e, valueOf cfg src st (.call fn args recv sp) = .err e ∧ e.kind = .render ∧
        e.reason = some "unknown filter" ∧ e.pretty = Pretty.build cfg.env src fn.span) := by
  obtain ⟨p, hp⟩ := pretty_isSome cfg.env hne hn
  refine ⟨fun f hf => ?_, fun hf => ?_⟩
  · rw [valueOf, hv]
    simp only [Res.ok_bind, hn, Res.ofOption, hf, fault, hp]
    exact ⟨_, rfl, rfl, rfl, rfl⟩
  · rw [valueOf, hv]
    simp only [Res.ok_bind, hn, Res.ofOption, hf, fault, hp]
    exact ⟨_, rfl, rfl, rfl, rfl⟩

end Upon
