import Verif.Spec.Explicit
import Verif.Proofs.Refactor
/-
The default formatter is used where no formatter is named (for C77).
-/
namespace Upon
open Spec

namespace Plain
section
variable {cfg cfg' : Cfg} {f : Str}

/-- Configurations that differ only in the default formatter; that of the first has a name. -/
structure NamedCfg (f : Str) (cfg cfg' : Cfg) : Prop where
  env : cfg.env = cfg'.env
  functions : cfg.functions = cfg'.functions
  name : BMap.get cfg.functions f = some (.formatter cfg.defaultFormatter)

theorem NamedCfg.expr (k : NamedCfg f cfg cfg') (ρ : Scope) (e : Expr) : evalExpr cfg ρ e = evalExpr cfg' ρ e := by
  induction e with
  | base b => rfl
  | call n as r ih => rw [evalExpr, evalExpr, ih, k.env, k.functions]

theorem emit_named (k : NamedCfg f cfg cfg') (name : Option Str) (ρ : Scope) (e : Expr) (w : World Str) :
    emitExpr cfg' name ρ (.call f none e) w = andThen name w (evalExpr cfg ρ e) fun v => write name cfg.defaultFormatter v.val w := by
  simp only [emitExpr, ← k.expr, ← k.functions, k.name]

theorem emit_explicit (k : NamedCfg f cfg cfg') (name : Option Str) (ρ : Scope) {e e' : Expr} (h : Named cfg.functions f e e') (w : World Str) :
    emitExpr cfg name ρ e w = emitExpr cfg' name ρ e' w := by
  cases h with
  | base => rw [emit_named k]; rfl
  | args => rw [emit_named k]; rfl
  | filter h =>
    obtain ⟨g, hg⟩ := h
    rw [emit_named k]
    simp only [emitExpr, evalExpr, hg, Option.getD_none]
    cases evalExpr cfg ρ _ with
    | ok v =>
      show andThen name w (applyFilter cfg.env ρ g v []) _ = andThen name w (applyFilter cfg.env ρ g v [] >>= _) _
      cases applyFilter cfg.env ρ g v [] <;> rfl
    | err e => rfl
    | crash => rfl
  | formatter h =>
    simp only [emitExpr, ← k.expr, ← k.functions]
    congr 1
    funext v
    split
    · rfl
    · exact absurd ⟨_, by assumption⟩ h
    · rfl

theorem stmts_explicit (k : NamedCfg f cfg cfg') {inc inc' : Include} (hi : ∀ n name ρ w, inc n name ρ w = inc' n name ρ w) (name : Option Str) (ρ : Scope)
    {ss ss' : List Stmt} (h : Explicit cfg.functions f ss ss') (w : World Str) : evalStmts cfg inc name ρ ss w = evalStmts cfg' inc' name ρ ss' w := by
  obtain rfl : inc = inc' := by funext n name ρ w; exact hi n name ρ w
  induction h generalizing ρ w with
  | nil => rw [evalStmts, evalStmts]
  | char _ ih =>
    rw [evalStmts, evalStmts, evalStmt, evalStmt]
    exact ih ρ _
  | expr he _ ih =>
    rw [evalStmts, evalStmts, evalStmt, evalStmt, emit_explicit k name ρ he]
    congr 1
    funext w
    exact ih ρ w
  | @include_ n e _ _ _ ih =>
    rw [evalStmts, evalStmts]
    congr 1
    · cases e with
      | none => rw [evalStmt, evalStmt]
      | some e => rw [evalStmt, evalStmt, k.expr]
    · funext w
      exact ih ρ w
  | ifThen _ _ iha ih =>
    rw [evalStmts, evalStmts, evalStmt, evalStmt, k.expr]
    simp only [iha]
    congr 1
    funext w
    exact ih ρ w
  | ifElse _ _ _ iha ihb ih =>
    rw [evalStmts, evalStmts, evalStmt, evalStmt, k.expr]
    simp only [iha, ihb]
    congr 1
    funext w
    exact ih ρ w
  | for_ _ _ ihb ih =>
    rw [evalStmts, evalStmts, evalStmt, evalStmt, k.expr]
    congr 1
    · congr 1
      funext v
      congr 1
      funext bs
      congr 1
      funext b w
      exact ihb (b :: ρ) w
    · funext w
      exact ih ρ w
  | with_ _ _ ihb ih =>
    rw [evalStmts, evalStmts, evalStmt, evalStmt, k.expr]
    simp only [ihb]
    congr 1
    funext w
    exact ih ρ w

theorem include_explicit (k : NamedCfg f cfg cfg') (hr : cfg.record = cfg'.record) (hd : cfg.maxIncludeDepth = cfg'.maxIncludeDepth)
    (hf : ∀ a n, Answers (Explicit cfg.functions f) (cfg.find a n) (cfg'.find a n)) (left : Nat) :
    ∀ n name ρ w, include_ cfg left n name ρ w = include_ cfg' left n name ρ w := by
  have ha : ∀ n w, asked cfg n w = asked cfg' n w := fun n w => by unfold asked; rw [hr]
  induction left with
  | zero =>
    intro n name ρ w
    have := hf w.asked n
    rw [include_, include_, ← hd, ha]
    generalize cfg.find w.asked n = p, cfg'.find w.asked n = q at this
    cases this <;> rfl
  | succ left ih =>
    intro n name ρ w
    have := hf w.asked n
    rw [include_, include_, ha]
    generalize cfg.find w.asked n = p, cfg'.find w.asked n = q at this
    cases this with
    | found h => exact stmts_explicit k ih _ _ h _
    | refused => rfl

theorem render_explicit (k : NamedCfg f cfg cfg') (hr : cfg.record = cfg'.record) (hd : cfg.maxIncludeDepth = cfg'.maxIncludeDepth)
    (hf : ∀ a n, Answers (Explicit cfg.functions f) (cfg.find a n) (cfg'.find a n)) {ss ss' : List Stmt} (h : Explicit cfg.functions f ss ss')
    (name : Option Str) (ρ : Scope) (w : World Str) : render cfg ss name ρ w = render cfg' ss' name ρ w := by
  rw [render, render, ← hd]
  exact stmts_explicit k (include_explicit k hr hd hf _) name ρ h w

end
end Plain
end Upon
