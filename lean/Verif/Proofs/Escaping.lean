import Verif.Spec.Escaping
import Verif.Props.Blame
/-
An invariant of the output that each safe write keeps is kept by a render (for C47).
-/
namespace Upon
open Spec
variable {σ : Type}

namespace Escaping

/-- The state after the run satisfies `J`. -/
def After (J : σ → Prop) : RunRes σ → Prop
  | .ok w => J w.out
  | .err _ w => J w.out
  | .crash => True

variable {J : σ → Prop} {P : Str → Prop} {cfg : RenderCfg σ} {tree : Template → Tree} {q : Quirks}

theorem after_seq {r : RunRes σ} {k : World σ → RunRes σ} (h : After J r) (hk : ∀ w, J w.out → After J (k w)) : After J (seq r k) := by
  cases r with
  | ok w => exact hk w h
  | err e w => exact h
  | crash => exact h

theorem after_andThen {α : Type} {name : Option Str} {w : World σ} (r : Res α) {k : α → RunRes σ} (h : J w.out)
    (hk : ∀ a, r = .ok a → After J (k a)) : After J (andThen name w r k) := by
  cases r with
  | ok a => exact hk a rfl
  | err e => exact h
  | crash => trivial

theorem after_forEach {α : Type} {f : α → World σ → RunRes σ} (hf : ∀ a w, J w.out → After J (f a w)) (as : List α) {w : World σ} (h : J w.out) :
    After J (forEach f as w) := by
  induction as generalizing w with
  | nil => exact h
  | cons a as ih => exact after_seq (hf a w h) fun w h => ih h

section
variable (hJ : ∀ s t, J s → P t → J (cfg.sink.write s t).1)
include hJ

theorem after_run {p : FmtProg} (hp : OnlyWrites P p) {s : σ} (h : J s) : J (p.run cfg.sink s).1 := by
  induction hp generalizing s with
  | done r => exact h
  | write hs _ ih => rw [FmtProg.run]; exact ih _ (hJ _ _ h hs)

theorem after_write {name : Option Str} {f : Formatter} {v : Value} (hf : OnlyWrites P (f v)) (src : Str) (sp : Span) {w : World σ} (h : J w.out) :
    After J (write cfg name f v src sp w) := by
  have := after_run hJ hf h
  unfold write
  split <;> rename_i e <;> rw [e] at this
  · exact this
  · exact after_andThen _ this fun _ _ => trivial

/-- What the trees `S` can write is safe. -/
structure Sound (S : Tree → Prop) (P : Str → Prop) (cfg : RenderCfg σ) (tree : Template → Tree) : Prop where
  text : ∀ U, S U → ∀ s, HasText U s → P s
  shown : ∀ v, OnlyWrites P (cfg.defaultFormatter v)
  named : ∀ U, S U → ∀ n f, HasFormatter U n → BMap.get cfg.functions n = some (.formatter f) → ∀ v, OnlyWrites P (f v)
  registered : ∀ T, S T → ∀ n t, HasInclude T n → cfg.templateFn = none → BMap.get cfg.templates n = some t → S (tree t)
  provided : ∀ T, S T → ∀ n t f asked, HasInclude T n → cfg.templateFn = some f → f asked n = .ok t → S (tree t)

variable {S : Tree → Prop} (hS : Sound S P cfg tree)
include hS

theorem after_emit {T : Tree} (hT : S T) {e : Expr} (he : e ∈ stmtsShown T.body) (name : Option Str) (ρ : Scope) {w : World σ} (h : J w.out) :
    After J (emitExpr q cfg name T.source ρ e w) := by
  rw [emitExpr.eq_def]
  split
  · rename_i i recv sp
    refine after_andThen _ h fun v _ => after_andThen _ h fun n hn => ?_
    split
    · rename_i f hf
      refine after_write hJ (hS.named T hT n f ⟨i, recv, sp, he, ?_⟩ hf _) _ _ h
      cases hs : i.span.of T.source with
      | none => rw [hs] at hn; cases hn
      | some x => rw [hs] at hn; cases hn; rfl
    · exact after_andThen _ h fun r _ => after_write hJ (hS.shown _) _ _ h
    · exact after_andThen _ h fun _ _ => trivial
  · exact after_andThen _ h fun r _ => after_write hJ (hS.shown _) _ _ h

section
variable {T : Tree} (hT : S T) {inc : Include σ}
  (hinc : ∀ n, HasInclude T n.name → ∀ src name ρ w, J w.out → After J (inc n src name ρ w))
include hT hinc

mutual
theorem after_stmt (name : Option Str) (ρ : Scope) (s : Stmt) (h1 : ∀ sp ∈ stmtRaws s, sp ∈ stmtsRaws T.body)
    (h2 : ∀ e ∈ stmtShown s, e ∈ stmtsShown T.body) (h3 : ∀ n ∈ stmtIncludes s, n ∈ stmtsIncludes T.body) {w : World σ} (h : J w.out) :
    After J (evalStmt q cfg inc name T.source ρ s w) := by
  match s with
  | .raw sp =>
    rw [evalStmt]
    refine after_andThen _ h fun t ht => ?_
    have hp : P t := by
      refine hS.text T hT t ⟨sp, h1 sp (by simp [stmtRaws]), ?_⟩
      cases hs : sp.of T.source with
      | none => rw [hs] at ht; cases ht
      | some x => rw [hs] at ht; cases ht; rfl
    have := hJ w.out t h hp
    split <;> rename_i e <;> rw [e] at this <;> exact this
  | .inlineExpr e sp => rw [evalStmt]; exact after_emit hJ hS hT (h2 e (by simp [stmtShown])) name ρ h
  | .include_ n none => rw [evalStmt]; exact hinc n ⟨n, h3 n (by simp [stmtIncludes]), rfl⟩ _ _ _ _ h
  | .include_ n (some e) =>
    rw [evalStmt]
    exact after_andThen _ h fun v _ => hinc n ⟨n, h3 n (by simp [stmtIncludes]), rfl⟩ _ _ _ _ h
  | .ifElse neg c t none =>
    rw [evalStmt]
    refine after_andThen _ h fun v _ => ?_
    simp only [stmtRaws, stmtShown, stmtIncludes] at h1 h2 h3
    split
    · exact after_stmts name ρ t h1 h2 h3 h
    · exact h
  | .ifElse neg c t (some f) =>
    rw [evalStmt]
    refine after_andThen _ h fun v _ => ?_
    simp only [stmtRaws, stmtShown, stmtIncludes, List.mem_append] at h1 h2 h3
    split
    · exact after_stmts name ρ t (fun x hx => h1 x (.inl hx)) (fun x hx => h2 x (.inl hx)) (fun x hx => h3 x (.inl hx)) h
    · exact after_stmts name ρ f (fun x hx => h1 x (.inr hx)) (fun x hx => h2 x (.inr hx)) (fun x hx => h3 x (.inr hx)) h
  | .forLoop vs e b =>
    rw [evalStmt]
    simp only [stmtRaws, stmtShown, stmtIncludes] at h1 h2 h3
    exact after_andThen _ h fun v _ => after_andThen _ h fun bs _ => after_forEach (fun a w h => after_stmts name (a :: ρ) b h1 h2 h3 h) bs h
  | .with_ e n b =>
    rw [evalStmt]
    simp only [stmtRaws, stmtShown, stmtIncludes] at h1 h2 h3
    exact after_andThen _ h fun v _ => after_stmts name _ b h1 h2 h3 h
theorem after_stmts (name : Option Str) (ρ : Scope) (ss : List Stmt) (h1 : ∀ sp ∈ stmtsRaws ss, sp ∈ stmtsRaws T.body)
    (h2 : ∀ e ∈ stmtsShown ss, e ∈ stmtsShown T.body) (h3 : ∀ n ∈ stmtsIncludes ss, n ∈ stmtsIncludes T.body) {w : World σ} (h : J w.out) :
    After J (evalStmts q cfg inc name T.source ρ ss w) := by
  match ss with
  | [] => rw [evalStmts]; exact h
  | s :: ss =>
    rw [evalStmts]
    simp only [stmtsRaws, stmtsShown, stmtsIncludes, List.mem_append] at h1 h2 h3
    exact after_seq (after_stmt name ρ s (fun x hx => h1 x (.inl hx)) (fun x hx => h2 x (.inl hx)) (fun x hx => h3 x (.inl hx)) h)
      fun w h => after_stmts name ρ ss (fun x hx => h1 x (.inr hx)) (fun x hx => h2 x (.inr hx)) (fun x hx => h3 x (.inr hx)) h
end
end

theorem after_find {T : Tree} (hT : S T) {n : AstString} (hn : HasInclude T n.name) (src : Str) (w : World σ) :
    (find cfg src n w).1.out = w.out ∧ ∀ t, (find cfg src n w).2 = .ok t → S (tree t) := by
  unfold find
  cases hf : cfg.templateFn with
  | none =>
    refine ⟨rfl, fun t ht => ?_⟩
    dsimp only at ht
    cases hr : BMap.get cfg.templates n.name with
    | none => rw [hr] at ht; exact absurd ht errRender_ok
    | some t' => rw [hr] at ht; cases ht; exact hS.registered T hT _ _ hn hf hr
  | some f =>
    refine ⟨rfl, fun t ht => ?_⟩
    dsimp only at ht
    cases hr : f w.asked n.name with
    | error e => rw [hr] at ht; exact absurd ht errRender_ok
    | ok t' => rw [hr] at ht; cases ht; exact hS.provided T hT _ _ f _ hn hf hr

theorem after_include (left : Nat) : ∀ {T : Tree}, S T → ∀ n, HasInclude T n.name → ∀ src name ρ w, J w.out →
    After J (include_ q cfg tree left n src name ρ w) := by
  induction left with
  | zero =>
    intro T hT n hn src name ρ w h
    rw [include_]
    have := (after_find hJ hS hT hn src w).1
    split
    · rename_i w' t e; rw [e] at this; show J w'.out; rw [this]; exact h
    · rename_i w' t e; rw [e] at this; show J w'.out; rw [this]; exact h
    · trivial
  | succ left ih =>
    intro T hT n hn src name ρ w h
    rw [include_]
    obtain ⟨k1, k2⟩ := after_find hJ hS hT hn src w
    split
    · rename_i w' t e
      rw [e] at k1 k2
      have hU := k2 t rfl
      exact after_stmts hJ hS hU (fun n hn src name ρ w h => ih hU n hn src name ρ w h) _ _ _ (fun _ h => h) (fun _ h => h) (fun _ h => h)
        (by rw [k1]; exact h)
    · rename_i w' t e; rw [e] at k1; show J w'.out; rw [k1]; exact h
    · trivial

theorem after_render {T : Tree} (hT : S T) (name : Option Str) (ρ : Scope) {w : World σ} (h : J w.out) :
    After J (render q cfg tree T name ρ w) :=
  after_stmts hJ hS hT (after_include hJ hS _ hT) _ _ _ (fun _ h => h) (fun _ h => h) (fun _ h => h) h

end
end Escaping
end Upon
