import Verif.Spec.Simplify
import Verif.Proofs.Refactor
import Verif.Proofs.Compose
/-
For C72: rewriting by what the functions of the engine do keeps the meaning.
-/
namespace Upon
open Spec

namespace Plain

/-- The evaluator's form of what a filter says. -/
def Said.res : Said → Res Value
  | .value v => .ok v
  | .refused m => fail m
  | .failed m => .err (filterErr m)

theorem given_eq (env : Env) (ρ : Scope) (ts : List ArgTy) (vs : List Value) :
    evalArgs env ρ ts (vs.map .lit) = match given env ts vs with | .ok as => .ok as | .error m => fail m := by
  induction ts generalizing vs with
  | nil => rfl
  | cons t ts ih =>
    cases vs with
    | nil => rfl
    | cons v vs =>
      simp only [List.map_cons, evalArgs, evalArg, given, ih]
      cases offer env .argument true t v with
      | error m => rfl
      | ok a =>
        cases given env ts vs with
        | ok as => rfl
        | error m => rfl

theorem apply_answers (env : Env) (ρ : Scope) (f : Filter) (c : Cow) (vs : List Value) :
    applyFilter env ρ f c (vs.map .lit) = (answers env f vs c.val).res := by
  simp only [applyFilter, answers, List.length_map, given_eq]
  split
  · rfl
  · cases offer env .value true f.val c.val with
    | error m => rfl
    | ok a =>
      cases given env f.args vs with
      | error m => rfl
      | ok as =>
        dsimp only [bind, Res.bind]
        cases f.call a as <;> rfl

variable {cfg : Cfg}

theorem eval_with (ρ : Scope) {n : Str} {f : Filter} (hf : IsFilter cfg.functions n f) (as : List Value) (e : Expr) :
    evalExpr cfg ρ (callWith n as e) = evalExpr cfg ρ e >>= fun v => (answers cfg.env f as v.val).res >>= fun r => .ok (.owned r) := by
  have key : ((if as.isEmpty then none else some (as.map Base.lit)) : Option (List Base)).getD [] = as.map .lit := by cases as <;> rfl
  rw [callWith, evalExpr, key, hf]
  simp only [apply_answers]

theorem emit_valued (name : Option Str) (ρ : Scope) {e : Expr} (he : Valued cfg.functions e) (w : World Str) :
    emitExpr cfg name ρ e w = andThen name w (evalExpr cfg ρ e) fun v => write name cfg.defaultFormatter v.val w := by
  cases e with
  | base b => rw [emitExpr]; intro _ _ h; cases h
  | call n args e =>
    cases args with
    | some as => rw [emitExpr]; intro _ _ h; cases h
    | none =>
      obtain ⟨f, hf⟩ := he
      rw [emitExpr, evalExpr, hf]
      cases evalExpr cfg ρ e with
      | ok v =>
        simp only [andThen, Option.getD_none, Res.ok_bind]
        cases applyFilter cfg.env ρ f v [] <;> rfl
      | err e => rfl
      | crash => rfl

theorem valued_with {fs : List (Str × EngFn)} {n : Str} {f : Filter} (hf : IsFilter fs n f) (as : List Value) (e : Expr) : Valued fs (callWith n as e) :=
  ⟨f, hf⟩

theorem offer_takes {env : Env} {what : Role} {lent : Bool} {t : ArgTy} {v : Value} {a : ArgVal} (h : offer env what lent t v = .ok a) : Takes env t a := by
  unfold offer at h
  split at h
  · cases h
  · split at h
    · cases h
    · cases h; exact ⟨v, by assumption⟩

theorem arg_takes {env : Env} {ρ : Scope} {t : ArgTy} {b : Base} {a : ArgVal} (h : evalArg env ρ t b = .ok a) : Takes env t a := by
  cases b with
  | lit v =>
    rw [evalArg] at h
    cases ho : offer env .argument true t v with
    | ok x => rw [ho] at h; cases h; exact offer_takes ho
    | error m => rw [ho] at h; cases h
  | var n f r =>
    rw [evalArg] at h
    cases hr : resolve ρ n f r with
    | ok c =>
      rw [hr] at h
      cases c with
      | borrowed v =>
        cases ho : offer env .argument true t v with
        | ok x => simp only [Res.ok_bind, ho] at h; cases h; exact offer_takes ho
        | error m => simp only [Res.ok_bind, ho] at h; cases h
      | owned v =>
        cases ho : offer env .argument false t v with
        | ok x => simp only [Res.ok_bind, ho] at h; cases h; exact offer_takes ho
        | error m => simp only [Res.ok_bind, ho] at h; cases h
    | err e => rw [hr] at h; cases h
    | crash => rw [hr] at h; cases h

theorem args_take {env : Env} {ρ : Scope} {ts : List ArgTy} {bs : List Base} {as : List ArgVal} (hl : bs.length = ts.length)
    (h : evalArgs env ρ ts bs = .ok as) : TakesAll env ts as := by
  induction ts generalizing bs as with
  | nil => cases h; exact .nil
  | cons t ts ih =>
    cases bs with
    | nil => cases hl
    | cons b bs =>
      rw [evalArgs] at h
      cases ha : evalArg env ρ t b with
      | ok a =>
        cases hr : evalArgs env ρ ts bs with
        | ok xs => simp only [ha, hr, Res.ok_bind] at h; cases h; exact .cons (arg_takes ha) (ih (by simpa using hl) hr)
        | err e => rw [ha, hr] at h; cases h
        | crash => rw [ha, hr] at h; cases h
      | err e => rw [ha] at h; cases h
      | crash => rw [ha] at h; cases h

theorem fuse_apply (env : Env) (ρ : Scope) {f g h : Filter} {bs : List Value} (hv : h.val = f.val) (ha : h.args = f.args)
    (hc : ∀ a xs, Takes env f.val a → TakesAll env f.args xs → ofCall (h.call a xs) = match f.call a xs with
        | .ok r => answers env g bs r
        | .error msg => .failed msg) (c : Cow) (args : List Base) :
    applyFilter env ρ f c args >>= (fun r => (answers env g bs r).res) = applyFilter env ρ h c args := by
  simp only [applyFilter, hv, ha]
  split
  · rfl
  · rename_i hl
    cases ho : offer env .value true f.val c.val with
    | error m => rfl
    | ok a =>
      dsimp only
      cases hx : evalArgs env ρ f.args args with
      | err e => rfl
      | crash => rfl
      | ok as =>
        have := hc a as (offer_takes ho) (args_take (Classical.not_not.mp hl) hx)
        simp only [Res.ok_bind]
        cases hh : h.call a as with
        | ok r =>
          cases hf : f.call a as with
          | ok r' => rw [hh, hf] at this; simp only [ofCall] at this; simp only [Res.ok_bind, ← this, Said.res]
          | error m => rw [hh, hf] at this; simp only [ofCall] at this; cases this
        | error m =>
          cases hf : f.call a as with
          | ok r' => rw [hh, hf] at this; simp only [ofCall] at this; simp only [Res.ok_bind, ← this, Said.res]
          | error m' => rw [hh, hf] at this; simp only [ofCall] at this; cases this; rfl

/-- Both the value and what is written are the same. -/
theorem equal_same (ρ : Scope) {e e' : Expr} (h : Equal cfg.env cfg.functions e e') :
    evalExpr cfg ρ e = evalExpr cfg ρ e' ∧ ∀ name w, emitExpr cfg name ρ e w = emitExpr cfg name ρ e' w := by
  have both : ∀ {e e'}, Valued cfg.functions e → Valued cfg.functions e' → evalExpr cfg ρ e = evalExpr cfg ρ e' →
      evalExpr cfg ρ e = evalExpr cfg ρ e' ∧ ∀ name w, emitExpr cfg name ρ e w = emitExpr cfg name ρ e' w :=
    fun h1 h2 h => ⟨h, fun name w => by rw [emit_valued name ρ h1, emit_valued name ρ h2, h]⟩
  induction h with
  | @sameFn n m args e he =>
    refine ⟨by rw [evalExpr, evalExpr, he], fun name w => ?_⟩
    cases args <;> simp only [emitExpr, evalExpr, he]
  | @literals n f as m g bs e hf hg hv =>
    refine both (valued_with hf as e) (valued_with hg bs e) ?_
    rw [eval_with ρ hf, eval_with ρ hg]
    simp only [hv]
  | @fuse n f m g bs k h args e hf hg hh hv ha hc =>
    refine both (valued_with hg bs _) ⟨h, hh⟩ ?_
    rw [eval_with ρ hg, evalExpr, evalExpr, hf, hh]
    cases evalExpr cfg ρ e with
    | ok v =>
      simp only [Res.ok_bind]
      rw [← fuse_apply cfg.env ρ hv ha hc]
      cases applyFilter cfg.env ρ f v (args.getD []) <;> rfl
    | err e => rfl
    | crash => rfl
  | @precompute n f as v r hf hr =>
    refine both (valued_with hf as _) trivial ?_
    rw [eval_with ρ hf, evalExpr, evalExpr, evalBase, evalBase]
    simp only [Res.ok_bind, Cow.val, hr, Said.res]
  | @skip n f as m args e hf hv =>
    have ap : ∀ (v : Cow) (f : Filter) (as : List Base), applyFilter cfg.env ρ f (.owned v.val) as = applyFilter cfg.env ρ f v as := fun v f as => rfl
    have ev : ∀ {α : Type} (k : Cow → Res α), (∀ v : Cow, k (.owned v.val) = k v) → evalExpr cfg ρ (callWith n as e) >>= k = evalExpr cfg ρ e >>= k := by
      intro α k hk
      rw [eval_with ρ hf]
      cases evalExpr cfg ρ e with
      | ok v => simp only [Res.ok_bind, hv, Said.res, hk]
      | err e => rfl
      | crash => rfl
    refine ⟨by rw [evalExpr, evalExpr]; exact ev _ fun v => by simp only [ap], fun name w => ?_⟩
    cases args with
    | none =>
      rw [emitExpr, emitExpr, eval_with ρ hf]
      cases evalExpr cfg ρ e with
      | ok v => simp only [Res.ok_bind, hv, Said.res, andThen, ap]; rfl
      | err e => rfl
      | crash => rfl
    | some as =>
      rw [emitExpr, emitExpr, evalExpr, evalExpr, ev _ fun v => by simp only [ap]]
      · intro _ _ h; cases h
      · intro _ _ h; cases h
  | @inside n args e e' _ ih =>
    refine ⟨by rw [evalExpr, evalExpr, ih.1], fun name w => ?_⟩
    cases args <;> simp only [emitExpr, evalExpr, ih.1]
  | refl => exact ⟨rfl, fun _ _ => rfl⟩
  | symm _ ih => exact ⟨ih.1.symm, fun n w => (ih.2 n w).symm⟩
  | trans _ _ ih1 ih2 => exact ⟨ih1.1.trans ih2.1, fun n w => (ih1.2 n w).trans (ih2.2 n w)⟩

theorem chars_eval (inc : Include) (name : Option Str) (ρ : Scope) (s : Str) (w : World Str) :
    evalStmts cfg inc name ρ (s.map .char) w = .ok { w with out := w.out ++ s } := by
  induction s generalizing w with
  | nil => simp [evalStmts]
  | cons c s ih => simp only [List.map_cons, evalStmts, evalStmt, seq, ih, List.append_assoc, List.singleton_append]

theorem simplified_same {a b : List Stmt} (h : Simplified cfg.env cfg.functions cfg.defaultFormatter a b) {inc : Include} (hi : Respects inc inc)
    (name : Option Str) (ρ : Scope) (w : World Str) : evalStmts cfg inc name ρ a w = evalStmts cfg inc name ρ b w := by
  induction h generalizing ρ w with
  | law h => exact law_same hi name ρ w h
  | expr h => simp only [evalStmts_single, evalStmt, (equal_same ρ h).2]
  | @cond neg e e' a b h => cases b <;> simp only [evalStmts_single, evalStmt, (equal_same ρ h).1]
  | seq h => simp only [evalStmts_single, evalStmt, (equal_same ρ h).1]
  | bound h => simp only [evalStmts_single, evalStmt, (equal_same ρ h).1]
  | passed h => simp only [evalStmts_single, evalStmt, (equal_same ρ h).1]
  | @formatter n e hn he =>
    rw [evalStmts_single, evalStmts_single, evalStmt, evalStmt, emit_valued name ρ he, emitExpr, hn]
  | @text v s hs =>
    rw [chars_eval, evalStmts_single, evalStmt, emit_valued name ρ (e := .base (.lit v)) trivial]
    have := run_shift (x := w.out) (cfg.defaultFormatter v) []
    rw [List.append_nil, hs] at this
    simp only [evalExpr, evalBase, andThen, write, Cow.val, this]
  | @once e n he =>
    rw [evalStmts_single, evalStmts_single, evalStmt, evalStmt, emit_valued name ρ he]
    congr 1
    funext v
    rw [evalStmts_single, evalStmt, emit_valued name _ (e := justName n) trivial, justName_eval]
    rfl
  | @shown n f as e hf hv he =>
    rw [evalStmts_single, evalStmts_single, evalStmt, evalStmt, emit_valued name ρ he, emit_valued name ρ (valued_with hf as e), eval_with ρ hf]
    cases evalExpr cfg ρ e with
    | ok v => simp only [Res.ok_bind, hv, Said.res, andThen, Cow.val]
    | err e => rfl
    | crash => rfl
  | @asked n f as neg e a b hf hv =>
    have key : ∀ c, evalStmt cfg inc name ρ (.ifElse neg c a b) w = andThen name w (evalExpr cfg ρ c) fun v =>
        if truthy v.val ≠ neg then evalStmts cfg inc name ρ a w else match b with
          | some ss => evalStmts cfg inc name ρ ss w
          | none => .ok w := by
      intro c; cases b <;> rw [evalStmt]
    rw [evalStmts_single, evalStmts_single, key, key, eval_with ρ hf]
    cases evalExpr cfg ρ e with
    | ok v =>
      obtain ⟨r, h1, h2⟩ := hv v.val
      simp only [Res.ok_bind, h1, Said.res, andThen]
      rw [show (Cow.owned r).val = r from rfl, h2]
    | err e => rfl
    | crash => rfl
  | refl => rfl
  | symm _ ih => exact (ih ρ w).symm
  | trans _ _ ih1 ih2 => exact (ih1 ρ w).trans (ih2 ρ w)
  | append _ _ ih1 ih2 =>
    rw [evalStmts_append, evalStmts_append, ih1]
    congr 1
    funext w
    exact ih2 ρ w
  | @then_ neg c a a' e _ ih => cases e <;> simp only [evalStmts_single, evalStmt, ih]
  | else_ _ ih => simp only [evalStmts_single, evalStmt, ih]
  | @for_ vs e b b' _ ih =>
    have hb : ∀ ρ, evalStmts cfg inc name ρ b = evalStmts cfg inc name ρ b' := fun ρ => funext (ih ρ)
    simp only [evalStmts_single, evalStmt, hb]
  | with_ _ ih => simp only [evalStmts_single, evalStmt, ih]

/-- The functions and the default formatter of a setting. -/
def Having (env : Env) (fs : List (Str × EngFn)) (fmt : Formatter) (cfg : Cfg) : Prop := cfg.env = env ∧ cfg.functions = fs ∧ cfg.defaultFormatter = fmt

theorem sound_simplified (env : Env) (fs : List (Str × EngFn)) (fmt : Formatter) : SoundFor (Having env fs fmt) (Simplified env fs fmt) := by
  intro a b h cfg cfg' hP k inc inc' hi name ρ ρ' hρ w
  obtain ⟨rfl, rfl, rfl⟩ := hP
  rw [simplified_same h hi.left name ρ w]
  exact agree_stmts k hi name hρ b w

end Plain
end Upon
