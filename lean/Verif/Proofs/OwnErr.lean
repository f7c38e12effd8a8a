import Verif.Spec.Blame
import Verif.Props.Include
/-
Errors of lookups, filters and formatters are about the source of the running template.
-/
namespace Upon
open Spec
variable {σ : Type} {env : Env} {src : Str} {α β : Type}

/-- If this fails then with an error about the source. -/
def Own (env : Env) (src : Str) (r : Res α) : Prop := ∀ e, r = .err e → AboutSource env src e

theorem pretty_span {sp : Span} {p : Pretty} (h : Pretty.build env src sp = some p) : ∃ t, sp.of src = some t := by
  cases hs : sp.of src with
  | none => rw [Pretty.build] at h; simp only [hs] at h; cases h
  | some t => exact ⟨t, rfl⟩

namespace Own
theorem ok (a : α) : Own env src (.ok a) := fun e h => by cases h
theorem crash : Own env src (.crash : Res α) := fun e h => by cases h
theorem ofOption (o : Option α) : Own env src (Res.ofOption o) := fun e h => by cases o <;> cases h
theorem throwAt (kind : ErrKind) (m : Option String) (sp : Span) : Own env src (throwAt env kind m src sp : Res α) := by
  intro e h
  rw [Upon.throwAt] at h
  split at h
  · next p hp =>
    cases h
    obtain ⟨t, ht⟩ := pretty_span hp
    exact ⟨rfl, sp, t, p, ht, hp, rfl⟩
  · cases h
theorem err (m : String) (sp : Span) : Own env src (errRender env m src sp : Res α) := throwAt _ _ _
theorem bind {x : Res α} {f : α → Res β} (hx : Own env src x) (hf : ∀ a, Own env src (f a)) : Own env src (x >>= f) := by
  intro e h
  cases x with
  | ok a => exact hf a e h
  | err e' => cases h; exact hx _ rfl
  | crash => cases h
end Own

macro "own" : tactic => `(tactic| repeat' (first
  | with_reducible exact Own.ok _ | with_reducible exact Own.crash | with_reducible exact Own.ofOption _
  | with_reducible exact Own.err _ _ | with_reducible refine Own.bind ?_ (fun _ => ?_) | assumption | split))

theorem own_lookup (v : Value) (m : Member) : Own env src (lookup env src v m) := by
  rw [lookup.eq_def]; own

theorem own_walk (v : Value) (ms : List Member) : Own env src (walk env src v ms) := by
  induction ms generalizing v with
  | nil => exact .ok _
  | cons m ms ih =>
    rw [walk]
    refine .bind (own_lookup _ _) fun o => ?_
    cases o with
    | none => exact .ok _
    | some v' => exact ih v'

theorem own_walkMaybe (i : Nat) (v : Value) (ms : List Member) : Own env src (walkMaybe env src i v ms) := by
  induction ms generalizing v i with
  | nil => exact .ok _
  | cons m ms ih =>
    rw [walkMaybe]
    have := own_lookup (env := env) (src := src) v m
    cases h : lookup env src v m with
    | ok o =>
      cases o with
      | none => dsimp only; split <;> exact .ok _
      | some v' => exact ih _ v'
    | err e =>
      dsimp only
      split
      · exact .ok _
      · rw [h] at this
        intro e' he; cases he; exact this _ rfl
    | crash => exact .crash

theorem own_lookupPath (c : Cow) (ms : List Member) : Own env src (lookupPath env src c ms) := by
  cases c <;> rw [lookupPath] <;> refine .bind (own_walk _ _) fun o => ?_ <;> cases o <;> exact .ok _

theorem own_lookupPathMaybe (c : Cow) (ms : List Member) : Own env src (lookupPathMaybe env src c ms) := by
  cases c <;> rw [lookupPathMaybe] <;> refine .bind (own_walkMaybe _ _ _) fun o => ?_ <;>
    rcases o with _ | _ | _ <;> exact .ok _

theorem own_lookupLoop (ls : LoopState) (ms : List Member) : Own env src (ls.lookupLoop env src ms) := by
  rw [LoopState.lookupLoop.eq_def]; own

theorem own_loopVar (ls : LoopState) (v : Var) : Own env src (ls.lookupVar env src v) := by
  rw [LoopState.lookupVar.eq_def]
  split
  · exact .ok _
  · refine .bind (.ofOption _) fun n => ?_
    split
    · exact own_lookupLoop _ _
    · split
      · split
        · refine .bind (own_walk _ _) fun o => ?_
          cases o <;> exact .ok _
        · exact .ok _
      · split
        · split
          · exact .err _ _
          · exact .ok _
        · split
          · refine .bind (own_walk _ _) fun o => ?_
            cases o <;> exact .ok _
          · exact .ok _
      · exact .ok _

theorem own_members (ms : List Member) : Own env src (toValueMembers src ms) := by
  induction ms with
  | nil => exact .ok _
  | cons m ms ih =>
    rw [toValueMembers]
    refine .bind ?_ fun x => .bind ih fun xs => .ok _
    rw [toValueMember.eq_def]; own

theorem own_lookupVar (st : Stack) (v : Var) : Own env src (lookupVar env src st v) := by
  induction st with
  | nil => exact .err _ _
  | cons s st ih =>
    cases s with
    | valueFn f =>
      rw [lookupVar]
      refine .bind (own_members _) fun path => ?_
      split
      · exact .ok _
      · exact .err _ _
    | scope c =>
      rw [lookupVar]
      refine .bind (own_lookupPathMaybe _ _) fun o => ?_
      cases o
      · exact ih
      · exact .ok _
    | var n c =>
      rw [lookupVar]
      refine .bind (.ofOption _) fun a => .bind (.ofOption _) fun b => ?_
      split
      · exact own_lookupPath _ _
      · exact ih
    | loop ls =>
      rw [lookupVar]
      refine .bind (own_loopVar _ _) fun o => ?_
      cases o
      · exact ih
      · exact .ok _
    | boundary => exact .err _ _

theorem own_getArg (st : Stack) (t : ArgTy) (x : BaseExpr) : Own env src (getArg env src st t x) := by
  cases x with
  | lit l => rw [getArg]; split; exact .ok _; exact .err _ _
  | var v =>
    rw [getArg]
    refine .bind (own_lookupVar _ _) fun c => ?_
    cases c <;> dsimp only <;> split <;> first | exact .ok _ | exact .err _ _

theorem own_getArgs (st : Stack) (ts : List ArgTy) (xs : List BaseExpr) : Own env src (getArgs env src st ts xs) := by
  induction ts generalizing xs with
  | nil => exact .ok _
  | cons t ts ih =>
    cases xs with
    | nil => exact .crash
    | cons x xs => rw [getArgs]; exact .bind (own_getArg _ _ _) fun a => .bind (ih xs) fun as => .ok _

theorem own_fromState (st : Stack) (f : Filter) (n : Ident) (v : Cow) (args : List BaseExpr) :
    Own env src (fromState env f src st n v args) := by
  rw [fromState]
  split
  · split
    · exact .bind (own_getArgs _ _ _) fun as => .ok _
    · split
      · exact .err _ _
      · exact .crash
  · exact .err _ _

/-- A filter's own error gets its place from `enrich`. -/
theorem own_call (st : Stack) (f : Filter) (n : Ident) (v : Cow) (args : List BaseExpr) :
    Own env src (enrich env src n.span (callFilter env f src st n v args)) := by
  rw [callFilter]
  have := own_fromState (env := env) (src := src) st f n v args
  cases h : fromState env f src st n v args with
  | crash => exact .crash
  | err e =>
    have := this e h
    obtain ⟨sp, t, p, _, _, hp⟩ := this.located
    rw [Res.err_bind, enrich, hp]
    intro e' he; cases he; assumption
  | ok p =>
    obtain ⟨a, as⟩ := p
    rw [Res.ok_bind]
    dsimp only
    cases f.call a as with
    | ok r => exact .ok _
    | error m =>
      dsimp only
      rw [enrich]
      dsimp only [Err.filter]
      split
      · next hp =>
        obtain ⟨t, ht⟩ := pretty_span hp
        intro e' he; cases he
        exact ⟨rfl, n.span, t, _, ht, hp, rfl⟩
      · exact .crash

theorem own_valueOf (cfg : RenderCfg σ) (st : Stack) (e : Expr) : Own cfg.env src (valueOf cfg src st e) := by
  induction e with
  | base b =>
    cases b with
    | var v => exact own_lookupVar _ _
    | lit l => exact .ok _
  | call name args recv sp ih =>
    rw [valueOf]
    refine .bind ih fun v => .bind (.ofOption _) fun n => ?_
    split
    · exact .bind (own_call _ _ _ _ _) fun r => .ok _
    · exact .err _ _
    · exact .err _ _

theorem own_loopNew (vars : LoopVars) (v : Cow) (sp : Span) : Own env src (LoopState.new env src vars v sp) := by
  rw [LoopState.new.eq_def]
  dsimp only
  own

theorem own_getTemplate (cfg : RenderCfg σ) (n : AstString) (w : World σ) : Own cfg.env src (getTemplate cfg src n w).2 := by
  rw [getTemplate]
  split
  · dsimp only; split
    · exact .ok _
    · exact .err _ _
  · dsimp only; split
    · exact .ok _
    · exact .err _ _

end Upon
