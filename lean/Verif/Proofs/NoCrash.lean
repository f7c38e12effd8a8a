import Verif.Spec.InSource
import Verif.Spec.Rendering
import Verif.Proofs.LexBasic
import Verif.Proofs.InSource
import Verif.Props.Filters
/-
Lookups and filters do not panic when the byte ranges involved lie in the source.
-/
namespace Upon
open Spec
variable {σ : Type} {env : Env} {src : Str} {α β : Type}

/-- Not a panic. -/
structure Safe (r : Res α) : Prop where
  not : r ≠ .crash

namespace Safe
theorem ok (a : α) : Safe (.ok a) := ⟨fun h => by cases h⟩
theorem fail (e : Err) : Safe (.err e : Res α) := ⟨fun h => by cases h⟩
theorem ofOption {o : Option α} {a : α} (h : o = some a) : Safe (Res.ofOption o) := ⟨by rw [h]; exact fun h => by cases h⟩
theorem span {sp : Span} (h : SpanIn src sp) : Safe (Res.ofOption (sp.of src)) := by
  obtain ⟨t, h⟩ := h
  exact .ofOption h
theorem throwAt (kind : ErrKind) (m : Option String) {sp : Span} (hne : src ≠ []) (h : SpanIn src sp) :
    Safe (throwAt env kind m src sp : Res α) := by
  obtain ⟨t, h⟩ := h
  obtain ⟨e, he⟩ := throwAt_err (α := α) env kind m hne h
  rw [he]; exact .fail e
theorem err {m : String} {sp : Span} (hne : src ≠ []) (h : SpanIn src sp) :
    Safe (errRender env m src sp : Res α) := throwAt _ _ hne h
theorem bind {x : Res α} {f : α → Res β} (hx : Safe x) (hf : ∀ a, x = .ok a → Safe (f a)) : Safe (x >>= f) := by
  cases x with
  | ok a => exact hf a rfl
  | err e => exact .fail e
  | crash => exact absurd rfl hx.not
end Safe

theorem safe_lookup (hne : src ≠ []) (v : Value) {m : Member} (hm : MemberIn src m) : Safe (lookup env src v m) := by
  have he : ∀ s, Safe (errRender env s src m.span : Res (Option Value)) := fun s => .err hne hm.1
  rw [lookup.eq_def]
  split
  · split <;> first | exact .ok _ | exact he _
  · next k hk =>
    have h2 := hm.2
    rw [hk] at h2
    refine .bind (.span h2) fun _ _ => ?_
    split <;> first | exact .ok _ | exact he _
  · exact he _
  · exact he _

theorem safe_walk (hne : src ≠ []) (v : Value) {ms : List Member} (hm : ∀ m ∈ ms, MemberIn src m) : Safe (walk env src v ms) := by
  induction ms generalizing v with
  | nil => exact .ok _
  | cons m ms ih =>
    rw [walk]
    refine .bind (safe_lookup hne _ (hm m (by simp))) fun o _ => ?_
    cases o with
    | none => exact .ok _
    | some v' => exact ih v' (fun m h => hm m (by simp [h]))

theorem safe_walkMaybe (hne : src ≠ []) (i : Nat) (v : Value) {ms : List Member} (hm : ∀ m ∈ ms, MemberIn src m) :
    Safe (walkMaybe env src i v ms) := by
  induction ms generalizing v i with
  | nil => exact .ok _
  | cons m ms ih =>
    rw [walkMaybe]
    have := safe_lookup (env := env) hne v (hm m (by simp))
    cases h : lookup env src v m with
    | ok o =>
      cases o with
      | none => dsimp only; split <;> exact .ok _
      | some v' => exact ih _ v' (fun m h => hm m (by simp [h]))
    | err e =>
      dsimp only
      split
      · exact .ok _
      · exact .fail _
    | crash => exact absurd h this.not

theorem safe_lookupPath (hne : src ≠ []) (c : Cow) {ms : List Member} (hm : ∀ m ∈ ms, MemberIn src m) :
    Safe (lookupPath env src c ms) := by
  cases c <;> rw [lookupPath] <;> refine .bind (safe_walk hne _ hm) fun o _ => ?_ <;> cases o <;> exact .ok _

theorem safe_lookupPathMaybe (hne : src ≠ []) (c : Cow) {ms : List Member} (hm : ∀ m ∈ ms, MemberIn src m) :
    Safe (lookupPathMaybe env src c ms) := by
  cases c <;> rw [lookupPathMaybe] <;> refine .bind (safe_walkMaybe hne _ _ hm) fun o _ => ?_ <;>
    rcases o with _ | _ | _ <;> exact .ok _

theorem safe_lookupLoop (hne : src ≠ []) (ls : LoopState) {ms : List Member} (hm : ∀ m ∈ ms, MemberIn src m) :
    Safe (ls.lookupLoop env src ms) := by
  rw [LoopState.lookupLoop.eq_def]
  split
  · exact .ok _
  · split
    · exact .ok _
    · next m ms =>
      have h1 := hm m (by simp)
      split
      · exact .err hne h1.1
      · next k hk =>
        have h2 := h1.2
        rw [hk] at h2
        refine .bind (.span h2) fun _ _ => .bind ?_ fun _ _ => ?_
        · split
          · exact .ok _
          · split
            · exact .ok _
            · split
              · exact .ok _
              · split
                · exact .ok _
                · exact .err hne h1.1
        · split
          · next m' _ => exact .err hne (hm m' (by simp)).1
          · exact .ok _

theorem safe_loopVar (hne : src ≠ []) (ls : LoopState) {v : Var} (hv : VarIn src v) : Safe (ls.lookupVar env src v) := by
  rw [LoopState.lookupVar.eq_def]
  split
  · exact .ok _
  · next k hk =>
    have h2 := hv.1.2
    rw [hk] at h2
    refine .bind (.span h2) fun n _ => ?_
    split
    · exact safe_lookupLoop hne _ hv.2
    · split
      · split
        · refine .bind (safe_walk hne _ hv.2) fun o _ => ?_
          cases o <;> exact .ok _
        · exact .ok _
      · split
        · split
          · next m ms hr => exact .err hne (hv.2 m (by rw [hr]; simp)).1
          · exact .ok _
        · split
          · refine .bind (safe_walk hne _ hv.2) fun o _ => ?_
            cases o <;> exact .ok _
          · exact .ok _
      · exact .ok _

theorem safe_members {ms : List Member} (hm : ∀ m ∈ ms, MemberIn src m) : Safe (toValueMembers src ms) := by
  induction ms with
  | nil => exact .ok _
  | cons m ms ih =>
    rw [toValueMembers]
    refine .bind ?_ fun x _ => .bind (ih fun m h => hm m (by simp [h])) fun xs _ => .ok _
    rw [toValueMember.eq_def]
    split
    · exact .ok _
    · next k hk =>
      have h2 := (hm m (by simp)).2
      rw [hk] at h2
      exact .bind (.span h2) fun _ _ => .ok _

/-- The names of the `with` variables on the stack can be read in the source. -/
def Readable (src : Str) (st : Stack) : Prop := ∀ n c, SState.var n c ∈ st → SpanIn src n.span

/-- The part of the stack that a template can see. -/
def inSight : Stack → Stack
  | [] => []
  | .boundary :: _ => []
  | s :: st => s :: inSight st

theorem inSight_sub {s : SState} {st : Stack} (h : s ∈ inSight st) : s ∈ st := by
  induction st with
  | nil => cases h
  | cons x st ih =>
    cases x with
    | boundary => cases h
    | _ =>
      rcases List.mem_cons.mp h with h | h
      · exact List.mem_cons.mpr (.inl h)
      · exact List.mem_cons.mpr (.inr (ih h))

/-- The names of the `with` variables that a template can see can be read in the source. -/
def InSight (src : Str) (st : Stack) : Prop := ∀ n c, SState.var n c ∈ inSight st → SpanIn src n.span

theorem Readable.inSight {st : Stack} (h : Readable src st) : InSight src st := fun n c hm => h n c (inSight_sub hm)

theorem safe_lookupVar (hne : src ≠ []) {st : Stack} (hr : InSight src st) {v : Var} (hv : VarIn src v) :
    Safe (lookupVar env src st v) := by
  have hp : ∀ m ∈ v.path, MemberIn src m := by
    intro m hm
    rcases List.mem_cons.mp hm with rfl | hm
    · exact hv.1
    · exact hv.2 m hm
  induction st with
  | nil => exact .err hne hv.1.1
  | cons s st ih =>
    cases s with
    | valueFn f =>
      rw [lookupVar]
      refine .bind (safe_members hp) fun path _ => ?_
      split
      · exact .ok _
      · exact .err hne (var_span_in hv)
    | scope c =>
      have ih := ih (fun n c h => hr n c (by simp [inSight, h]))
      rw [lookupVar]
      refine .bind (safe_lookupPathMaybe hne _ hp) fun o _ => ?_
      cases o
      · exact ih
      · exact .ok _
    | var n c =>
      have ih := ih (fun n c h => hr n c (by simp [inSight, h]))
      rw [lookupVar]
      refine .bind (.span hv.1.2) fun a _ => .bind (.span (hr n c (by simp [inSight]))) fun b _ => ?_
      split
      · exact safe_lookupPath hne _ hv.2
      · exact ih
    | loop ls =>
      have ih := ih (fun n c h => hr n c (by simp [inSight, h]))
      rw [lookupVar]
      refine .bind (safe_loopVar hne _ hv) fun o _ => ?_
      cases o
      · exact ih
      · exact .ok _
    | boundary => exact .err hne hv.1.1

theorem safe_getArg (hne : src ≠ []) {st : Stack} (hr : InSight src st) (t : ArgTy) {x : BaseExpr} (hx : BaseIn src x) :
    Safe (getArg env src st t x) := by
  cases x with
  | lit l => rw [getArg]; split; exact .ok _; exact .err hne hx
  | var v =>
    rw [getArg]
    refine .bind (safe_lookupVar hne hr hx) fun c _ => ?_
    cases c <;> dsimp only <;> split <;> first | exact .ok _ | exact .err hne (var_span_in hx)

theorem safe_getArgs (hne : src ≠ []) {st : Stack} (hr : InSight src st) (ts : List ArgTy) {xs : List BaseExpr}
    (hx : ∀ x ∈ xs, BaseIn src x) (hl : xs.length = ts.length) : Safe (getArgs env src st ts xs) := by
  induction ts generalizing xs with
  | nil => exact .ok _
  | cons t ts ih =>
    cases xs with
    | nil => cases hl
    | cons x xs =>
      rw [getArgs]
      exact .bind (safe_getArg hne hr t (hx x (by simp))) fun a _ =>
        .bind (ih (fun x h => hx x (by simp [h])) (by simpa using hl)) fun as _ => .ok _

theorem safe_call (hne : src ≠ []) {st : Stack} (hr : InSight src st) (f : Filter) {n : Ident} (hn : SpanIn src n.span)
    (v : Cow) {args : List BaseExpr} (hx : ∀ x ∈ args, BaseIn src x) :
    Safe (enrich env src n.span (callFilter env f src st n v args)) := by
  have h1 : Safe (callFilter env f src st n v args) := by
    rw [callFilter]
    refine .bind ?_ fun p _ => ?_
    · rw [fromState]
      split
      · next hl =>
        split
        · exact .bind (safe_getArgs hne hr _ hx hl) fun as _ => .ok _
        · next e he =>
          obtain ⟨m, hm⟩ := expectedVal_some f.val v.val he
          rw [hm]
          exact .err hne hn
      · exact .err hne hn
    · obtain ⟨a, as⟩ := p
      dsimp only
      split
      · exact .ok _
      · exact .fail _
  cases hc : callFilter env f src st n v args with
  | ok r => exact .ok _
  | crash => exact absurd hc h1.not
  | err e =>
    rw [enrich]
    split
    · exact .fail _
    · obtain ⟨t, ht⟩ := hn
      obtain ⟨p, hp⟩ := pretty_isSome env hne ht
      rw [hp]; exact .fail _

theorem safe_valueOf (cfg : RenderCfg σ) (hne : src ≠ []) {st : Stack} (hr : InSight src st) {e : Expr} (he : ExprIn src e) :
    Safe (valueOf cfg src st e) := by
  induction e with
  | base b =>
    cases b with
    | var v => exact safe_lookupVar hne hr he
    | lit l => exact .ok _
  | call name args recv sp ih =>
    rw [valueOf]
    refine .bind (ih he.2.2.1) fun v _ => .bind (.span he.1) fun n _ => ?_
    split
    · refine .bind (safe_call hne hr _ he.1 _ ?_) fun r _ => .ok _
      intro x hx
      cases args with
      | none => cases hx
      | some a => exact he.2.1 a rfl x hx
    · exact .err hne he.1
    · exact .err hne he.1

end Upon
