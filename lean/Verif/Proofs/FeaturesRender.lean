import Verif.Proofs.Features
import Verif.Model.Render
/-
Rendering does the same in two builds, whatever their Unicode tables.
-/
namespace Upon
open Spec
variable {σ : Type} {env env' : Env} {α β : Type}

namespace Feat

/-- The same outcome, about any source. -/
abbrev T (env env' : Env) (r r' : Res α) : Prop := SameOutcome env env' (fun _ => True) r r'

theorem renT (src : Str) (m : String) (sp : Span) : T env env' (errRender env m src sp : Res α) (errRender env' m src sp) := ren trivial _ _

macro "sameT" : tactic => `(tactic| repeat' (first
  | with_reducible exact SameOutcome.ok _ | with_reducible exact SameOutcome.crash | with_reducible exact Feat.ofOption _
  | with_reducible exact Feat.renT _ _ _ | with_reducible refine Feat.bind ?_ (fun _ => ?_) | assumption | split))

theorem lookup (src : Str) (v : Value) (m : Member) : T env env' (lookup env src v m) (Upon.lookup env' src v m) := by
  unfold Upon.lookup; sameT

theorem walk (src : Str) (v : Value) (ms : List Member) : T env env' (walk env src v ms) (Upon.walk env' src v ms) := by
  induction ms generalizing v with
  | nil => exact .ok _
  | cons m ms ih =>
    rw [Upon.walk, Upon.walk]
    refine bind (lookup _ _ _) fun o => ?_
    cases o with
    | none => exact .ok _
    | some v' => exact ih v'

theorem walkMaybe (src : Str) (i : Nat) (v : Value) (ms : List Member) :
    T env env' (walkMaybe env src i v ms) (Upon.walkMaybe env' src i v ms) := by
  induction ms generalizing v i with
  | nil => exact .ok _
  | cons m ms ih =>
    rw [Upon.walkMaybe, Upon.walkMaybe]
    have := lookup (env := env) (env' := env') src v m
    generalize Upon.lookup env src v m = a at this
    generalize Upon.lookup env' src v m = a' at this
    cases this with
    | ok o =>
      cases o with
      | none => dsimp only; split <;> exact .ok _
      | some v' => exact ih _ v'
    | err h =>
      dsimp only
      split
      · exact .ok _
      · exact .err h
    | crash => exact .crash

theorem lookupPath (src : Str) (c : Cow) (ms : List Member) : T env env' (lookupPath env src c ms) (Upon.lookupPath env' src c ms) := by
  cases c <;> rw [Upon.lookupPath, Upon.lookupPath] <;> refine bind (walk _ _ _) fun o => ?_ <;> cases o <;> exact .ok _

theorem lookupPathMaybe (src : Str) (c : Cow) (ms : List Member) :
    T env env' (lookupPathMaybe env src c ms) (Upon.lookupPathMaybe env' src c ms) := by
  cases c <;> rw [Upon.lookupPathMaybe, Upon.lookupPathMaybe] <;> refine bind (walkMaybe _ _ _ _) fun o => ?_ <;>
    rcases o with _ | _ | _ <;> exact .ok _

theorem lookupLoop (src : Str) (ls : LoopState) (ms : List Member) :
    T env env' (ls.lookupLoop env src ms) (ls.lookupLoop env' src ms) := by
  unfold LoopState.lookupLoop; sameT

theorem loopVar (src : Str) (ls : LoopState) (v : Var) : T env env' (ls.lookupVar env src v) (ls.lookupVar env' src v) := by
  rw [LoopState.lookupVar.eq_def, LoopState.lookupVar.eq_def]
  split
  · exact .ok _
  · refine bind (ofOption _) fun n => ite (fun _ => lookupLoop _ _ _) fun _ => ?_
    split
    · refine ite (fun _ => bind (walk _ _ _) fun o => ?_) fun _ => .ok _
      cases o <;> exact .ok _
    · refine ite (fun _ => ?_) fun _ => ite (fun _ => bind (walk _ _ _) fun o => ?_) fun _ => .ok _
      · split
        · exact renT _ _ _
        · exact .ok _
      · cases o <;> exact .ok _
    · exact .ok _

theorem members (src : Str) (ms : List Member) : T env env' (toValueMembers src ms) (toValueMembers src ms) := by
  induction ms with
  | nil => exact .ok _
  | cons m ms ih =>
    rw [toValueMembers]
    refine bind ?_ fun x => bind ih fun xs => .ok _
    rw [toValueMember.eq_def]; sameT

theorem lookupVar (src : Str) (st : Stack) (v : Var) : T env env' (lookupVar env src st v) (Upon.lookupVar env' src st v) := by
  induction st with
  | nil => exact renT _ _ _
  | cons s st ih =>
    cases s with
    | valueFn f =>
      rw [Upon.lookupVar, Upon.lookupVar]
      refine bind (members _ _) fun path => ?_
      split
      · exact .ok _
      · exact renT _ _ _
    | scope c =>
      rw [Upon.lookupVar, Upon.lookupVar]
      refine bind (lookupPathMaybe _ _ _) fun o => ?_
      cases o
      · exact ih
      · exact .ok _
    | var n c =>
      rw [Upon.lookupVar, Upon.lookupVar]
      exact bind (ofOption _) fun a => bind (ofOption _) fun b => ite (fun _ => lookupPath _ _ _) fun _ => ih
    | loop ls =>
      rw [Upon.lookupVar, Upon.lookupVar]
      refine bind (loopVar _ _ _) fun o => ?_
      cases o
      · exact ih
      · exact .ok _
    | boundary => exact renT _ _ _

theorem fromRef (h : Rebuilt env env') (t : ArgTy) (v : Value) : t.fromValueRef env' v = t.fromValueRef env v := by
  unfold ArgTy.fromValueRef IntTy.min IntTy.max
  rw [h.bits, h.to32]

theorem fromVal (h : Rebuilt env env') (t : ArgTy) (v : Value) : t.fromValue env' v = t.fromValue env v := by
  unfold ArgTy.fromValue
  split <;> first | rfl | exact fromRef h _ _

theorem getArg (h : Rebuilt env env') (src : Str) (st : Stack) (t : ArgTy) (x : BaseExpr) :
    T env env' (getArg env src st t x) (Upon.getArg env' src st t x) := by
  cases x with
  | lit l =>
    rw [Upon.getArg, Upon.getArg, fromRef h]
    split
    · exact .ok _
    · exact renT _ _ _
  | var v =>
    rw [Upon.getArg, Upon.getArg]
    refine bind (lookupVar _ _ _) fun c => ?_
    cases c <;> dsimp only <;> first | rw [fromRef h] | rw [fromVal h]
    all_goals split
    all_goals first | exact .ok _ | exact renT _ _ _

theorem getArgs (h : Rebuilt env env') (src : Str) (st : Stack) (ts : List ArgTy) (xs : List BaseExpr) :
    T env env' (getArgs env src st ts xs) (Upon.getArgs env' src st ts xs) := by
  induction ts generalizing xs with
  | nil => exact .ok _
  | cons t ts ih =>
    cases xs with
    | nil => exact .crash
    | cons x xs => rw [Upon.getArgs, Upon.getArgs]; exact bind (getArg h _ _ _ _) fun a => bind (ih xs) fun as => .ok _

theorem fromState (h : Rebuilt env env') (src : Str) (st : Stack) (f : Filter) (n : Ident) (v : Cow) (args : List BaseExpr) :
    T env env' (fromState env f src st n v args) (Upon.fromState env' f src st n v args) := by
  rw [Upon.fromState, Upon.fromState, ArgTy.fromCowMut, ArgTy.fromCowMut, fromRef h]
  refine ite (fun _ => ?_) fun _ => renT _ _ _
  split
  · exact bind (getArgs h _ _ _ _) fun as => .ok _
  · split
    · exact renT _ _ _
    · exact .crash

theorem callFilter (h : Rebuilt env env') (src : Str) (st : Stack) (f : Filter) (n : Ident) (v : Cow) (args : List BaseExpr) :
    T env env' (callFilter env f src st n v args) (Upon.callFilter env' f src st n v args) := by
  rw [Upon.callFilter, Upon.callFilter]
  refine bind (fromState h _ _ _ _ _ _) fun p => ?_
  dsimp only
  split
  · exact .ok _
  · exact .err ⟨rfl, rfl, rfl, .inl ⟨rfl, rfl⟩⟩

theorem enrich (src : Str) (sp : Span) {r r' : Res α} (h : T env env' r r') : T env env' (enrich env src sp r) (Upon.enrich env' src sp r') := by
  cases h with
  | ok a => exact .ok _
  | crash => exact .crash
  | err h =>
    rw [Upon.enrich, Upon.enrich]
    rcases h.place with ⟨a, b⟩ | ⟨s, q, p, p', hP, a1, a2, a, b⟩
    · rw [a, b]
      dsimp only
      have hs := build_isSome (env := env) (env' := env') src sp
      cases h1 : Pretty.build env src sp with
      | none =>
        rw [h1] at hs
        cases h2 : Pretty.build env' src sp with
        | none => exact .crash
        | some p => rw [h2] at hs; cases hs
      | some p =>
        rw [h1] at hs
        cases h2 : Pretty.build env' src sp with
        | none => rw [h2] at hs; cases hs
        | some p' => exact .err ⟨h.kind, h.name, h.reason, .inr ⟨src, sp, p, p', trivial, h1, h2, rfl, rfl⟩⟩
    · rw [a, b]
      exact .err h

theorem loopNew (src : Str) (vars : LoopVars) (v : Cow) (sp : Span) :
    T env env' (LoopState.new env src vars v sp) (LoopState.new env' src vars v sp) := by
  rw [LoopState.new.eq_def, LoopState.new.eq_def]
  dsimp only
  sameT

/-! The machine -/

/-- Related effects of an instruction. -/
inductive One (env env' : Env) : OneStep σ → OneStep σ → Prop
  | next (pc st x w) : One env env' (.next pc st x w) (.next pc st x w)
  | incl (pc nm) : One env env' (.include_ pc nm) (.include_ pc nm)
  | inclWith (pc nm g) : One env env' (.includeWith pc nm g) (.includeWith pc nm g)
  | err {e e'} (w) : SameError env env' (fun _ => True) e e' → One env env' (.err e w) (.err e' w)
  | crash : One env env' .crash .crash

inductive Ends (env env' : Env) : RunRes σ → RunRes σ → Prop
  | ok (w) : Ends env env' (.ok w) (.ok w)
  | err {e e'} (w) : SameError env env' (fun _ => True) e e' → Ends env env' (.err e w) (.err e' w)
  | crash : Ends env env' .crash .crash

inductive Stp (env env' : Env) : StepRes σ → StepRes σ → Prop
  | next (v) : Stp env env' (.next v) (.next v)
  | halt {r r'} : Ends env env' r r' → Stp env env' (.halt r) (.halt r')

variable {c c' : RenderCfg σ}

/-- The two renders. -/
structure Rn (c c' : RenderCfg σ) : Prop where
  cfg : c' = { c with env := c'.env }
  built : Rebuilt c.env c'.env

theorem ofRes {w : World σ} {r r' : Res α} (hr : T env env' r r') {k k' : α → OneStep σ} (h : ∀ a, One env env' (k a) (k' a)) :
    One env env' (OneStep.ofRes w r k) (OneStep.ofRes w r' k') := by
  cases hr with
  | ok a => exact h a
  | err h => exact .err w h
  | crash => exact .crash

theorem emit (a : Rn c c') (f : Formatter) (v : Value) (src : Str) (sp : Span) (w : World σ)
    {k k' : World σ → OneStep σ} (h : ∀ w, One c.env c'.env (k w) (k' w)) :
    One c.env c'.env (Upon.emit c f v src sp w k) (Upon.emit c' f v src sp w k') := by
  have es : c'.sink = c.sink := by rw [a.cfg]
  simp only [Upon.emit, es]
  split
  · exact h _
  · exact ofRes (throwAt trivial _ _ _) fun _ => .crash

theorem exec (a : Rn c c') (src : Str) (pc : Nat) (st : Stack) (x : Option Cow) (w : World σ) (i : Instr) :
    One c.env c'.env (execInstr c src pc st x w i) (execInstr c' src pc st x w i) := by
  have es : c'.sink = c.sink := by rw [a.cfg]
  have ef : c'.functions = c.functions := by rw [a.cfg]
  have ed : c'.defaultFormatter = c.defaultFormatter := by rw [a.cfg]
  cases i <;> simp only [execInstr, es, ef, ed]
  case jump => exact .next _ _ _ _
  case jumpIfTrue => split; · exact .crash
                     · split <;> exact .next _ _ _ _
  case jumpIfFalse => split; · exact .crash
                      · split <;> exact .next _ _ _ _
  case emit => split; · exact .crash
               · exact emit a _ _ _ _ _ fun _ => .next _ _ _ _
  case emitRaw =>
    refine ofRes (ofOption _) fun raw => ?_
    split
    · exact .next _ _ _ _
    · exact .err _ ⟨rfl, rfl, rfl, .inl ⟨rfl, rfl⟩⟩
  case emitWith =>
    refine ofRes (ofOption _) fun nm => ?_
    split
    · split; · exact .crash
      · exact ofRes (enrich _ _ (callFilter a.built _ _ _ _ _ _)) fun _ => emit a _ _ _ _ _ fun _ => .next _ _ _ _
    · split; · exact .crash
      · exact emit a _ _ _ _ _ fun _ => .next _ _ _ _
    · exact ofRes (renT _ _ _) fun _ => .crash
  case loopStart => split; · exact .crash
                    · exact ofRes (loopNew _ _ _ _) fun _ => .next _ _ _ _
  case loopNext =>
    split
    · split <;> exact .next _ _ _ _
    · exact .crash
  case withStart => split; · exact .crash
                    · exact .next _ _ _ _
  case withEnd => split; · exact .next _ _ _ _
                  · exact .crash
  case include_ => exact .incl _ _
  case includeWith => split; · exact .crash
                      · exact .inclWith _ _ _
  case exprStart =>
    refine ofRes (lookupVar _ _ _) fun _ => ?_
    split
    · exact .next _ _ _ _
    · exact .crash
  case exprStartLit => split; · exact .next _ _ _ _
                       · exact .crash
  case apply =>
    refine ofRes (ofOption _) fun nm => ?_
    split
    · split; · exact .crash
      · exact ofRes (enrich _ _ (callFilter a.built _ _ _ _ _ _)) fun _ => .next _ _ _ _
    · exact ofRes (renT _ _ _) fun _ => .crash
    · exact ofRes (renT _ _ _) fun _ => .crash

theorem get (a : Rn c c') (src : Str) (nm : AstString) (w : World σ) :
    (getTemplate c' src nm w).1 = (getTemplate c src nm w).1 ∧ T c.env c'.env (getTemplate c src nm w).2 (getTemplate c' src nm w).2 := by
  have e1 : c'.templateFn = c.templateFn := by rw [a.cfg]
  have e2 : c'.templates = c.templates := by rw [a.cfg]
  simp only [getTemplate, e1, e2]
  split
  · refine ⟨rfl, ?_⟩
    dsimp only
    split
    · exact .ok _
    · exact renT _ _ _
  · refine ⟨rfl, ?_⟩
    dsimp only
    split
    · exact .ok _
    · exact renT _ _ _

theorem depth (a : Rn c c') (v : VM σ) : Stp c.env c'.env (checkDepth c v) (checkDepth c' v) := by
  have em : c'.maxIncludeDepth = c.maxIncludeDepth := by rw [a.cfg]
  rw [checkDepth, checkDepth, em]
  split
  · exact .halt (.err _ ⟨rfl, rfl, rfl, .inl ⟨rfl, rfl⟩⟩)
  · exact .next _

theorem attach {P : Str → Prop} {e e' : Err} (h : SameError env env' P e e') (n : Option Str) : SameError env env' P (e.attachName n) (e'.attachName n) := by
  cases n with
  | none => exact h
  | some n => exact ⟨h.kind, by simp [Err.attachName, Err.withTemplateName, h.name], h.reason, h.place⟩

theorem step (a : Rn c c') (v : VM σ) : Stp c.env c'.env (step c v) (Upon.step c' v) := by
  obtain ⟨fr, st, x, w⟩ := v
  cases fr with
  | nil => exact .halt (.ok _)
  | cons f fs =>
    simp only [Upon.step]
    split
    · split
      · split
        · split
          · exact depth a _
          · exact .halt .crash
        · exact depth a _
      · exact .halt .crash
    · next i _ =>
      have := exec a f.tmpl.source f.pc st x w i
      generalize execInstr c f.tmpl.source f.pc st x w i = o at this
      generalize execInstr c' f.tmpl.source f.pc st x w i = o' at this
      cases this with
      | next pc st x w => exact .next _
      | err w h => exact .halt (.err _ (attach h _))
      | crash => exact .halt .crash
      | incl pc m =>
        obtain ⟨g1, g2⟩ := get a f.tmpl.source m w
        simp only
        cases hg : getTemplate c f.tmpl.source m w with
        | mk w1 r1 =>
          cases hg' : getTemplate c' f.tmpl.source m w with
          | mk w2 r2 =>
            rw [hg, hg'] at g1 g2
            simp only at g1 g2
            subst g1
            cases g2 with
            | ok t => exact depth a _
            | err h => exact .halt (.err _ (attach h _))
            | crash => exact .halt .crash
      | inclWith pc m g =>
        obtain ⟨g1, g2⟩ := get a f.tmpl.source m w
        simp only
        cases hg : getTemplate c f.tmpl.source m w with
        | mk w1 r1 =>
          cases hg' : getTemplate c' f.tmpl.source m w with
          | mk w2 r2 =>
            rw [hg, hg'] at g1 g2
            simp only at g1 g2
            subst g1
            cases g2 with
            | ok t => exact depth a _
            | err h => exact .halt (.err _ (attach h _))
            | crash => exact .halt .crash

theorem run (a : Rn c c') (k : Nat) (v : VM σ) {r : RunRes σ} (h : run c k v = some r) :
    ∃ r', Upon.run c' k v = some r' ∧ Ends c.env c'.env r r' := by
  induction k generalizing v with
  | zero => cases h
  | succ k ih =>
    have hs := step a v
    rw [Upon.run] at h
    rw [Upon.run]
    generalize Upon.step c v = s at hs h
    generalize Upon.step c' v = s' at hs
    cases hs with
    | next v => exact ih v h
    | halt he => cases h; exact ⟨_, rfl, he⟩

theorem halts (a : Rn c c') {v : VM σ} {r : RunRes σ} (h : Halts c v r) : ∃ r', Halts c' v r' ∧ Ends c.env c'.env r r' := by
  obtain ⟨k, hk⟩ := h
  obtain ⟨r', h', he⟩ := run a k v hk
  exact ⟨r', ⟨k, h'⟩, he⟩

end Feat
end Upon
