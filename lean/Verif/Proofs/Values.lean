import Verif.Spec.Values
import Verif.Proofs.OrderedRun
/-
If the values given to a render have a property that parts inherit and filters keep, all values in the render have it.
-/
namespace Upon
open Spec Compiler
variable {σ : Type} {env : Env} {src : Str} {P : Value → Prop}

namespace Vals

/-- There is a value with the property that the loop runs over. -/
def Runs {α : Type} (P : Value → Prop) (next rem : Nat) (cur : Option (Nat × α)) : Prop :=
  ∃ u, P u ∧ next + rem ≤ items u ∧ ∀ p, cur = some p → p.1 + rem < items u

def LoopOf (P : Value → Prop) : LoopState → Prop
  | .list _ _ nx rem v => ((∀ x ∈ rem, P x) ∧ ∀ p, v = some p → P p.2) ∧ Runs P nx rem.length v
  | .map _ _ _ nx rem v => ((∀ p ∈ rem, P (.string p.1) ∧ P p.2) ∧ ∀ p, v = some p → P (.string p.2.1) ∧ P p.2.2) ∧ Runs P nx rem.length v

theorem loop_index {ls : LoopState} (h : LoopOf P ls) {i r : Nat} (hi : ls.indexAndRem = some (i, r)) : ∃ u, P u ∧ i + r < items u := by
  cases ls with
  | list o n nx rem v =>
    cases v with
    | none => cases hi
    | some p => obtain ⟨_, u, hu, _, h⟩ := h; cases hi; exact ⟨u, hu, h p rfl⟩
  | map o n m nx rem v =>
    cases v with
    | none => cases hi
    | some p => obtain ⟨_, u, hu, _, h⟩ := h; cases hi; exact ⟨u, hu, h p rfl⟩

def StateOf (P : Value → Prop) : SState → Prop
  | .valueFn f => ∀ p v, f p = .ok v → P v
  | .scope c => P c.val
  | .var _ c => P c.val
  | .loop ls => LoopOf P ls
  | .boundary => True

/-- All values bound on the stack have the property. -/
def StackOf (P : Value → Prop) (st : Stack) : Prop := ∀ s ∈ st, StateOf P s

def BaseOf (P : Value → Prop) : BaseExpr → Prop
  | .var _ => True
  | .lit l => P l.value

def InstrOf (P : Value → Prop) : Instr → Prop
  | .exprStartLit v => P v
  | .apply _ _ args => ∀ x ∈ (args.map Args.values).getD [], BaseOf P x
  | _ => True

/-- All literals in the code have the property. -/
def CodeOf (P : Value → Prop) (is : List Instr) : Prop := ∀ i ∈ is, InstrOf P i

/-- All values in a state of a render have the property. -/
structure VMOf (P : Value → Prop) (vm : VM σ) : Prop where
  code : ∀ fr ∈ vm.frames, CodeOf P fr.tmpl.instrs
  stack : StackOf P vm.stack
  expr : ∀ c, vm.expr = some c → P c.val

/-- If there is a value it has the property. -/
structure Opt1 (P : Value → Prop) (r : Res (Option Value)) : Prop where
  of : ∀ v, r = .ok (some v) → P v
structure OptC (P : Value → Prop) (r : Res Cow) : Prop where
  of : ∀ c, r = .ok c → P c.val
structure OptO (P : Value → Prop) (r : Res (Option Cow)) : Prop where
  of : ∀ c, r = .ok (some c) → P c.val

theorem keep_lookup (hP : Hereditary P) {v : Value} (h : P v) (m : Member) : Opt1 P (lookup env src v m) := by
  constructor
  intro x hx
  rw [lookup.eq_def] at hx
  split at hx
  · next l i _ =>
    cases hg : l[i.value]? with
    | none => rw [hg] at hx; cases hop : m.op <;> rw [hop] at hx <;> simp only [errRender, throwAt] at hx <;> first | (split at hx <;> cases hx) | cases hx
    | some y =>
      rw [hg] at hx
      have hx : y = x := by cases m.op <;> simpa using hx
      subst hx
      exact hP.item _ h _ (List.mem_of_getElem? hg)
  · next mp k _ =>
    cases hs : k.span.of src with
    | none => rw [hs] at hx; cases hx
    | some n =>
      rw [hs] at hx
      simp only [Res.ofOption, Res.ok_bind] at hx
      cases hg : BMap.get mp n with
      | none => rw [hg] at hx; cases hop : m.op <;> rw [hop] at hx <;> simp only [errRender, throwAt] at hx <;> first | (split at hx <;> cases hx) | cases hx
      | some y =>
        rw [hg] at hx
        have hx : y = x := by cases m.op <;> simpa using hx
        subst hx
        exact hP.entry _ h _ (get_some_mem hg)
  · rw [errRender, throwAt] at hx; split at hx <;> cases hx
  · rw [errRender, throwAt] at hx; split at hx <;> cases hx

theorem keep_walk (hP : Hereditary P) (ms : List Member) : ∀ {v : Value}, P v → Opt1 P (walk env src v ms) := by
  induction ms with
  | nil => intro v h; exact ⟨fun x hx => by cases hx; exact h⟩
  | cons m ms ih =>
    intro v h
    rw [walk]
    have := keep_lookup hP (env := env) (src := src) h m
    cases hl : lookup env src v m with
    | err e => exact ⟨fun x hx => by cases hx⟩
    | crash => exact ⟨fun x hx => by cases hx⟩
    | ok o =>
      cases o with
      | none => exact ⟨fun x hx => by cases hx⟩
      | some v' => exact ih (this.of v' hl)

theorem keep_walkMaybe (hP : Hereditary P) (ms : List Member) : ∀ (i : Nat) {v : Value}, P v →
    ∀ x, walkMaybe env src i v ms = .ok (some (some x)) → P x := by
  induction ms with
  | nil => intro i v h x hx; cases hx; exact h
  | cons m ms ih =>
    intro i v h x hx
    rw [walkMaybe] at hx
    have := keep_lookup hP (env := env) (src := src) h m
    cases hl : lookup env src v m with
    | err e => rw [hl] at hx; dsimp only at hx; split at hx <;> cases hx
    | crash => rw [hl] at hx; cases hx
    | ok o =>
      rw [hl] at hx
      cases o with
      | none => dsimp only at hx; split at hx <;> cases hx
      | some v' => exact ih _ (this.of v' hl) x hx

theorem keep_lookupPath (hP : Hereditary P) {c : Cow} (h : P c.val) (ms : List Member) : OptC P (lookupPath env src c ms) := by
  constructor
  intro x hx
  cases c with
  | borrowed v =>
    rw [lookupPath] at hx
    have := keep_walk hP (env := env) (src := src) ms (v := v) h
    cases hw : walk env src v ms with
    | err e => rw [hw] at hx; cases hx
    | crash => rw [hw] at hx; cases hx
    | ok o =>
      rw [hw] at hx
      cases o with
      | none => cases hx; exact hP.none
      | some v' => cases hx; exact this.of v' hw
  | owned v =>
    rw [lookupPath] at hx
    have := keep_walk hP (env := env) (src := src) ms (v := v) h
    cases hw : walk env src v ms with
    | err e => rw [hw] at hx; cases hx
    | crash => rw [hw] at hx; cases hx
    | ok o =>
      rw [hw] at hx
      cases o with
      | none => cases hx; exact hP.none
      | some v' => cases hx; exact this.of v' hw

theorem keep_lookupPathMaybe (hP : Hereditary P) {c : Cow} (h : P c.val) (ms : List Member) : OptO P (lookupPathMaybe env src c ms) := by
  constructor
  intro x hx
  cases c with
  | borrowed v =>
    rw [lookupPathMaybe] at hx
    have := keep_walkMaybe hP (env := env) (src := src) ms 0 (v := v) h
    cases hw : walkMaybe env src 0 v ms with
    | err e => rw [hw] at hx; cases hx
    | crash => rw [hw] at hx; cases hx
    | ok o =>
      rw [hw] at hx
      rcases o with _ | _ | v'
      · cases hx
      · cases hx; exact hP.none
      · cases hx; exact this v' hw
  | owned v =>
    rw [lookupPathMaybe] at hx
    have := keep_walkMaybe hP (env := env) (src := src) ms 0 (v := v) h
    cases hw : walkMaybe env src 0 v ms with
    | err e => rw [hw] at hx; cases hx
    | crash => rw [hw] at hx; cases hx
    | ok o =>
      rw [hw] at hx
      rcases o with _ | _ | v'
      · cases hx
      · cases hx; exact hP.none
      · cases hx; exact this v' hw

theorem loop_parts (hP : Hereditary P) {u : Value} (hu : P u) {i r : Nat} (hi : i + r < items u) : P (.bool (i == 0)) ∧ P (.integer i) ∧ P (.bool (r == 0)) := by
  have h := hP.loop u i r hu hi
  rw [loopMap_eq] at h
  have h := hP.entry _ h
  exact ⟨h _ (.head _), h _ (.tail _ (.head _)), h _ (.tail _ (.tail _ (.head _)))⟩

theorem keep_lookupLoop (hP : Hereditary P) {ls : LoopState} (hls : LoopOf P ls) (ms : List Member) : OptO P (ls.lookupLoop env src ms) := by
  constructor
  intro x hx
  rw [LoopState.lookupLoop.eq_def] at hx
  split at hx
  · cases hx
  · rename_i i r hir
    obtain ⟨u, hu, hi⟩ := loop_index hls hir
    have parts := loop_parts hP hu hi
    split at hx
    · cases hx; exact hP.loop _ _ _ hu hi
    · split at hx
      · rw [errRender, throwAt] at hx; split at hx <;> cases hx
      · next m ms _ k _ =>
        obtain ⟨n, _, hx⟩ := bind_ok.mp hx
        obtain ⟨v, hv, hx⟩ := bind_ok.mp hx
        have ho : P v := by
          split at hv
          · cases hv; first | exact hP.none | exact parts.2.1 | exact parts.1 | exact parts.2.2
          · split at hv
            · cases hv; first | exact hP.none | exact parts.2.1 | exact parts.1 | exact parts.2.2
            · split at hv
              · cases hv; first | exact hP.none | exact parts.2.1 | exact parts.1 | exact parts.2.2
              · split at hv
                · cases hv; first | exact hP.none | exact parts.2.1 | exact parts.1 | exact parts.2.2
                · rw [errRender, throwAt] at hv; split at hv <;> cases hv
        split at hx
        · rw [errRender, throwAt] at hx; split at hx <;> cases hx
        · cases hx; exact ho

theorem keep_loopVar (hP : Hereditary P) {ls : LoopState} (h : LoopOf P ls) (v : Var) : OptO P (ls.lookupVar env src v) := by
  constructor
  intro x hx
  rw [LoopState.lookupVar.eq_def] at hx
  split at hx
  · cases hx
  · obtain ⟨n, _, hx⟩ := bind_ok.mp hx
    split at hx
    · exact (keep_lookupLoop hP h v.rest).of x hx
    · split at hx
      · next owned i nx rem idx value =>
        split at hx
        · obtain ⟨o, ho, hx⟩ := bind_ok.mp hx
          cases o with
          | none => cases hx
          | some y =>
            cases hx
            rw [mkCow_val]
            exact (keep_walk hP v.rest (h.1.2 _ rfl)).of y ho
        · cases hx
      · next owned kn vn nx rem idx string value =>
        split at hx
        · split at hx
          · rw [errRender, throwAt] at hx; split at hx <;> cases hx
          · cases hx; first | exact hP.none | exact (h.1.2 _ rfl).1
        · split at hx
          · obtain ⟨o, ho, hx⟩ := bind_ok.mp hx
            cases o with
            | none => cases hx
            | some y =>
              cases hx
              rw [mkCow_val]
              exact (keep_walk hP v.rest (h.1.2 _ rfl).2).of y ho
          · cases hx
      · cases hx

theorem keep_lookupVar (hP : Hereditary P) {st : Stack} (h : StackOf P st) (v : Var) : OptC P (lookupVar env src st v) := by
  constructor
  induction st with
  | nil => intro c hc; rw [lookupVar, errRender, throwAt] at hc; split at hc <;> cases hc
  | cons s st ih =>
    have ih := ih (fun s hs => h s (List.mem_cons_of_mem _ hs))
    have h0 := h s List.mem_cons_self
    intro c hc
    cases s with
    | valueFn f =>
      rw [lookupVar] at hc
      obtain ⟨p, hp, hc⟩ := bind_ok.mp hc
      cases hf : f p with
      | ok x => rw [hf] at hc; cases hc; exact h0 p x hf
      | error e => rw [hf] at hc; simp only [errRender, throwAt] at hc; split at hc <;> cases hc
    | scope c' =>
      rw [lookupVar] at hc
      obtain ⟨o, ho, hc⟩ := bind_ok.mp hc
      cases o with
      | none => exact ih c hc
      | some x => cases hc; exact (keep_lookupPathMaybe hP h0 _).of _ ho
    | var n c' =>
      rw [lookupVar] at hc
      obtain ⟨a, _, hc⟩ := bind_ok.mp hc
      obtain ⟨b, _, hc⟩ := bind_ok.mp hc
      split at hc
      · exact (keep_lookupPath hP h0 _).of c hc
      · exact ih c hc
    | loop ls =>
      rw [lookupVar] at hc
      obtain ⟨o, ho, hc⟩ := bind_ok.mp hc
      cases o with
      | none => exact ih c hc
      | some x => cases hc; exact (keep_loopVar hP h0 v).of _ ho
    | boundary => rw [lookupVar, errRender, throwAt] at hc; split at hc <;> cases hc

/-! Filters -/

theorem keep_ref (hP : Hereditary P) {t : ArgTy} {v : Value} {a : ArgVal} (hv : P v) (h : t.fromValueRef env v = .ok a) : ArgOf P a := by
  have := (C31_convert t v a).mp h
  cases this with
  | list => exact hv
  | listRef => exact hv
  | map => exact hv
  | mapRef => exact hv
  | value => exact hv
  | valueRef => exact hv
  | _ => trivial

theorem keep_arg (hP : Hereditary P) {st : Stack} (h : StackOf P st) {t : ArgTy} {x : BaseExpr} (hx : BaseOf P x) {a : ArgVal}
    (ha : getArg env src st t x = .ok a) : ArgOf P a := by
  cases (getArg_ok t x a).mp ha with
  | lit hc => exact keep_ref hP hx ((C31_convert _ _ _).mpr hc)
  | borrowed hl hc => exact keep_ref hP ((keep_lookupVar hP h _).of _ hl) ((C31_convert _ _ _).mpr hc)
  | owned hl _ hc => exact keep_ref hP ((keep_lookupVar hP h _).of _ hl) ((C31_convert _ _ _).mpr hc)

theorem keep_args (hP : Hereditary P) {st : Stack} (h : StackOf P st) (ts : List ArgTy) : ∀ {xs : List BaseExpr}, (∀ x ∈ xs, BaseOf P x) →
    ∀ {as : List ArgVal}, getArgs env src st ts xs = .ok as → ∀ a ∈ as, ArgOf P a := by
  induction ts with
  | nil =>
    intro xs _ as ha
    cases xs <;> (rw [getArgs] at ha; cases ha; intro a h; cases h)
  | cons t ts ih =>
    intro xs hx as ha
    cases xs with
    | nil => cases ha
    | cons x xs =>
      rw [getArgs] at ha
      obtain ⟨y, hy, ha⟩ := bind_ok.mp ha
      obtain ⟨ys, hys, ha⟩ := bind_ok.mp ha
      cases ha
      intro a hm
      rcases List.mem_cons.mp hm with rfl | hm
      · exact keep_arg hP h (hx x (by simp)) hy
      · exact ih (fun x h => hx x (by simp [h])) hys a hm

theorem keep_call (hP : Hereditary P) {fs : BMap EngFn} (hfs : FiltersKeep P fs) {n : Str} {f : Filter} (hf : BMap.get fs n = some (.filter f))
    {st : Stack} (h : StackOf P st) {name : Ident} {v : Cow} (hv : P v.val) {args : List BaseExpr}
    (hx : ∀ x ∈ args, BaseOf P x) {sp : Span} {r : Value}
    (hr : enrich env src sp (callFilter env f src st name v args) = .ok r) : P r := by
  have hr : callFilter env f src st name v args = .ok r := by
    cases hc : callFilter env f src st name v args with
    | ok r' => rw [hc] at hr; exact hr
    | err e =>
      rw [hc] at hr
      simp only [enrich] at hr
      split at hr
      · cases hr
      · split at hr <;> cases hr
    | crash => rw [hc] at hr; cases hr
  obtain ⟨hlen, a, as, h1, h2, h3⟩ := (C31_call f name v args r).mp hr
  exact hfs n f a as r hf (keep_ref hP hv ((C31_convert _ _ _).mpr h1))
    (keep_args hP h f.args hx ((getArgs_ok _ _ hlen _).mpr h2)) h3

/-! One step -/

variable {cfg : RenderCfg σ}

theorem stack_cons {s : SState} {st : Stack} (h : StackOf P (s :: st)) : StateOf P s ∧ StackOf P st :=
  ⟨h s List.mem_cons_self, fun x hx => h x (List.mem_cons_of_mem _ hx)⟩

theorem stack_push {s : SState} {st : Stack} (hs : StateOf P s) (h : StackOf P st) : StackOf P (s :: st) := by
  intro x hx
  rcases List.mem_cons.mp hx with rfl | hx
  · exact hs
  · exact h x hx

/-- What an instruction leaves behind has the property. -/
def OneOf (P : Value → Prop) : OneStep σ → Prop
  | .next _ st ex _ => StackOf P st ∧ ∀ c, ex = some c → P c.val
  | .includeWith _ _ g => P g.val
  | _ => True

theorem one_ofRes {α : Type} {w : World σ} {r : Res α} {k : α → OneStep σ} (h : ∀ a, r = .ok a → OneOf P (k a)) :
    OneOf P (OneStep.ofRes w r k) := by
  cases r with
  | ok a => exact h a rfl
  | err e => trivial
  | crash => trivial

theorem one_emit {f : Formatter} {v : Value} {sp : Span} {w : World σ} {pc : Nat} {st : Stack} (h : StackOf P st) :
    OneOf P (emit cfg f v src sp w (fun w => .next pc st none w)) := by
  rw [emit.eq_def]
  split
  · exact ⟨h, fun c hc => by cases hc⟩
  · exact one_ofRes fun _ _ => trivial

theorem keep_loopNew (hP : Hereditary P) {vars : LoopVars} {c : Cow} (h : P c.val) {sp : Span} {ls : LoopState}
    (hl : LoopState.new env src vars c sp = .ok ls) : LoopOf P ls := by
  rw [LoopState.new.eq_def] at hl
  dsimp only at hl
  generalize c.val = v at hl h
  have er : ∀ {α : Type} {m sp} {a : α}, (errRender env m src sp : Res α) ≠ .ok a := by
    intro α m sp a h
    rw [errRender, throwAt] at h; split at h <;> cases h
  cases v with
  | list l =>
    cases vars with
    | item i =>
      obtain ⟨n, _, hl⟩ := bind_ok.mp hl
      cases hl
      exact ⟨⟨hP.item _ h, fun p hp => by cases hp⟩, _, h, by simp [items], fun p hp => by cases hp⟩
    | keyValue _ _ _ => exact absurd hl er
  | map m =>
    cases vars with
    | item i => exact absurd hl er
    | keyValue _ _ _ =>
      obtain ⟨n, _, hl⟩ := bind_ok.mp hl
      obtain ⟨n', _, hl⟩ := bind_ok.mp hl
      cases hl
      exact ⟨⟨fun p hp => ⟨hP.key _ h p hp, hP.entry _ h p hp⟩, fun p hp => by cases hp⟩, _, h, by simp [items], fun p hp => by cases hp⟩
  | _ => exact absurd hl er

theorem keep_iterate {ls ls' : LoopState} (h : LoopOf P ls) (hi : ls.iterate = some ls') : LoopOf P ls' := by
  cases ls with
  | list o i n rem v =>
    cases rem with
    | nil => cases hi
    | cons x xs =>
      cases hi
      obtain ⟨h, u, hu, hn, _⟩ := h
      rw [List.length_cons] at hn
      exact ⟨⟨fun y hy => h.1 y (by simp [hy]), fun p hp => by cases hp; exact h.1 x (by simp)⟩, u, hu, by omega, fun p hp => by cases hp; dsimp only; omega⟩
  | map o k v n rem x =>
    cases rem with
    | nil => cases hi
    | cons x xs =>
      cases hi
      obtain ⟨h, u, hu, hn, _⟩ := h
      rw [List.length_cons] at hn
      exact ⟨⟨fun y hy => h.1 y (by simp [hy]), fun p hp => by cases hp; exact h.1 x (by simp)⟩, u, hu, by omega, fun p hp => by cases hp; dsimp only; omega⟩

theorem keep_exec (hP : Hereditary P) (hfs : FiltersKeep P cfg.functions) {st : Stack} (h : StackOf P st) {ex : Option Cow}
    (hex : ∀ c, ex = some c → P c.val) {i : Instr} (hi : InstrOf P i) (pc : Nat) (w : World σ) :
    OneOf P (execInstr cfg src pc st ex w i) := by
  have no : ∀ c : Cow, (none : Option Cow) = some c → P c.val := fun c hc => by cases hc
  rw [execInstr.eq_def]
  cases i with
  | jump j => exact ⟨h, hex⟩
  | jumpIfTrue j => cases ex with
    | none => trivial
    | some v => dsimp only; split <;> exact ⟨h, no⟩
  | jumpIfFalse j => cases ex with
    | none => trivial
    | some v => dsimp only; split <;> exact ⟨h, no⟩
  | emit sp => cases ex with
    | none => trivial
    | some v => exact one_emit h
  | emitRaw sp =>
    refine one_ofRes fun raw _ => ?_
    split
    · exact ⟨h, hex⟩
    · trivial
  | emitWith name sp =>
    refine one_ofRes fun n _ => ?_
    cases hf : BMap.get cfg.functions n with
    | none => exact one_ofRes fun _ _ => trivial
    | some g =>
      cases g with
      | formatter f =>
        cases ex with
        | none => trivial
        | some v => exact one_emit h
      | filter f =>
        cases ex with
        | none => trivial
        | some v => exact one_ofRes fun _ _ => one_emit h
  | loopStart vars sp =>
    cases ex with
    | none => trivial
    | some v => exact one_ofRes fun ls hl => ⟨stack_push (keep_loopNew hP (hex v rfl) hl) h, no⟩
  | loopNext j =>
    dsimp only
    split
    · next ls rest =>
      obtain ⟨h1, h2⟩ := stack_cons h
      cases hi : ls.iterate with
      | some ls' => exact ⟨stack_push (keep_iterate h1 hi) h2, hex⟩
      | none => exact ⟨h2, hex⟩
    · trivial
  | withStart name =>
    cases ex with
    | none => trivial
    | some v => exact ⟨stack_push (hex v rfl) h, no⟩
  | withEnd =>
    dsimp only
    split
    · exact ⟨(stack_cons h).2, hex⟩
    · trivial
  | include_ name => trivial
  | includeWith name =>
    cases ex with
    | none => trivial
    | some v => exact hex v rfl
  | exprStart v =>
    refine one_ofRes fun x hx => ?_
    cases ex with
    | none => exact ⟨h, fun c hc => by cases hc; exact (keep_lookupVar hP h v).of x hx⟩
    | some v => trivial
  | exprStartLit v =>
    cases ex with
    | none => exact ⟨h, fun c hc => by cases hc; exact hi⟩
    | some v => trivial
  | apply name sp args =>
    refine one_ofRes fun n _ => ?_
    cases hf : BMap.get cfg.functions n with
    | none => exact one_ofRes fun _ _ => trivial
    | some g =>
      cases g with
      | formatter f => exact one_ofRes fun _ _ => trivial
      | filter f =>
        cases ex with
        | none => trivial
        | some v =>
          exact one_ofRes fun r hr => ⟨h, fun c hc => by cases hc; exact keep_call hP hfs hf h (hex v rfl) hi hr⟩

theorem keep_step (hP : Hereditary P) (hfs : FiltersKeep P cfg.functions) (hts : ∀ t, Includable cfg t → CodeOf P t.instrs) {vm vm' : VM σ}
    (h : VMOf P vm) (hs : step cfg vm = .next vm') : VMOf P vm' := by
  obtain ⟨frames, st, ex, w⟩ := vm
  obtain ⟨hc, hst, hex⟩ := h
  dsimp only at hc hst hex
  have no : ∀ c : Cow, (none : Option Cow) = some c → P c.val := fun c hc => by cases hc
  cases frames with
  | nil => cases hs
  | cons fr frames =>
    have hfr := hc fr List.mem_cons_self
    have hrest : ∀ f ∈ frames, CodeOf P f.tmpl.instrs := fun f hf => hc f (List.mem_cons_of_mem _ hf)
    rw [step] at hs
    dsimp only at hs
    cases hi : fr.tmpl.instrs[fr.pc]? with
    | none =>
      rw [hi] at hs
      dsimp only at hs
      split at hs
      · split at hs
        · split at hs
          · rw [checkDepth_next hs]
            exact ⟨hrest, (stack_cons (stack_cons hst).2).2, no⟩
          · cases hs
        · rw [checkDepth_next hs]
          exact ⟨hrest, hst, no⟩
      · cases hs
    | some i =>
      rw [hi] at hs
      dsimp only at hs
      have := keep_exec hP (src := fr.tmpl.source) hfs hst hex (hfr i (List.mem_of_getElem? hi)) fr.pc w
      have hpc : ∀ pc, ∀ f ∈ { fr with pc := pc } :: frames, CodeOf P f.tmpl.instrs := by
        intro pc f hf
        rcases List.mem_cons.mp hf with rfl | hf
        · exact hfr
        · exact hrest f hf
      have hinc : ∀ {n : AstString} {w' : World σ} {t : Template}, getTemplate cfg fr.tmpl.source n w = (w', .ok t) → CodeOf P t.instrs := by
        intro n w' t hg
        exact hts t (find_includable (by rw [← find_eq]; exact hg))
      cases he : execInstr cfg fr.tmpl.source fr.pc st ex w i with
      | next pc st' ex' w' =>
        rw [he] at hs this
        cases hs
        exact ⟨hpc pc, this.1, this.2⟩
      | err e w => rw [he] at hs; cases hs
      | crash => rw [he] at hs; cases hs
      | include_ pc n =>
        rw [he] at hs
        dsimp only at hs
        rcases hg : getTemplate cfg fr.tmpl.source n w with ⟨w', r⟩
        rw [hg] at hs
        cases r with
        | err e => cases hs
        | crash => cases hs
        | ok t =>
          rw [checkDepth_next hs]
          refine ⟨fun f hf => ?_, hst, no⟩
          rcases List.mem_cons.mp hf with rfl | hf
          · exact hinc hg
          · exact hpc pc f hf
      | includeWith pc n g =>
        rw [he] at hs this
        dsimp only at hs
        rcases hg : getTemplate cfg fr.tmpl.source n w with ⟨w', r⟩
        rw [hg] at hs
        cases r with
        | err e => cases hs
        | crash => cases hs
        | ok t =>
          rw [checkDepth_next hs]
          refine ⟨fun f hf => ?_, stack_push this (stack_push trivial hst), no⟩
          rcases List.mem_cons.mp hf with rfl | hf
          · exact hinc hg
          · exact hpc pc f hf

/-! Compiled code -/

def ExprOf (P : Value → Prop) : Expr → Prop
  | .base b => BaseOf P b
  | .call _ args recv _ => (∀ x ∈ (args.map Args.values).getD [], BaseOf P x) ∧ ExprOf P recv

mutual
def StmtOf (P : Value → Prop) : Stmt → Prop
  | .raw _ => True
  | .inlineExpr e _ => ExprOf P e
  | .include_ _ none => True
  | .include_ _ (some e) => ExprOf P e
  | .ifElse _ cond thn none => ExprOf P cond ∧ StmtsOf P thn
  | .ifElse _ cond thn (some els) => ExprOf P cond ∧ StmtsOf P thn ∧ StmtsOf P els
  | .forLoop _ e body => ExprOf P e ∧ StmtsOf P body
  | .with_ e _ body => ExprOf P e ∧ StmtsOf P body
def StmtsOf (P : Value → Prop) : List Stmt → Prop
  | [] => True
  | s :: ss => StmtOf P s ∧ StmtsOf P ss
end

theorem keep_gbase (hP : Scalars P) {ts b} (h : GBase env src ts b) : BaseOf P b := by
  cases h with
  | number _ h => cases h <;> first | exact hP.bool _ | exact hP.integer _ | exact hP.float _ | exact hP.string _
  | plus _ h => cases h <;> first | exact hP.bool _ | exact hP.integer _ | exact hP.float _ | exact hP.string _
  | minus _ h => cases h <;> first | exact hP.bool _ | exact hP.integer _ | exact hP.float _ | exact hP.string _
  | var h => trivial
  | _ => first | exact hP.bool _ | exact hP.integer _ | exact hP.float _ | exact hP.string _

theorem keep_gargs (hP : Scalars P) {ts es} (h : GArgs env src ts es) : ∀ x ∈ es, BaseOf P x := by
  induction h with
  | one h =>
    intro x hx
    rcases List.mem_cons.mp hx with rfl | hx
    · exact keep_gbase hP h
    · cases hx
  | more h _ ih =>
    intro x hx
    rcases List.mem_cons.mp hx with rfl | hx
    · exact keep_gbase hP h
    · exact ih x hx

theorem keep_gcalls (hP : Scalars P) {e ts e'} (h : GCalls env src e ts e') (he : ExprOf P e) : ExprOf P e' := by
  induction h with
  | nil => exact he
  | call _ ih => exact ih ⟨(fun x hx => by cases hx), he⟩
  | callArgs ha _ ih => exact ih ⟨keep_gargs hP ha, he⟩

theorem keep_gexpr (hP : Scalars P) {ts e} (h : GExpr env src ts e) : ExprOf P e := by
  obtain ⟨us, b, vs, rfl, hb, hc⟩ := h
  exact keep_gcalls hP hc (keep_gbase hP hb)

theorem keep_gcond (hP : Scalars P) {ts n e} (h : GCond env src ts n e) : ExprOf P e := by
  cases h with
  | plain h => exact keep_gexpr hP h
  | not _ h => exact keep_gexpr hP h

mutual
theorem keep_gstmts (hP : Scalars P) {ts : List Tok} {ss : List Stmt} (h : GStmts env src ts ss) : StmtsOf P ss := by
  match h with
  | .nil => exact trivial
  | .raw h => exact ⟨trivial, keep_gstmts hP h⟩
  | .comment h => exact keep_gstmts hP h
  | .expr h1 h2 => exact ⟨keep_gexpr hP h1, keep_gstmts hP h2⟩
  | .include_ t _ _ h => exact ⟨trivial, keep_gstmts hP h⟩
  | .includeWith t _ _ _ hx h => exact ⟨keep_gexpr hP hx, keep_gstmts hP h⟩
  | .for_ t hv _ hx hb _ h => exact ⟨⟨keep_gexpr hP hx, keep_gstmts hP hb⟩, keep_gstmts hP h⟩
  | .with_ t hx _ hb _ h => exact ⟨⟨keep_gexpr hP hx, keep_gstmts hP hb⟩, keep_gstmts hP h⟩
  | .if_ (els := els) t hx hb he h =>
    have h1 := keep_gcond hP hx
    have h2 := keep_gstmts hP hb
    have h3 := keep_gelse hP he
    have h4 := keep_gstmts hP h
    match els, h3 with
    | none, _ => exact ⟨⟨h1, h2⟩, h4⟩
    | some e, h3 => exact ⟨⟨h1, h2, h3 e rfl⟩, h4⟩

theorem keep_gelse (hP : Scalars P) {ts : List Tok} {els : Option (List Stmt)} (h : GElse env src ts els) :
    ∀ e, els = some e → StmtsOf P e := by
  match h with
  | .endif _ => intro e he; cases he
  | .else_ _ hb _ => intro e he; cases he; exact keep_gstmts hP hb
  | .elseIf (els := els) t _ hx hb hel =>
    intro e he
    cases he
    have h1 := keep_gcond hP hx
    have h2 := keep_gstmts hP hb
    have h3 := keep_gelse hP hel
    match els, h3 with
    | none, _ => exact ⟨⟨h1, h2⟩, trivial⟩
    | some e, h3 => exact ⟨⟨h1, h2, h3 e rfl⟩, trivial⟩
end

theorem code_append {a b : List Instr} (ha : CodeOf P a) (hb : CodeOf P b) : CodeOf P (a ++ b) := by
  intro i hi
  rcases List.mem_append.mp hi with h | h
  · exact ha i h
  · exact hb i h

theorem code_cons {a : Instr} {b : List Instr} (ha : InstrOf P a) (hb : CodeOf P b) : CodeOf P (a :: b) := by
  intro i hi
  rcases List.mem_cons.mp hi with rfl | h
  · exact ha
  · exact hb i h

theorem code_nil : CodeOf P [] := fun _ h => by cases h

theorem code_one {a : Instr} (ha : InstrOf P a) : CodeOf P [a] := code_cons ha code_nil

theorem keep_codeExpr {e : Expr} (h : ExprOf P e) : CodeOf P (codeExpr e) := by
  induction e with
  | base b =>
    cases b with
    | var v => exact code_one trivial
    | lit l => exact code_one h
  | call name args recv sp ih => exact code_append (ih h.2) (code_one h.1)

theorem keep_codeEmit {e : Expr} (h : ExprOf P e) : CodeOf P (codeEmit e) := by
  unfold codeEmit
  split
  · exact code_append (keep_codeExpr h.2) (code_one trivial)
  · exact code_append (keep_codeExpr h) (code_one trivial)

mutual
theorem keep_codeStmt (n : Nat) : ∀ {s : Stmt}, StmtOf P s → CodeOf P (codeStmt n s)
  | .raw sp, h => code_one trivial
  | .inlineExpr e _, h => keep_codeEmit h
  | .include_ name none, h => code_one trivial
  | .include_ name (some e), h => code_append (keep_codeExpr h) (code_one trivial)
  | .ifElse neg cond thn none, h => by
    unfold codeStmt
    have h1 := fun n => keep_codeStmts n h.2
    have h2 := keep_codeExpr h.1
    cases neg <;>
    simp only [] <;> repeat' first
      | exact h2 | exact h1 _ | exact code_nil | trivial | apply code_append | apply code_cons
  | .ifElse neg cond thn (some els), h => by
    unfold codeStmt
    have h1 := fun n => keep_codeStmts n h.2.1
    have h3 := fun n => keep_codeStmts n h.2.2
    have h2 := keep_codeExpr h.1
    cases neg <;>
    simp only [] <;> repeat' first
      | exact h2 | exact h1 _ | exact h3 _ | exact code_nil | trivial | apply code_append | apply code_cons
  | .forLoop vars e body, h => by
    unfold codeStmt
    have h1 := fun n => keep_codeStmts n h.2
    have h2 := keep_codeExpr h.1
    repeat' first
      | exact h2 | exact h1 _ | exact code_nil | trivial | apply code_append | apply code_cons
  | .with_ e name body, h => by
    unfold codeStmt
    have h1 := fun n => keep_codeStmts n h.2
    have h2 := keep_codeExpr h.1
    repeat' first
      | exact h2 | exact h1 _ | exact code_nil | trivial | apply code_append | apply code_cons

theorem keep_codeStmts (n : Nat) : ∀ {ss : List Stmt}, StmtsOf P ss → CodeOf P (codeStmts n ss)
  | [], _ => code_nil
  | s :: ss, h => code_append (keep_codeStmt n h.1) (keep_codeStmts _ h.2)
end

section
variable {T : Tree}

theorem lits_base {b : BaseExpr} (h : ∀ v ∈ baseLits b, P v) : BaseOf P b := by
  cases b with
  | var v => trivial
  | lit l => exact h _ (by simp [baseLits])

theorem lits_expr : ∀ {e : Expr}, (∀ v ∈ exprLits e, P v) → ExprOf P e
  | .base _, h => lits_base h
  | .call _ args recv _, h => by
    refine ⟨fun x hx => lits_base fun v hv => h v ?_, lits_expr fun v hv => h v ?_⟩
    · rw [exprLits]; exact List.mem_append_right _ (List.mem_flatMap.mpr ⟨x, hx, hv⟩)
    · rw [exprLits]; exact List.mem_append_left _ hv

mutual
theorem lits_stmt : ∀ {s : Stmt}, (∀ e ∈ stmtExprs s, ∀ v ∈ exprLits e, P v) → StmtOf P s
  | .raw _, _ => by rw [StmtOf]; trivial
  | .inlineExpr e _, h => by rw [StmtOf]; exact lits_expr (h e (by simp [stmtExprs]))
  | .include_ _ none, _ => by rw [StmtOf]; trivial
  | .include_ _ (some e), h => by rw [StmtOf]; exact lits_expr (h e (by simp [stmtExprs]))
  | .ifElse _ e t none, h => by
    rw [StmtOf]; exact ⟨lits_expr (h e (by simp [stmtExprs])), lits_stmts fun x hx => h x (by simp [stmtExprs, hx])⟩
  | .ifElse _ e t (some f), h => by
    rw [StmtOf]
    exact ⟨lits_expr (h e (by simp [stmtExprs])), lits_stmts fun x hx => h x (by simp [stmtExprs, hx]), lits_stmts fun x hx => h x (by simp [stmtExprs, hx])⟩
  | .forLoop _ e b, h => by
    rw [StmtOf]; exact ⟨lits_expr (h e (by simp [stmtExprs])), lits_stmts fun x hx => h x (by simp [stmtExprs, hx])⟩
  | .with_ e _ b, h => by
    rw [StmtOf]; exact ⟨lits_expr (h e (by simp [stmtExprs])), lits_stmts fun x hx => h x (by simp [stmtExprs, hx])⟩
theorem lits_stmts : ∀ {ss : List Stmt}, (∀ e ∈ stmtsExprs ss, ∀ v ∈ exprLits e, P v) → StmtsOf P ss
  | [], _ => by rw [StmtsOf]; trivial
  | s :: ss, h => by
    rw [StmtsOf]; exact ⟨lits_stmt fun x hx => h x (by simp [stmtsExprs, hx]), lits_stmts fun x hx => h x (by simp [stmtsExprs, hx])⟩
end

theorem keep_parsed {env : Env} {t : Template} (hT : Parsed env t T) (h : ∀ v, HasLit T v → P v) : CodeOf P t.instrs := by
  have hc := hT.code
  rw [compileTemplate_eq] at hc
  have hc := Option.some.inj hc
  rw [← hc]
  exact keep_codeStmts 0 (lits_stmts fun e he v hv => h v ⟨e, he, hv⟩)

end

theorem keep_compiled (hP : Scalars P) {env : Env} {t : Template} (h : Compiled env t) : CodeOf P t.instrs := by
  obtain ⟨T, hT⟩ := compiled_parsed h
  have hc := hT.code
  rw [compileTemplate_eq] at hc
  have hc := Option.some.inj hc
  rw [← hc]
  obtain ⟨_, _, _, _, _, _, _, h2⟩ := hT
  exact keep_codeStmts 0 (keep_gstmts hP h2)

end Vals
end Upon
