import Verif.Spec.Data
import Verif.Props.Serial
import Verif.Props.Filters
import Verif.Proofs.ParsedIn
/-
All maps in a running render are in key order.
-/
namespace Upon
open Spec Compiler
variable {σ : Type} {env : Env} {src : Str}

/-- If there is a value it is ordered. -/
structure Ord1 (r : Res (Option Value)) : Prop where
  of : ∀ v, r = .ok (some v) → Ordered v
structure OrdC (r : Res Cow) : Prop where
  of : ∀ c, r = .ok c → Ordered c.val
structure OrdO (r : Res (Option Cow)) : Prop where
  of : ∀ c, r = .ok (some c) → Ordered c.val

theorem ordered_lookup {v : Value} (h : Ordered v) (m : Member) : Ord1 (lookup env src v m) := by
  constructor
  intro x hx
  rw [lookup.eq_def] at hx
  split at hx
  · next l i _ =>
    cases hg : l[i.value]? with
    | none => rw [hg] at hx; cases hop : m.op <;> rw [hop] at hx <;> simp only [errRender, throwAt] at hx <;> first | (split at hx <;> cases hx) | cases hx
    | some y =>
      rw [hg] at hx
      have hx : y = x := by cases m.op <;> simpa using hx
      subst hx
      exact orderedList_iff.mp h _ (List.mem_of_getElem? hg)
  · next mp k _ =>
    cases hs : k.span.of src with
    | none => rw [hs] at hx; cases hx
    | some n =>
      rw [hs] at hx
      simp only [Res.ofOption, Res.ok_bind] at hx
      cases hg : BMap.get mp n with
      | none => rw [hg] at hx; cases hop : m.op <;> rw [hop] at hx <;> simp only [errRender, throwAt] at hx <;> first | (split at hx <;> cases hx) | cases hx
      | some y =>
        rw [hg] at hx
        have hx : y = x := by cases m.op <;> simpa using hx
        subst hx
        exact orderedMap_iff.mp h.2 _ (get_some_mem hg)
  · rw [errRender, throwAt] at hx; split at hx <;> cases hx
  · rw [errRender, throwAt] at hx; split at hx <;> cases hx

theorem ordered_walk (ms : List Member) : ∀ {v : Value}, Ordered v → Ord1 (walk env src v ms) := by
  induction ms with
  | nil => intro v h; exact ⟨fun x hx => by cases hx; exact h⟩
  | cons m ms ih =>
    intro v h
    rw [walk]
    have := ordered_lookup (env := env) (src := src) h m
    cases hl : lookup env src v m with
    | err e => exact ⟨fun x hx => by cases hx⟩
    | crash => exact ⟨fun x hx => by cases hx⟩
    | ok o =>
      cases o with
      | none => exact ⟨fun x hx => by cases hx⟩
      | some v' => exact ih (this.of v' hl)

theorem ordered_walkMaybe (ms : List Member) : ∀ (i : Nat) {v : Value}, Ordered v →
    ∀ x, walkMaybe env src i v ms = .ok (some (some x)) → Ordered x := by
  induction ms with
  | nil => intro i v h x hx; cases hx; exact h
  | cons m ms ih =>
    intro i v h x hx
    rw [walkMaybe] at hx
    have := ordered_lookup (env := env) (src := src) h m
    cases hl : lookup env src v m with
    | err e => rw [hl] at hx; dsimp only at hx; split at hx <;> cases hx
    | crash => rw [hl] at hx; cases hx
    | ok o =>
      rw [hl] at hx
      cases o with
      | none => dsimp only at hx; split at hx <;> cases hx
      | some v' => exact ih _ (this.of v' hl) x hx

theorem ordered_lookupPath {c : Cow} (h : Ordered c.val) (ms : List Member) : OrdC (lookupPath env src c ms) := by
  constructor
  intro x hx
  cases c with
  | borrowed v =>
    rw [lookupPath] at hx
    have := ordered_walk (env := env) (src := src) ms (v := v) h
    cases hw : walk env src v ms with
    | err e => rw [hw] at hx; cases hx
    | crash => rw [hw] at hx; cases hx
    | ok o =>
      rw [hw] at hx
      cases o with
      | none => cases hx; simp [Cow.val, Ordered]
      | some v' => cases hx; exact this.of v' hw
  | owned v =>
    rw [lookupPath] at hx
    have := ordered_walk (env := env) (src := src) ms (v := v) h
    cases hw : walk env src v ms with
    | err e => rw [hw] at hx; cases hx
    | crash => rw [hw] at hx; cases hx
    | ok o =>
      rw [hw] at hx
      cases o with
      | none => cases hx; simp [Cow.val, Ordered]
      | some v' => cases hx; exact this.of v' hw

theorem ordered_lookupPathMaybe {c : Cow} (h : Ordered c.val) (ms : List Member) : OrdO (lookupPathMaybe env src c ms) := by
  constructor
  intro x hx
  cases c with
  | borrowed v =>
    rw [lookupPathMaybe] at hx
    have := ordered_walkMaybe (env := env) (src := src) ms 0 (v := v) h
    cases hw : walkMaybe env src 0 v ms with
    | err e => rw [hw] at hx; cases hx
    | crash => rw [hw] at hx; cases hx
    | ok o =>
      rw [hw] at hx
      rcases o with _ | _ | v'
      · cases hx
      · cases hx; simp [Cow.val, Ordered]
      · cases hx; exact this v' hw
  | owned v =>
    rw [lookupPathMaybe] at hx
    have := ordered_walkMaybe (env := env) (src := src) ms 0 (v := v) h
    cases hw : walkMaybe env src 0 v ms with
    | err e => rw [hw] at hx; cases hx
    | crash => rw [hw] at hx; cases hx
    | ok o =>
      rw [hw] at hx
      rcases o with _ | _ | v'
      · cases hx
      · cases hx; simp [Cow.val, Ordered]
      · cases hx; exact this v' hw

theorem ordered_loopMap (i r : Nat) : Ordered (loopMap i r) := by
  rw [loopMap_eq]
  refine ⟨?_, ?_⟩
  · simp only [Ascending, List.map, List.pairwise_cons, List.mem_cons, List.not_mem_nil, or_false]
    refine ⟨fun b hb => ?_, fun b hb => ?_, fun b hb => ?_, .nil⟩
    · rcases hb with rfl | rfl <;> exact strLt_iff.mp (by decide)
    · subst hb; exact strLt_iff.mp (by decide)
    · exact absurd hb id
  · simp [OrderedMap, Ordered]

theorem ordered_lookupLoop (ls : LoopState) (ms : List Member) : OrdO (ls.lookupLoop env src ms) := by
  constructor
  intro x hx
  rw [LoopState.lookupLoop.eq_def] at hx
  split at hx
  · cases hx
  · split at hx
    · cases hx; exact ordered_loopMap _ _
    · split at hx
      · rw [errRender, throwAt] at hx; split at hx <;> cases hx
      · next m ms _ k _ =>
        obtain ⟨n, _, hx⟩ := bind_ok.mp hx
        obtain ⟨v, hv, hx⟩ := bind_ok.mp hx
        have ho : Ordered v := by
          split at hv
          · cases hv; simp [Ordered]
          · split at hv
            · cases hv; simp [Ordered]
            · split at hv
              · cases hv; simp [Ordered]
              · split at hv
                · cases hv; simp [Ordered]
                · rw [errRender, throwAt] at hv; split at hv <;> cases hv
        split at hx
        · rw [errRender, throwAt] at hx; split at hx <;> cases hx
        · cases hx; exact ho

theorem ordered_loopVar {ls : LoopState} (h : OrderedLoop ls) (v : Var) : OrdO (ls.lookupVar env src v) := by
  constructor
  intro x hx
  rw [LoopState.lookupVar.eq_def] at hx
  split at hx
  · cases hx
  · obtain ⟨n, _, hx⟩ := bind_ok.mp hx
    split at hx
    · exact (ordered_lookupLoop ls v.rest).of x hx
    · split at hx
      · next owned i nx rem idx value =>
        split at hx
        · obtain ⟨o, ho, hx⟩ := bind_ok.mp hx
          cases o with
          | none => cases hx
          | some y =>
            cases hx
            rw [mkCow_val]
            exact (ordered_walk v.rest (h.2 _ rfl)).of y ho
        · cases hx
      · next owned kn vn nx rem idx string value =>
        split at hx
        · split at hx
          · rw [errRender, throwAt] at hx; split at hx <;> cases hx
          · cases hx; simp [Cow.val, Ordered]
        · split at hx
          · obtain ⟨o, ho, hx⟩ := bind_ok.mp hx
            cases o with
            | none => cases hx
            | some y =>
              cases hx
              rw [mkCow_val]
              exact (ordered_walk v.rest (h.2 _ rfl)).of y ho
          · cases hx
      · cases hx

theorem ordered_lookupVar {st : Stack} (h : OrderedStack st) (v : Var) : OrdC (lookupVar env src st v) := by
  constructor
  induction st with
  | nil => intro c hc; rw [lookupVar, errRender, throwAt] at hc; split at hc <;> cases hc
  | cons s st ih =>
    have ih := ih (fun s hs => h s (List.mem_cons_of_mem _ hs))
    have h0 := h s List.mem_cons_self
    intro c hc
    cases s with
    | valueFn f =>
      rw [lookupVar] at hc
      obtain ⟨p, hp, hc⟩ := bind_ok.mp hc
      cases hf : f p with
      | ok x => rw [hf] at hc; cases hc; exact h0 p x hf
      | error e => rw [hf] at hc; simp only [errRender, throwAt] at hc; split at hc <;> cases hc
    | scope c' =>
      rw [lookupVar] at hc
      obtain ⟨o, ho, hc⟩ := bind_ok.mp hc
      cases o with
      | none => exact ih c hc
      | some x => cases hc; exact (ordered_lookupPathMaybe h0 _).of _ ho
    | var n c' =>
      rw [lookupVar] at hc
      obtain ⟨a, _, hc⟩ := bind_ok.mp hc
      obtain ⟨b, _, hc⟩ := bind_ok.mp hc
      split at hc
      · exact (ordered_lookupPath h0 _).of c hc
      · exact ih c hc
    | loop ls =>
      rw [lookupVar] at hc
      obtain ⟨o, ho, hc⟩ := bind_ok.mp hc
      cases o with
      | none => exact ih c hc
      | some x => cases hc; exact (ordered_loopVar h0 v).of _ ho
    | boundary => rw [lookupVar, errRender, throwAt] at hc; split at hc <;> cases hc

/-! Filters -/

theorem ordered_ref {t : ArgTy} {v : Value} {a : ArgVal} (hv : Ordered v) (h : t.fromValueRef env v = .ok a) : OrderedArg a := by
  have := (C31_convert t v a).mp h
  cases this with
  | list => exact orderedList_iff.mp hv
  | listRef => exact orderedList_iff.mp hv
  | map => exact hv
  | mapRef => exact hv
  | value => exact hv
  | valueRef => exact hv
  | _ => trivial

theorem ordered_arg {st : Stack} (h : OrderedStack st) {t : ArgTy} {x : BaseExpr} (hx : OrderedBase x) {a : ArgVal}
    (ha : getArg env src st t x = .ok a) : OrderedArg a := by
  cases (getArg_ok t x a).mp ha with
  | lit hc => exact ordered_ref hx ((C31_convert _ _ _).mpr hc)
  | borrowed hl hc => exact ordered_ref ((ordered_lookupVar h _).of _ hl) ((C31_convert _ _ _).mpr hc)
  | owned hl _ hc => exact ordered_ref ((ordered_lookupVar h _).of _ hl) ((C31_convert _ _ _).mpr hc)

theorem ordered_args {st : Stack} (h : OrderedStack st) (ts : List ArgTy) : ∀ {xs : List BaseExpr}, (∀ x ∈ xs, OrderedBase x) →
    ∀ {as : List ArgVal}, getArgs env src st ts xs = .ok as → ∀ a ∈ as, OrderedArg a := by
  induction ts with
  | nil =>
    intro xs _ as ha
    cases xs <;> (rw [getArgs] at ha; cases ha; intro a h; cases h)
  | cons t ts ih =>
    intro xs hx as ha
    cases xs with
    | nil => cases ha
    | cons x xs =>
      rw [getArgs] at ha
      obtain ⟨y, hy, ha⟩ := bind_ok.mp ha
      obtain ⟨ys, hys, ha⟩ := bind_ok.mp ha
      cases ha
      intro a hm
      rcases List.mem_cons.mp hm with rfl | hm
      · exact ordered_arg h (hx x (by simp)) hy
      · exact ih (fun x h => hx x (by simp [h])) hys a hm

theorem ordered_call {fs : BMap EngFn} (hfs : OrderedFilters fs) {n : Str} {f : Filter} (hf : BMap.get fs n = some (.filter f))
    {st : Stack} (h : OrderedStack st) {name : Ident} {v : Cow} (hv : Ordered v.val) {args : List BaseExpr}
    (hx : ∀ x ∈ args, OrderedBase x) {sp : Span} {r : Value}
    (hr : enrich env src sp (callFilter env f src st name v args) = .ok r) : Ordered r := by
  have hr : callFilter env f src st name v args = .ok r := by
    cases hc : callFilter env f src st name v args with
    | ok r' => rw [hc] at hr; exact hr
    | err e =>
      rw [hc] at hr
      simp only [enrich] at hr
      split at hr
      · cases hr
      · split at hr <;> cases hr
    | crash => rw [hc] at hr; cases hr
  obtain ⟨hlen, a, as, h1, h2, h3⟩ := (C31_call f name v args r).mp hr
  exact hfs n f a as r hf (ordered_ref hv ((C31_convert _ _ _).mpr h1))
    (ordered_args h f.args hx ((getArgs_ok _ _ hlen _).mpr h2)) h3

/-! One step -/

variable {cfg : RenderCfg σ}

theorem orderedStack_cons {s : SState} {st : Stack} (h : OrderedStack (s :: st)) : OrderedState s ∧ OrderedStack st :=
  ⟨h s List.mem_cons_self, fun x hx => h x (List.mem_cons_of_mem _ hx)⟩

theorem orderedStack_push {s : SState} {st : Stack} (hs : OrderedState s) (h : OrderedStack st) : OrderedStack (s :: st) := by
  intro x hx
  rcases List.mem_cons.mp hx with rfl | hx
  · exact hs
  · exact h x hx

/-- What an instruction leaves behind is ordered. -/
def OrderedOne : OneStep σ → Prop
  | .next _ st ex _ => OrderedStack st ∧ ∀ c, ex = some c → Ordered c.val
  | .includeWith _ _ g => Ordered g.val
  | _ => True

theorem orderedOne_ofRes {α : Type} {w : World σ} {r : Res α} {k : α → OneStep σ} (h : ∀ a, r = .ok a → OrderedOne (k a)) :
    OrderedOne (OneStep.ofRes w r k) := by
  cases r with
  | ok a => exact h a rfl
  | err e => trivial
  | crash => trivial

theorem orderedOne_emit {f : Formatter} {v : Value} {sp : Span} {w : World σ} {pc : Nat} {st : Stack} (h : OrderedStack st) :
    OrderedOne (emit cfg f v src sp w (fun w => .next pc st none w)) := by
  rw [emit.eq_def]
  split
  · exact ⟨h, fun c hc => by cases hc⟩
  · exact orderedOne_ofRes fun _ _ => trivial

theorem ordered_loopNew {vars : LoopVars} {c : Cow} (h : Ordered c.val) {sp : Span} {ls : LoopState}
    (hl : LoopState.new env src vars c sp = .ok ls) : OrderedLoop ls := by
  rw [LoopState.new.eq_def] at hl
  dsimp only at hl
  generalize c.val = v at hl h
  have er : ∀ {α : Type} {m sp} {a : α}, (errRender env m src sp : Res α) ≠ .ok a := by
    intro α m sp a h
    rw [errRender, throwAt] at h; split at h <;> cases h
  cases v with
  | list l =>
    cases vars with
    | item i =>
      obtain ⟨n, _, hl⟩ := bind_ok.mp hl
      cases hl
      exact ⟨orderedList_iff.mp h, fun p hp => by cases hp⟩
    | keyValue _ _ _ => exact absurd hl er
  | map m =>
    cases vars with
    | item i => exact absurd hl er
    | keyValue _ _ _ =>
      obtain ⟨n, _, hl⟩ := bind_ok.mp hl
      obtain ⟨n', _, hl⟩ := bind_ok.mp hl
      cases hl
      exact ⟨orderedMap_iff.mp h.2, fun p hp => by cases hp⟩
  | _ => exact absurd hl er

theorem ordered_iterate {ls ls' : LoopState} (h : OrderedLoop ls) (hi : ls.iterate = some ls') : OrderedLoop ls' := by
  cases ls with
  | list o i n rem v =>
    cases rem with
    | nil => cases hi
    | cons x xs =>
      cases hi
      exact ⟨fun y hy => h.1 y (by simp [hy]), fun p hp => by cases hp; exact h.1 x (by simp)⟩
  | map o k v n rem x =>
    cases rem with
    | nil => cases hi
    | cons x xs =>
      cases hi
      exact ⟨fun y hy => h.1 y (by simp [hy]), fun p hp => by cases hp; exact h.1 x (by simp)⟩

theorem ordered_exec (hfs : OrderedFilters cfg.functions) {st : Stack} (h : OrderedStack st) {ex : Option Cow}
    (hex : ∀ c, ex = some c → Ordered c.val) {i : Instr} (hi : OrderedInstr i) (pc : Nat) (w : World σ) :
    OrderedOne (execInstr cfg src pc st ex w i) := by
  have no : ∀ c : Cow, (none : Option Cow) = some c → Ordered c.val := fun c hc => by cases hc
  rw [execInstr.eq_def]
  cases i with
  | jump j => exact ⟨h, hex⟩
  | jumpIfTrue j => cases ex with
    | none => trivial
    | some v => dsimp only; split <;> exact ⟨h, no⟩
  | jumpIfFalse j => cases ex with
    | none => trivial
    | some v => dsimp only; split <;> exact ⟨h, no⟩
  | emit sp => cases ex with
    | none => trivial
    | some v => exact orderedOne_emit h
  | emitRaw sp =>
    refine orderedOne_ofRes fun raw _ => ?_
    split
    · exact ⟨h, hex⟩
    · trivial
  | emitWith name sp =>
    refine orderedOne_ofRes fun n _ => ?_
    cases hf : BMap.get cfg.functions n with
    | none => exact orderedOne_ofRes fun _ _ => trivial
    | some g =>
      cases g with
      | formatter f =>
        cases ex with
        | none => trivial
        | some v => exact orderedOne_emit h
      | filter f =>
        cases ex with
        | none => trivial
        | some v => exact orderedOne_ofRes fun _ _ => orderedOne_emit h
  | loopStart vars sp =>
    cases ex with
    | none => trivial
    | some v => exact orderedOne_ofRes fun ls hl => ⟨orderedStack_push (ordered_loopNew (hex v rfl) hl) h, no⟩
  | loopNext j =>
    dsimp only
    split
    · next ls rest =>
      obtain ⟨h1, h2⟩ := orderedStack_cons h
      cases hi : ls.iterate with
      | some ls' => exact ⟨orderedStack_push (ordered_iterate h1 hi) h2, hex⟩
      | none => exact ⟨h2, hex⟩
    · trivial
  | withStart name =>
    cases ex with
    | none => trivial
    | some v => exact ⟨orderedStack_push (hex v rfl) h, no⟩
  | withEnd =>
    dsimp only
    split
    · exact ⟨(orderedStack_cons h).2, hex⟩
    · trivial
  | include_ name => trivial
  | includeWith name =>
    cases ex with
    | none => trivial
    | some v => exact hex v rfl
  | exprStart v =>
    refine orderedOne_ofRes fun x hx => ?_
    cases ex with
    | none => exact ⟨h, fun c hc => by cases hc; exact (ordered_lookupVar h v).of x hx⟩
    | some v => trivial
  | exprStartLit v =>
    cases ex with
    | none => exact ⟨h, fun c hc => by cases hc; exact hi⟩
    | some v => trivial
  | apply name sp args =>
    refine orderedOne_ofRes fun n _ => ?_
    cases hf : BMap.get cfg.functions n with
    | none => exact orderedOne_ofRes fun _ _ => trivial
    | some g =>
      cases g with
      | formatter f => exact orderedOne_ofRes fun _ _ => trivial
      | filter f =>
        cases ex with
        | none => trivial
        | some v =>
          exact orderedOne_ofRes fun r hr => ⟨h, fun c hc => by cases hc; exact ordered_call hfs hf h (hex v rfl) hi hr⟩

theorem checkDepth_next {vm vm' : VM σ} (h : checkDepth cfg vm = .next vm') : vm' = vm := by
  rw [checkDepth] at h
  split at h
  · cases h
  · cases h; rfl

theorem ordered_step (hfs : OrderedFilters cfg.functions) (hts : ∀ t, Includable cfg t → OrderedCode t.instrs) {vm vm' : VM σ}
    (h : OrderedVM vm) (hs : step cfg vm = .next vm') : OrderedVM vm' := by
  obtain ⟨frames, st, ex, w⟩ := vm
  obtain ⟨hc, hst, hex⟩ := h
  dsimp only at hc hst hex
  have no : ∀ c : Cow, (none : Option Cow) = some c → Ordered c.val := fun c hc => by cases hc
  cases frames with
  | nil => cases hs
  | cons fr frames =>
    have hfr := hc fr List.mem_cons_self
    have hrest : ∀ f ∈ frames, OrderedCode f.tmpl.instrs := fun f hf => hc f (List.mem_cons_of_mem _ hf)
    rw [step] at hs
    dsimp only at hs
    cases hi : fr.tmpl.instrs[fr.pc]? with
    | none =>
      rw [hi] at hs
      dsimp only at hs
      split at hs
      · split at hs
        · split at hs
          · rw [checkDepth_next hs]
            exact ⟨hrest, (orderedStack_cons (orderedStack_cons hst).2).2, no⟩
          · cases hs
        · rw [checkDepth_next hs]
          exact ⟨hrest, hst, no⟩
      · cases hs
    | some i =>
      rw [hi] at hs
      dsimp only at hs
      have := ordered_exec (src := fr.tmpl.source) hfs hst hex (hfr i (List.mem_of_getElem? hi)) fr.pc w
      have hpc : ∀ pc, ∀ f ∈ { fr with pc := pc } :: frames, OrderedCode f.tmpl.instrs := by
        intro pc f hf
        rcases List.mem_cons.mp hf with rfl | hf
        · exact hfr
        · exact hrest f hf
      have hinc : ∀ {n : AstString} {w' : World σ} {t : Template}, getTemplate cfg fr.tmpl.source n w = (w', .ok t) → OrderedCode t.instrs := by
        intro n w' t hg
        exact hts t (find_includable (by rw [← find_eq]; exact hg))
      cases he : execInstr cfg fr.tmpl.source fr.pc st ex w i with
      | next pc st' ex' w' =>
        rw [he] at hs this
        cases hs
        exact ⟨hpc pc, this.1, this.2⟩
      | err e w => rw [he] at hs; cases hs
      | crash => rw [he] at hs; cases hs
      | include_ pc n =>
        rw [he] at hs
        dsimp only at hs
        rcases hg : getTemplate cfg fr.tmpl.source n w with ⟨w', r⟩
        rw [hg] at hs
        cases r with
        | err e => cases hs
        | crash => cases hs
        | ok t =>
          rw [checkDepth_next hs]
          refine ⟨fun f hf => ?_, hst, no⟩
          rcases List.mem_cons.mp hf with rfl | hf
          · exact hinc hg
          · exact hpc pc f hf
      | includeWith pc n g =>
        rw [he] at hs this
        dsimp only at hs
        rcases hg : getTemplate cfg fr.tmpl.source n w with ⟨w', r⟩
        rw [hg] at hs
        cases r with
        | err e => cases hs
        | crash => cases hs
        | ok t =>
          rw [checkDepth_next hs]
          refine ⟨fun f hf => ?_, orderedStack_push this (orderedStack_push trivial hst), no⟩
          rcases List.mem_cons.mp hf with rfl | hf
          · exact hinc hg
          · exact hpc pc f hf

/-! Compiled code -/

def OrderedExpr : Expr → Prop
  | .base b => OrderedBase b
  | .call _ args recv _ => (∀ x ∈ (args.map Args.values).getD [], OrderedBase x) ∧ OrderedExpr recv

mutual
def OrderedStmt : Stmt → Prop
  | .raw _ => True
  | .inlineExpr e _ => OrderedExpr e
  | .include_ _ none => True
  | .include_ _ (some e) => OrderedExpr e
  | .ifElse _ cond thn none => OrderedExpr cond ∧ OrderedStmts thn
  | .ifElse _ cond thn (some els) => OrderedExpr cond ∧ OrderedStmts thn ∧ OrderedStmts els
  | .forLoop _ e body => OrderedExpr e ∧ OrderedStmts body
  | .with_ e _ body => OrderedExpr e ∧ OrderedStmts body
def OrderedStmts : List Stmt → Prop
  | [] => True
  | s :: ss => OrderedStmt s ∧ OrderedStmts ss
end

theorem ordered_gbase {ts b} (h : GBase env src ts b) : OrderedBase b := by
  cases h with
  | number _ h => cases h <;> simp [OrderedBase, Ordered]
  | plus _ h => cases h <;> simp [OrderedBase, Ordered]
  | minus _ h => cases h <;> simp [OrderedBase, Ordered]
  | var h => trivial
  | _ => simp [OrderedBase, Ordered]

theorem ordered_gargs {ts es} (h : GArgs env src ts es) : ∀ x ∈ es, OrderedBase x := by
  induction h with
  | one h =>
    intro x hx
    rcases List.mem_cons.mp hx with rfl | hx
    · exact ordered_gbase h
    · cases hx
  | more h _ ih =>
    intro x hx
    rcases List.mem_cons.mp hx with rfl | hx
    · exact ordered_gbase h
    · exact ih x hx

theorem ordered_gcalls {e ts e'} (h : GCalls env src e ts e') (he : OrderedExpr e) : OrderedExpr e' := by
  induction h with
  | nil => exact he
  | call _ ih => exact ih ⟨(fun x hx => by cases hx), he⟩
  | callArgs ha _ ih => exact ih ⟨ordered_gargs ha, he⟩

theorem ordered_gexpr {ts e} (h : GExpr env src ts e) : OrderedExpr e := by
  obtain ⟨us, b, vs, rfl, hb, hc⟩ := h
  exact ordered_gcalls hc (ordered_gbase hb)

theorem ordered_gcond {ts n e} (h : GCond env src ts n e) : OrderedExpr e := by
  cases h with
  | plain h => exact ordered_gexpr h
  | not _ h => exact ordered_gexpr h

mutual
theorem ordered_gstmts {ts : List Tok} {ss : List Stmt} (h : GStmts env src ts ss) : OrderedStmts ss := by
  match h with
  | .nil => exact trivial
  | .raw h => exact ⟨trivial, ordered_gstmts h⟩
  | .comment h => exact ordered_gstmts h
  | .expr h1 h2 => exact ⟨ordered_gexpr h1, ordered_gstmts h2⟩
  | .include_ t _ _ h => exact ⟨trivial, ordered_gstmts h⟩
  | .includeWith t _ _ _ hx h => exact ⟨ordered_gexpr hx, ordered_gstmts h⟩
  | .for_ t hv _ hx hb _ h => exact ⟨⟨ordered_gexpr hx, ordered_gstmts hb⟩, ordered_gstmts h⟩
  | .with_ t hx _ hb _ h => exact ⟨⟨ordered_gexpr hx, ordered_gstmts hb⟩, ordered_gstmts h⟩
  | .if_ (els := els) t hx hb he h =>
    have h1 := ordered_gcond hx
    have h2 := ordered_gstmts hb
    have h3 := ordered_gelse he
    have h4 := ordered_gstmts h
    match els, h3 with
    | none, _ => exact ⟨⟨h1, h2⟩, h4⟩
    | some e, h3 => exact ⟨⟨h1, h2, h3 e rfl⟩, h4⟩

theorem ordered_gelse {ts : List Tok} {els : Option (List Stmt)} (h : GElse env src ts els) :
    ∀ e, els = some e → OrderedStmts e := by
  match h with
  | .endif _ => intro e he; cases he
  | .else_ _ hb _ => intro e he; cases he; exact ordered_gstmts hb
  | .elseIf (els := els) t _ hx hb hel =>
    intro e he
    cases he
    have h1 := ordered_gcond hx
    have h2 := ordered_gstmts hb
    have h3 := ordered_gelse hel
    match els, h3 with
    | none, _ => exact ⟨⟨h1, h2⟩, trivial⟩
    | some e, h3 => exact ⟨⟨h1, h2, h3 e rfl⟩, trivial⟩
end

theorem orderedCode_append {a b : List Instr} (ha : OrderedCode a) (hb : OrderedCode b) : OrderedCode (a ++ b) := by
  intro i hi
  rcases List.mem_append.mp hi with h | h
  · exact ha i h
  · exact hb i h

theorem orderedCode_cons {a : Instr} {b : List Instr} (ha : OrderedInstr a) (hb : OrderedCode b) : OrderedCode (a :: b) := by
  intro i hi
  rcases List.mem_cons.mp hi with rfl | h
  · exact ha
  · exact hb i h

theorem orderedCode_nil : OrderedCode [] := fun _ h => by cases h

theorem orderedCode_one {a : Instr} (ha : OrderedInstr a) : OrderedCode [a] := orderedCode_cons ha orderedCode_nil

theorem ordered_codeExpr {e : Expr} (h : OrderedExpr e) : OrderedCode (codeExpr e) := by
  induction e with
  | base b =>
    cases b with
    | var v => exact orderedCode_one trivial
    | lit l => exact orderedCode_one h
  | call name args recv sp ih => exact orderedCode_append (ih h.2) (orderedCode_one h.1)

theorem ordered_codeEmit {e : Expr} (h : OrderedExpr e) : OrderedCode (codeEmit e) := by
  unfold codeEmit
  split
  · exact orderedCode_append (ordered_codeExpr h.2) (orderedCode_one trivial)
  · exact orderedCode_append (ordered_codeExpr h) (orderedCode_one trivial)

mutual
theorem ordered_codeStmt (n : Nat) : ∀ {s : Stmt}, OrderedStmt s → OrderedCode (codeStmt n s)
  | .raw sp, h => orderedCode_one trivial
  | .inlineExpr e _, h => ordered_codeEmit h
  | .include_ name none, h => orderedCode_one trivial
  | .include_ name (some e), h => orderedCode_append (ordered_codeExpr h) (orderedCode_one trivial)
  | .ifElse neg cond thn none, h => by
    unfold codeStmt
    have h1 := fun n => ordered_codeStmts n h.2
    have h2 := ordered_codeExpr h.1
    cases neg <;>
    simp only [] <;> repeat' first
      | exact h2 | exact h1 _ | exact orderedCode_nil | trivial | apply orderedCode_append | apply orderedCode_cons
  | .ifElse neg cond thn (some els), h => by
    unfold codeStmt
    have h1 := fun n => ordered_codeStmts n h.2.1
    have h3 := fun n => ordered_codeStmts n h.2.2
    have h2 := ordered_codeExpr h.1
    cases neg <;>
    simp only [] <;> repeat' first
      | exact h2 | exact h1 _ | exact h3 _ | exact orderedCode_nil | trivial | apply orderedCode_append | apply orderedCode_cons
  | .forLoop vars e body, h => by
    unfold codeStmt
    have h1 := fun n => ordered_codeStmts n h.2
    have h2 := ordered_codeExpr h.1
    repeat' first
      | exact h2 | exact h1 _ | exact orderedCode_nil | trivial | apply orderedCode_append | apply orderedCode_cons
  | .with_ e name body, h => by
    unfold codeStmt
    have h1 := fun n => ordered_codeStmts n h.2
    have h2 := ordered_codeExpr h.1
    repeat' first
      | exact h2 | exact h1 _ | exact orderedCode_nil | trivial | apply orderedCode_append | apply orderedCode_cons

theorem ordered_codeStmts (n : Nat) : ∀ {ss : List Stmt}, OrderedStmts ss → OrderedCode (codeStmts n ss)
  | [], _ => orderedCode_nil
  | s :: ss, h => orderedCode_append (ordered_codeStmt n h.1) (ordered_codeStmts _ h.2)
end

theorem Spec.Compiled.ordered {env : Env} {t : Template} (h : Compiled env t) : OrderedCode t.instrs := by
  obtain ⟨T, hT⟩ := compiled_parsed h
  have hc := hT.code
  rw [compileTemplate_eq] at hc
  have hc := Option.some.inj hc
  rw [← hc]
  obtain ⟨_, _, _, _, _, _, _, h2⟩ := hT
  exact ordered_codeStmts 0 (ordered_gstmts h2)

end Upon
