import Verif.Proofs.SimStmt
import Verif.Spec.Effects
/-
The machine with functions that answer differently each time follows the timed meaning of the tree (C58).
-/
namespace Upon
namespace Eff
open Spec Compiler
variable {σ : Type}

@[simp] theorem acting_acting (b b' : Behaviour) (st : Stack) :
    (st.map (SState.acting b)).map (SState.acting b') = st.map (SState.acting b') := by
  rw [List.map_map]
  congr 1
  funext s
  cases s <;> rfl

theorem rel_acting (b : Behaviour) {st : Stack} {ρ : Scope} (h : Rel st ρ) :
    Rel (st.map (SState.acting b)) (Scope.acting b ρ) := by
  induction h with
  | nil => exact .nil
  | valueFn f _ ih => exact .valueFn _ ih
  | scope c _ ih => exact .scope c ih
  | var n c _ ih => exact .var n c ih
  | list o i n rem k x _ ih => exact .list o i n rem k x ih
  | map o kn vn n rem k s x _ ih => exact .map o kn vn n rem k s x ih
  | boundary _ ih => exact .boundary ih

variable {cfg : RenderCfg σ} {bs : Nat → Behaviour} {P : RunRes σ → Prop}

/-- From moment `a` on, the machine comes to an end, in one of the given ways. -/
def Ends (cfg : RenderCfg σ) (bs : Nat → Behaviour) (P : RunRes σ → Prop) (a : Nat) (vm : VM σ) : Prop :=
  ∃ n res, runActing cfg bs n a vm = some res ∧ P res

theorem Ends.next {a : Nat} {vm vm' : VM σ} (h : step (cfg.acting (bs a)) (vm.acting (bs a)) = .next vm')
    (h' : Ends cfg bs P (a + 1) vm') : Ends cfg bs P a vm := by
  obtain ⟨n, res, h', hp⟩ := h'
  exact ⟨n + 1, res, by rw [runActing, h]; exact h', hp⟩

theorem Ends.halt {a : Nat} {vm : VM σ} {res : RunRes σ} (h : step (cfg.acting (bs a)) (vm.acting (bs a)) = .halt res)
    (hp : P res) : Ends cfg bs P a vm := ⟨1, res, by rw [runActing, h], hp⟩

/-- Which value function is on the stack does not matter: the one of the moment is used. -/
theorem Ends.acting {a : Nat} {t : Template} {name : Option Str} {hs : Bool} {fs : List Frame} {pc : Nat} {st : Stack} {ex : Option Cow}
    {w : World σ} (b : Behaviour) (h : Ends cfg bs P a (mach t name hs fs pc st ex w)) :
    Ends cfg bs P a (mach t name hs fs pc (st.map (SState.acting b)) ex w) := by
  obtain ⟨n, res, h, hp⟩ := h
  refine ⟨n, res, ?_, hp⟩
  cases n with
  | zero => cases h
  | succ n =>
    rw [runActing] at h ⊢
    simp only [VM.acting, mach] at h ⊢
    rw [acting_acting]
    exact h

section
variable {t : Template} {name : Option Str} {hs : Bool} {fs : List Frame} {st : Stack} {ρ : Scope} {w : World σ} {pc a : Nat}
  {ex : Option Cow} {i : Instr}

/-- What remains to be shown after an instruction that leaves the stack as it is. -/
def After (cfg : RenderCfg σ) (bs : Nat → Behaviour) (P : RunRes σ → Prop) (a : Nat) (res : RunRes σ) (k : World σ → VM σ) : Prop :=
  match res with
  | .ok w => Ends cfg bs P a (k w)
  | .err e w => P (.err e w)
  | .crash => P .crash

theorem next (hi : t.instrs[pc]? = some i) {pc' : Nat} {st' : Stack} {ex' : Option Cow} {w' : World σ}
    (h : execInstr (cfg.acting (bs a)) t.source pc (st.map (SState.acting (bs a))) ex w i =
      .next pc' (st'.map (SState.acting (bs a))) ex' w')
    (h' : Ends cfg bs P (a + 1) (mach t name hs fs pc' st' ex' w')) : Ends cfg bs P a (mach t name hs fs pc st ex w) := by
  refine Ends.next ?_ (Ends.acting (bs a) h')
  simp only [step, VM.acting, mach, hi, h]

theorem error (hi : t.instrs[pc]? = some i) {e : Err} {w' : World σ}
    (h : execInstr (cfg.acting (bs a)) t.source pc (st.map (SState.acting (bs a))) ex w i = .err e w')
    (hp : P (.err (e.attachName name) w')) : Ends cfg bs P a (mach t name hs fs pc st ex w) := by
  refine Ends.halt ?_ hp
  simp only [step, VM.acting, mach, hi, h]

theorem crash (hi : t.instrs[pc]? = some i)
    (h : execInstr (cfg.acting (bs a)) t.source pc (st.map (SState.acting (bs a))) ex w i = .crash)
    (hp : P .crash) : Ends cfg bs P a (mach t name hs fs pc st ex w) := by
  refine Ends.halt ?_ hp
  simp only [step, VM.acting, mach, hi, h]

/-- An instruction that computes a result. -/
theorem result {α : Type} (hi : t.instrs[pc]? = some i) {r : Res α} {pc' : Nat} {st' : α → Stack} {ex' : α → Option Cow}
    (h : execInstr (cfg.acting (bs a)) t.source pc (st.map (SState.acting (bs a))) ex w i =
      OneStep.ofRes w r fun x => .next pc' ((st' x).map (SState.acting (bs a))) (ex' x) w)
    (hok : ∀ x, r = .ok x → Ends cfg bs P (a + 1) (mach t name hs fs pc' (st' x) (ex' x) w))
    (herr : ∀ e, r = .err e → P (.err (e.attachName name) w)) (hcr : r = .crash → P .crash) :
    Ends cfg bs P a (mach t name hs fs pc st ex w) := by
  cases r with
  | ok x => exact next hi h (hok x rfl)
  | err e => exact error hi h (herr e rfl)
  | crash => exact crash hi h (hcr rfl)

theorem call_eq (b : Behaviour) (hr : Rel st ρ) (fn : Ident) (span : Span) (args : Option Args) (v : Cow) :
    execInstr (cfg.acting b) t.source pc (st.map (SState.acting b)) (some v) w (.apply fn span args) =
      OneStep.ofRes w (callOn asBuilt (cfg.acting b) t.source (Scope.acting b ρ) fn args v)
        fun c => .next (pc + 1) (st.map (SState.acting b)) (some c) w := by
  rw [execInstr, callOn]
  cases Res.ofOption (fn.span.of t.source) with
  | err e => rfl
  | crash => rfl
  | ok n =>
    simp only [OneStep.ofRes, Res.ok_bind]
    cases BMap.get (cfg.acting b).functions n with
    | none => simp only [errRender_eq, fault]; cases Pretty.build (cfg.acting b).env t.source fn.span <;> rfl
    | some f =>
      cases f with
      | formatter f => simp only [errRender_eq, fault]; cases Pretty.build (cfg.acting b).env t.source fn.span <;> rfl
      | filter f =>
        simp only [callFilter_eq (cfg.acting b).env f t.source (rel_acting b hr)]
        cases applyFilter asBuilt (cfg.acting b).env t.source (Scope.acting b ρ) f fn v ((args.map Args.values).getD []) <;> rfl

/-- An expression. -/
theorem expr (hr : Rel st ρ) (e : Expr) (h : At t pc (codeExpr e))
    (hok : ∀ c b, evalAt asBuilt cfg bs t.source ρ e a (.ok c) b →
      Ends cfg bs P b (mach t name hs fs (pc + (codeExpr e).length) st (some c) w))
    (herr : ∀ e' b, evalAt asBuilt cfg bs t.source ρ e a (.err e') b → P (.err (e'.attachName name) w))
    (hcr : ∀ b, evalAt asBuilt cfg bs t.source ρ e a .crash b → P .crash) :
    Ends cfg bs P a (mach t name hs fs pc st none w) := by
  induction e generalizing pc with
  | base x =>
    have ev : ∀ r, r = evalBase asBuilt cfg.env t.source (Scope.acting (bs a) ρ) x →
        evalAt asBuilt cfg bs t.source ρ (.base x) a r (a + 1) := fun r h => ⟨a, Nat.le_refl _, Nat.lt_succ_self _, h⟩
    cases x with
    | var v =>
      refine result (i := .exprStart v) (st' := fun _ => st) (ex' := some) (pc' := pc + 1) h.head
        (r := lookupVar cfg.env t.source (st.map (SState.acting (bs a))) v) rfl
        (fun c hc => hok c _ (ev _ ?_)) (fun e he => herr e _ (ev _ ?_)) (fun hc => hcr _ (ev _ ?_))
      all_goals rw [evalBase, ← lookupVar_eq cfg.env t.source (rel_acting (bs a) hr)]; symm; assumption
    | lit l => exact next (i := .exprStartLit l.value) h.head rfl (hok _ _ (ev _ rfl))
  | call fn args recv span ih =>
    rw [codeExpr] at h
    have len : pc + (codeExpr (.call fn args recv span)).length = pc + (codeExpr recv).length + 1 := by
      simp only [codeExpr, List.length_append, List.length_singleton, Nat.add_assoc]
    rw [len] at hok
    have ev : ∀ {v c r}, evalAt asBuilt cfg bs t.source ρ recv a v c →
        r = (do let v ← v; callOn asBuilt (cfg.acting (bs c)) t.source (Scope.acting (bs c) ρ) fn args v) →
        evalAt asBuilt cfg bs t.source ρ (.call fn args recv span) a r (c + 1) :=
      fun h hr => ⟨_, _, h, _, Nat.le_refl _, Nat.lt_succ_self _, hr⟩
    refine ih h.left (fun v c hv => ?_) (fun e c he => herr e _ (ev he rfl)) (fun c hc => hcr _ (ev hc rfl))
    exact result (st' := fun _ => st) (ex' := some) h.right.head (call_eq (bs c) hr fn span args v)
      (fun x hx => hok x _ (ev hv hx.symm)) (fun e he => herr e _ (ev hv he.symm)) (fun hx => hcr _ (ev hv hx.symm))

/-- Writing a value. -/
theorem written (hi : t.instrs[pc]? = some i) {f : Formatter} {v : Value} {sp : Span}
    (h : execInstr (cfg.acting (bs a)) t.source pc (st.map (SState.acting (bs a))) ex w i =
      emit (cfg.acting (bs a)) f v t.source sp w (fun w => .next (pc + 1) (st.map (SState.acting (bs a))) none w))
    (hk : After cfg bs P (a + 1) (write (cfg.acting (bs a)) name f v t.source sp w)
      (fun w' => mach t name hs fs (pc + 1) st none w')) : Ends cfg bs P a (mach t name hs fs pc st ex w) := by
  rw [emit] at h
  rw [write] at hk
  cases hf : (f v).run (cfg.acting (bs a)).sink w.out with
  | mk out r =>
    rw [hf] at h hk
    cases r with
    | ok u => exact next hi h hk
    | error m =>
      simp only [throwFormat_eq] at h hk
      revert h hk
      cases (formatFault (cfg.acting (bs a)).env m t.source sp : Res Unit) with
      | ok u => exact fun hk h => crash hi h hk
      | err e => exact fun hk h => error hi h hk
      | crash => exact fun hk h => crash hi h hk

/-- `{{ e }}`. -/
theorem emitted (hr : Rel st ρ) (e : Expr) (h : At t pc (codeEmit e))
    (hk : ∀ res b, emitAt asBuilt cfg bs name t.source ρ e w a res b →
      After cfg bs P b res (fun w' => mach t name hs fs (pc + (codeEmit e).length) st none w')) :
    Ends cfg bs P a (mach t name hs fs pc st none w) := by
  have gen : ∀ e : Expr, At t pc (codeExpr e ++ [Instr.emit e.span]) →
      (∀ r c, evalAt asBuilt cfg bs t.source ρ e a r c →
        After cfg bs P (c + 1) (andThen name w r fun v => write (cfg.acting (bs c)) name (bs c).defaultFormatter v.val t.source e.span w)
        (fun w' => mach t name hs fs (pc + (codeExpr e ++ [Instr.emit e.span]).length) st none w')) →
      Ends cfg bs P a (mach t name hs fs pc st none w) := by
    intro e h hk
    rw [List.length_append, List.length_singleton, ← Nat.add_assoc] at hk
    exact expr hr e h.left (fun v c hv => written h.right.head rfl (hk _ _ hv)) (fun e c he => hk _ _ he) (fun c hc => hk _ _ hc)
  match e with
  | .base b => exact gen _ h fun r c hc => hk _ _ ⟨r, c, hc, c, Nat.le_refl _, Nat.lt_succ_self _, rfl⟩
  | .call fn (some args) recv span => exact gen _ h fun r c hc => hk _ _ ⟨r, c, hc, c, Nat.le_refl _, Nat.lt_succ_self _, rfl⟩
  | .call fn none recv span =>
    rw [codeEmit] at h hk
    have hk' : ∀ r c, evalAt asBuilt cfg bs t.source ρ recv a r c → After cfg bs P (c + 1)
        (andThen name w r fun v => emitCall asBuilt (cfg.acting (bs c)) name t.source (Scope.acting (bs c) ρ) fn span v w)
        (fun w' => mach t name hs fs (pc + (codeExpr recv).length + 1) st none w') := by
      intro r c hc
      have := hk _ _ ⟨r, c, hc, c, Nat.le_refl _, Nat.lt_succ_self _, rfl⟩
      rwa [List.length_append, List.length_singleton, ← Nat.add_assoc] at this
    refine expr hr recv h.left (fun v c hv => ?_) (fun e c he => hk' _ _ he) (fun c hc => hk' _ _ hc)
    have hi := h.right.head
    have hk := hk' _ _ hv
    generalize pc + (codeExpr recv).length = pc' at hi hk
    simp only [andThen, emitCall] at hk
    obtain ⟨X, hX⟩ : ∃ X, execInstr (cfg.acting (bs c)) t.source pc' (st.map (SState.acting (bs c))) (some v) w (.emitWith fn span) = X :=
      ⟨_, rfl⟩
    have ex := hX
    simp only [execInstr] at ex
    revert ex hk
    cases Res.ofOption (fn.span.of t.source) with
    | err e => exact fun hk ex => error hi (hX.trans ex.symm) hk
    | crash => exact fun hk ex => crash hi (hX.trans ex.symm) hk
    | ok n =>
      simp only [OneStep.ofRes]
      cases BMap.get (cfg.acting (bs c)).functions n with
      | none =>
        simp only [errRender_eq]
        cases (fault (cfg.acting (bs c)).env "unknown filter or formatter" t.source fn.span : Res Unit) with
        | ok u => exact fun hk ex => crash hi (hX.trans ex.symm) hk
        | err e => exact fun hk ex => error hi (hX.trans ex.symm) hk
        | crash => exact fun hk ex => crash hi (hX.trans ex.symm) hk
      | some f =>
        cases f with
        | formatter f => exact fun hk ex => written hi (hX.trans ex.symm) hk
        | filter f =>
          simp only [callFilter_eq (cfg.acting (bs c)).env f t.source (rel_acting (bs c) hr)]
          cases applyFilter asBuilt (cfg.acting (bs c)).env t.source (Scope.acting (bs c) ρ) f fn v [] with
          | ok r => exact fun hk ex => written hi (hX.trans ex.symm) hk
          | err e => exact fun hk ex => error hi (hX.trans ex.symm) hk
          | crash => exact fun hk ex => crash hi (hX.trans ex.symm) hk

end

/-! Statements -/

/-- The machine does what the timed meaning says, and then stands where `k` says. -/
def Follows (cfg : RenderCfg σ) (bs : Nat → Behaviour) (vm : VM σ) (T : Timed (RunRes σ)) (k : World σ → VM σ) : Prop :=
  ∀ P a, (∀ res b, T a res b → After cfg bs P b res k) → Ends cfg bs P a vm

/-- One step that always happens. -/
def Goes (cfg : RenderCfg σ) (bs : Nat → Behaviour) (vm vm' : VM σ) : Prop :=
  ∀ P a, Ends cfg bs P (a + 1) vm' → Ends cfg bs P a vm

theorem within.mk {T : Timed (RunRes σ)} {a res b} (h : T a res b) : within T a res b :=
  ⟨a, b, Nat.le_refl _, h, Nat.le_refl _⟩

theorem Follows.mono {vm : VM σ} {T T' : Timed (RunRes σ)} {k : World σ → VM σ} (h : Follows cfg bs vm T k)
    (hT : ∀ a res b, T a res b → T' a res b) : Follows cfg bs vm T' k :=
  fun P a hk => h P a fun res b ht => hk res b (hT _ _ _ ht)

theorem Follows.within {vm : VM σ} {T : Timed (RunRes σ)} {k : World σ → VM σ} (h : Follows cfg bs vm T k) :
    Follows cfg bs vm (within T) k := h.mono fun _ _ _ => within.mk

theorem Follows.first {vm vm' : VM σ} {T : Timed (RunRes σ)} {k : World σ → VM σ} (g : Goes cfg bs vm vm')
    (h : Follows cfg bs vm' (Spec.within T) k) : Follows cfg bs vm (Spec.within T) k := by
  intro P a hk
  refine g P a (h P (a + 1) ?_)
  rintro res b ⟨c, d, h1, h2, h3⟩
  exact hk res b ⟨c, d, by omega, h2, h3⟩

theorem Follows.last {vm : VM σ} {T : Timed (RunRes σ)} {k k' : World σ → VM σ} (h : Follows cfg bs vm (Spec.within T) k)
    (g : ∀ w, Goes cfg bs (k w) (k' w)) : Follows cfg bs vm (Spec.within T) k' := by
  intro P a hk
  refine h P a ?_
  rintro res b ⟨c, d, h1, h2, h3⟩
  have := hk res (b + 1) ⟨c, d, h1, h2, by omega⟩
  cases res with
  | ok w => exact g w P b this
  | err e w => exact this
  | crash => exact this

theorem Follows.seq {vm : VM σ} {T : Timed (RunRes σ)} {Q : World σ → Timed (RunRes σ)} {k k' : World σ → VM σ}
    (h : Follows cfg bs vm T k) (h' : ∀ w, Follows cfg bs (k w) (Q w) k') : Follows cfg bs vm (seqAt T Q) k' := by
  intro P a hk
  refine h P a fun r c ht => ?_
  cases r with
  | ok w => exact h' w P c fun res b hq => hk res b ⟨_, c, ht, hq⟩
  | err e w => exact hk (.err e w) c ⟨_, c, ht, rfl, Nat.le_refl _⟩
  | crash => exact hk .crash c ⟨_, c, ht, rfl, Nat.le_refl _⟩

theorem evalAt_le {q : Quirks} {src : Str} {ρ : Scope} {e : Expr} {a b b' : Nat} {r : Res Cow} (h : evalAt q cfg bs src ρ e a r b)
    (hb : b ≤ b') : evalAt q cfg bs src ρ e a r b' := by
  cases e with
  | base x => obtain ⟨t, h1, h2, h3⟩ := h; exact ⟨t, h1, by omega, h3⟩
  | call fn args recv sp => obtain ⟨v, c, h1, t, h2, h3, h4⟩ := h; exact ⟨v, c, h1, t, h2, by omega, h4⟩

section
variable {t : Template} {name : Option Str} {hs : Bool} {fs : List Frame} {st : Stack} {ρ : Scope} {w : World σ} {pc : Nat}
  {ex : Option Cow} {i : Instr}

theorem goes (hi : t.instrs[pc]? = some i) {pc' : Nat} {st' : Stack} {ex' : Option Cow} {w' : World σ}
    (h : ∀ b, execInstr (cfg.acting b) t.source pc (st.map (SState.acting b)) ex w i = .next pc' (st'.map (SState.acting b)) ex' w') :
    Goes cfg bs (mach t name hs fs pc st ex w) (mach t name hs fs pc' st' ex' w') :=
  fun _ a h' => next hi (h (bs a)) h'

/-- A statement that begins with an expression. -/
theorem Follows.expr (hr : Rel st ρ) (e : Expr) (h : At t pc (codeExpr e)) {K : Cow → Timed (RunRes σ)} {k : World σ → VM σ}
    (hk : ∀ v, Follows cfg bs (mach t name hs fs (pc + (codeExpr e).length) st (some v) w) (Spec.within (K v)) k) :
    Follows cfg bs (mach t name hs fs pc st none w)
      (Spec.within fun a res b => ∃ r c, evalAt asBuilt cfg bs t.source ρ e a r c ∧ andThenAt name w r K c res b) k := by
  intro P a hT
  refine Eff.expr hr e h (fun v c hv => ?_) (fun e c he => ?_) (fun c hc => ?_)
  · refine hk v P c ?_
    rintro res b ⟨c', d, h1, h2, h3⟩
    exact hT res b ⟨a, d, Nat.le_refl _, ⟨_, c', evalAt_le hv h1, h2⟩, h3⟩
  · exact hT _ c ⟨a, c, Nat.le_refl _, ⟨_, c, he, rfl, Nat.le_refl _⟩, Nat.le_refl _⟩
  · exact hT _ c ⟨a, c, Nat.le_refl _, ⟨_, c, hc, rfl, Nat.le_refl _⟩, Nat.le_refl _⟩

/-- An instruction that computes something, the same whatever the functions do, and goes on. -/
theorem Follows.result {α : Type} (hi : t.instrs[pc]? = some i) {r : Res α} {pc' : Nat} {st' : α → Stack} {ex' : α → Option Cow}
    {K : α → Timed (RunRes σ)} {k : World σ → VM σ}
    (h : ∀ b, execInstr (cfg.acting b) t.source pc (st.map (SState.acting b)) ex w i =
      OneStep.ofRes w r fun x => .next pc' ((st' x).map (SState.acting b)) (ex' x) w)
    (hk : ∀ x, Follows cfg bs (mach t name hs fs pc' (st' x) (ex' x) w) (Spec.within (K x)) k) :
    Follows cfg bs (mach t name hs fs pc st ex w) (Spec.within (andThenAt name w r K)) k := by
  intro P a hT
  refine Eff.result hi (h (bs a)) (fun x hx => ?_) (fun e he => ?_) (fun hc => ?_)
  · subst hx
    refine hk x P (a + 1) ?_
    rintro res b ⟨c, d, h1, h2, h3⟩
    exact hT res b ⟨c, d, by omega, h2, h3⟩
  · subst he; exact hT _ a ⟨a, a, Nat.le_refl _, ⟨rfl, Nat.le_refl _⟩, Nat.le_refl _⟩
  · subst hc; exact hT _ a ⟨a, a, Nat.le_refl _, ⟨rfl, Nat.le_refl _⟩, Nat.le_refl _⟩

theorem listLoop (hr : Rel st ρ) {j : Nat} (hnext : t.instrs[pc]? = some (.loopNext j)) {body : Scope → World σ → Timed (RunRes σ)}
    {pe : Nat} (hbody : ∀ b st' w, Rel (.loop b :: st) (st' :: ρ) →
      Follows cfg bs (mach t name hs fs (pc + 1) (.loop b :: st) none w) (body (st' :: ρ) w)
        (fun w' => mach t name hs fs pe (.loop b :: st) none w'))
    (hjump : t.instrs[pe]? = some (.jump pc)) (o : Bool) (n : Str) (xs : List Value) :
    ∀ i val w, Follows cfg bs (mach t name hs fs pc (.loop (.list o n i xs val) :: st) none w)
      (forEachAt (fun b => body (b :: ρ)) (listRounds n o i xs) w) (fun w' => mach t name hs fs j st none w') := by
  induction xs with
  | nil =>
    intro i val w P a hk
    exact goes hnext (fun _ => rfl) P a (hk (.ok w) (a + 1) ⟨rfl, by omega⟩)
  | cons x xs ih =>
    intro i val w
    rw [listRounds, forEachAt]
    refine Follows.seq (k := fun w' => mach t name hs fs pc (.loop (.list o n (i + 1) xs (some (i, x))) :: st) none w') ?_
      fun w' => ih _ _ _
    refine Follows.first (goes hnext (pc' := pc + 1) (st' := .loop (.list o n (i + 1) xs (some (i, x))) :: st)
      (ex' := none) (w' := w) fun _ => rfl) ?_
    exact (hbody _ _ w (Rel.list o n (i + 1) xs i x hr)).within.last fun w' => goes hjump fun _ => rfl

theorem mapLoop (hr : Rel st ρ) {j : Nat} (hnext : t.instrs[pc]? = some (.loopNext j)) {body : Scope → World σ → Timed (RunRes σ)}
    {pe : Nat} (hbody : ∀ b st' w, Rel (.loop b :: st) (st' :: ρ) →
      Follows cfg bs (mach t name hs fs (pc + 1) (.loop b :: st) none w) (body (st' :: ρ) w)
        (fun w' => mach t name hs fs pe (.loop b :: st) none w'))
    (hjump : t.instrs[pe]? = some (.jump pc)) (o : Bool) (k v : Str) (xs : List (Str × Value)) :
    ∀ i val w, Follows cfg bs (mach t name hs fs pc (.loop (.map o k v i xs val) :: st) none w)
      (forEachAt (fun b => body (b :: ρ)) (mapRounds k v o i xs) w) (fun w' => mach t name hs fs j st none w') := by
  induction xs with
  | nil =>
    intro i val w P a hk
    exact goes hnext (fun _ => rfl) P a (hk (.ok w) (a + 1) ⟨rfl, by omega⟩)
  | cons x xs ih =>
    intro i val w
    obtain ⟨key, x⟩ := x
    rw [mapRounds, forEachAt]
    refine Follows.seq (k := fun w' => mach t name hs fs pc (.loop (.map o k v (i + 1) xs (some (i, (key, x)))) :: st) none w') ?_
      fun w' => ih _ _ _
    refine Follows.first (goes hnext (pc' := pc + 1) (st' := .loop (.map o k v (i + 1) xs (some (i, (key, x)))) :: st)
      (ex' := none) (w' := w) fun _ => rfl) ?_
    exact (hbody _ _ w (Rel.map o k v (i + 1) xs i key x hr)).within.last fun w' => goes hjump fun _ => rfl

end

/-- What is known about including templates, above the given frames. -/
def IncFollows (cfg : RenderCfg σ) (bs : Nat → Behaviour) (inc : IncludeAt σ) (fs : List Frame) : Prop :=
  ∀ t name hs pc st ρ w n, Rel st ρ →
    (t.instrs[pc]? = some (.include_ n) →
      Follows cfg bs (mach t name hs fs pc st none w) (within (inc n t.source name ρ w))
        (fun w' => mach t name hs fs (pc + 1) st none w')) ∧
    (t.instrs[pc]? = some (.includeWith n) → ∀ v,
      Follows cfg bs (mach t name hs fs pc st (some v) w) (within (inc n t.source name (.globals v :: .wall :: ρ) w))
        (fun w' => mach t name hs fs (pc + 1) st none w'))

theorem own_eq (v : Cow) : (match v with | .owned _ => true | .borrowed _ => false) = isOwned v := by cases v <;> rfl

/-- The loop a value makes: what `LoopState::new` computes, in the words of `rounds`. -/
theorem loop_follows {t : Template} {name : Option Str} {hs : Bool} {fs : List Frame} {st : Stack} {w : World σ} {pc : Nat}
    {k : World σ → VM σ} {vars : LoopVars} {sp : Span} {v : Cow} (hi : t.instrs[pc]? = some (.loopStart vars sp))
    {K : List Binding → Timed (RunRes σ)}
    (lst : ∀ n l, Follows cfg bs (mach t name hs fs (pc + 1) (.loop (.list (isOwned v) n 0 l none) :: st) none w)
      (within (K (listRounds n (isOwned v) 0 l))) k)
    (mp : ∀ kn vn l, Follows cfg bs (mach t name hs fs (pc + 1) (.loop (.map (isOwned v) kn vn 0 l none) :: st) none w)
      (within (K (mapRounds kn vn (isOwned v) 0 l))) k) :
    Follows cfg bs (mach t name hs fs pc st (some v) w) (within (andThenAt name w (rounds cfg.env t.source vars v sp) K)) k := by
  have key : ∀ (mk : Res LoopState), (∀ b : Behaviour, LoopState.new (cfg.acting b).env t.source vars v sp = mk) →
      (∀ x, mk = .ok x → ∃ rs, rounds cfg.env t.source vars v sp = .ok rs ∧
        Follows cfg bs (mach t name hs fs (pc + 1) (.loop x :: st) none w) (within (K rs)) k) →
      (∀ e, mk = .err e → rounds cfg.env t.source vars v sp = .err e) →
      (mk = .crash → rounds cfg.env t.source vars v sp = .crash) →
      Follows cfg bs (mach t name hs fs pc st (some v) w) (within (andThenAt name w (rounds cfg.env t.source vars v sp) K)) k := by
    intro mk hmk hok herr hcr P a hT
    refine Eff.result (i := .loopStart vars sp) hi (r := mk) (pc' := pc + 1) (st' := fun x => .loop x :: st) (ex' := fun _ => none)
      (by simp only [execInstr, hmk]; rfl) (fun x hx => ?_) (fun e he => ?_) (fun hc => ?_)
    · obtain ⟨rs, h1, h2⟩ := hok x hx
      rw [h1] at hT
      refine h2 P (a + 1) ?_
      rintro res b ⟨c, d, g1, g2, g3⟩
      exact hT res b ⟨c, d, by omega, g2, g3⟩
    · rw [herr e he] at hT; exact hT _ a ⟨a, a, Nat.le_refl _, ⟨rfl, Nat.le_refl _⟩, Nat.le_refl _⟩
    · rw [hcr hc] at hT; exact hT _ a ⟨a, a, Nat.le_refl _, ⟨rfl, Nat.le_refl _⟩, Nat.le_refl _⟩
  refine key (LoopState.new cfg.env t.source vars v sp) (fun _ => rfl) ?_ ?_ ?_
  all_goals
    simp only [LoopState.new, rounds.eq_def]
    cases hv : v.val with
    | list l =>
      cases vars with
      | item id =>
        dsimp only
        cases Res.ofOption (id.span.of t.source) <;> simp [Res.ok_bind, own_eq] <;> first | exact lst _ _ | rfl | skip
      | keyValue ki vi sp => simp only [errRender, throwAt, fault]; cases Pretty.build cfg.env t.source sp <;> simp
    | map m =>
      cases vars with
      | item id => simp only [errRender, throwAt, fault]; cases Pretty.build cfg.env t.source id.span <;> simp
      | keyValue ki vi sp =>
        dsimp only
        cases Res.ofOption (ki.span.of t.source) <;> cases Res.ofOption (vi.span.of t.source) <;>
          simp [Res.ok_bind, own_eq] <;> first | exact mp _ _ _ | rfl | skip
    | _ => simp only [errRender, throwAt, fault, typeName, Value.human]; cases Pretty.build cfg.env t.source sp <;> simp

mutual
theorem stmt {cfg : RenderCfg σ} {bs : Nat → Behaviour} {inc : IncludeAt σ} {t : Template} {name : Option Str} {hs : Bool}
    {fs : List Frame} (hinc : IncFollows cfg bs inc fs) (s : Stmt) {st : Stack} {ρ : Scope} (hr : Rel st ρ) {pc : Nat}
    (h : At t pc (codeStmt pc s)) (w : World σ) :
    Follows cfg bs (mach t name hs fs pc st none w) (within (stmtAt asBuilt cfg bs inc name t.source ρ s w))
      (fun w' => mach t name hs fs (pc + (codeStmt pc s).length) st none w') := by
  match s with
  | .raw sp =>
    intro P a hk
    rw [stmtAt] at hk
    have hk := hk _ (a + 1) ⟨a, a, Nat.le_refl _, ⟨rfl, Nat.le_refl _⟩, by omega⟩
    rw [writeRaw] at hk
    have hi := At.head (i := .emitRaw sp) h
    obtain ⟨X, hX⟩ : ∃ X, execInstr (cfg.acting (bs a)) t.source pc (st.map (SState.acting (bs a))) none w (.emitRaw sp) = X := ⟨_, rfl⟩
    have ex := hX
    simp only [execInstr] at ex
    revert ex hk
    cases Res.ofOption (sp.of t.source) with
    | err e => exact fun hk ex => error hi (hX.trans ex.symm) hk
    | crash => exact fun hk ex => crash hi (hX.trans ex.symm) hk
    | ok raw =>
      simp only [OneStep.ofRes, andThen]
      have e : (cfg.acting (bs a)).sink = cfg.sink := rfl
      rw [e]
      rcases hw : cfg.sink.write w.out raw with ⟨out, _ | _⟩
      · exact fun hk ex => error hi (hX.trans ex.symm) hk
      · exact fun hk ex => next hi (hX.trans ex.symm) hk
  | .inlineExpr e sp => 
    refine Follows.within fun P a hk => ?_
    exact emitted hr e h fun res b hb => hk res b (by rw [stmtAt]; exact hb)
  | .include_ n none => rw [stmtAt]; exact (hinc t name hs pc st ρ w n hr).1 h.head
  | .include_ n (some e) =>
    rw [codeStmt] at h ⊢
    rw [stmtAt]
    refine Follows.expr hr e h.left fun v => ?_
    rw [List.length_append, List.length_singleton, ← Nat.add_assoc]
    exact (hinc t name hs _ st ρ w n hr).2 h.right.head v
  | .ifElse neg cond th none =>
    rw [codeStmt] at h ⊢
    rw [stmtAt]
    refine Follows.expr hr cond h.left fun v => ?_
    have hi := h.right.head
    have hth := h.right.tail
    simp only [List.length_append, List.length_cons, Nat.add_assoc, Nat.add_comm 1] at hi hth ⊢
    by_cases hb : truthy v.val = neg
    · rw [if_neg (fun hn => hn hb)]
      intro P a hk
      refine goes hi (fun b => ?_) P a (hk (.ok w) (a + 1) ⟨a, a, Nat.le_refl _, ⟨rfl, Nat.le_refl _⟩, by omega⟩)
      cases neg <;> simp [execInstr, truthy_eq, hb]
    · rw [if_pos hb]
      refine Follows.first (goes hi (pc' := pc + (codeExpr cond).length + 1) (st' := st) (ex' := none) (w' := w) fun b => ?_) ?_
      · cases neg <;> simp at hb <;> simp [execInstr, truthy_eq, hb]
      · have := stmts (name := name) (hs := hs) hinc th hr (pc := pc + ((codeExpr cond).length + 1)) hth w
        simpa only [Nat.add_assoc, Nat.add_comm 1] using this.within
  | .ifElse neg cond th (some el) =>
    rw [codeStmt] at h ⊢
    rw [stmtAt]
    refine Follows.expr hr cond h.left fun v => ?_
    have hi := h.right.head
    have hth := h.right.tail.left
    have hj := h.right.tail.right.head
    have hel := h.right.tail.right.tail
    have hlen : ∀ (c t e : List Instr) (i k : Instr), pc + (c ++ i :: (t ++ k :: e)).length =
        pc + c.length + 1 + t.length + 1 + e.length := by
      intro c t e i k
      simp only [List.length_append, List.length_cons]; omega
    rw [hlen]
    by_cases hb : truthy v.val = neg
    · rw [if_neg (fun hn => hn hb)]
      refine Follows.first (goes hi (pc' := pc + (codeExpr cond).length + 1 +
        (codeStmts (pc + (codeExpr cond).length + 1) th).length + 1) (st' := st) (ex' := none) (w' := w) fun b => ?_) ?_
      · cases neg <;> simp [execInstr, truthy_eq, hb]
      · exact (stmts (name := name) (hs := hs) hinc el hr hel w).within
    · rw [if_pos hb]
      refine Follows.first (goes hi (pc' := pc + (codeExpr cond).length + 1) (st' := st) (ex' := none) (w' := w) fun b => ?_) ?_
      · cases neg <;> simp at hb <;> simp [execInstr, truthy_eq, hb]
      · exact (stmts (name := name) (hs := hs) hinc th hr hth w).within.last fun w' => goes hj fun _ => rfl
  | .forLoop vars e body =>
    rw [codeStmt] at h ⊢
    rw [stmtAt]
    refine Follows.expr hr e h.left fun v => ?_
    have hi := h.right.head
    have hn := h.right.tail.head
    have hb := h.right.tail.tail.left
    have hj := h.right.tail.tail.right.head
    have hlen : pc + (codeExpr e ++ Instr.loopStart vars e.span ::
        Instr.loopNext (pc + (codeExpr e).length + 2 + (codeStmts (pc + (codeExpr e).length + 2) body).length + 1) ::
        (codeStmts (pc + (codeExpr e).length + 2) body ++ [Instr.jump (pc + (codeExpr e).length + 1)])).length =
        pc + (codeExpr e).length + 2 + (codeStmts (pc + (codeExpr e).length + 2) body).length + 1 := by
      simp only [List.length_append, List.length_cons, List.length_nil]; omega
    rw [hlen]
    have hbody : ∀ b st' w, Rel (.loop b :: st) (st' :: ρ) →
        Follows cfg bs (mach t name hs fs (pc + (codeExpr e).length + 1 + 1) (.loop b :: st) none w)
          (stmtsAt asBuilt cfg bs inc name t.source (st' :: ρ) body w)
          (fun w' => mach t name hs fs (pc + (codeExpr e).length + 1 + 1 +
            (codeStmts (pc + (codeExpr e).length + 2) body).length) (.loop b :: st) none w') :=
      fun b st' w hr' => stmts hinc body hr' hb w
    exact loop_follows hi
      (fun n l => (listLoop (cfg := cfg) (name := name) (hs := hs) (fs := fs) hr hn
        (body := fun ρ' w => stmtsAt asBuilt cfg bs inc name t.source ρ' body w) hbody hj (isOwned v) n l 0 none w).within)
      (fun k v' l => (mapLoop (cfg := cfg) (name := name) (hs := hs) (fs := fs) hr hn
        (body := fun ρ' w => stmtsAt asBuilt cfg bs inc name t.source ρ' body w) hbody hj (isOwned v) k v' l 0 none w).within)
  | .with_ e n body =>
    rw [codeStmt] at h ⊢
    rw [stmtAt]
    refine Follows.expr hr e h.left fun v => ?_
    have hi := h.right.head
    have hb := h.right.tail.left
    have hend := h.right.tail.right.head
    refine Follows.first (goes hi (pc' := pc + (codeExpr e).length + 1) (st' := .var n v :: st) (ex' := none) (w' := w) fun _ => rfl) ?_
    have hw : withName asBuilt t.source n = fun src => n.span.of src := rfl
    rw [hw]
    refine (stmts (name := name) (hs := hs) hinc body (Rel.var n v hr) hb w).within.last fun w' => goes hend fun b => ?_
    simp only [execInstr, List.map_cons, SState.acting]
    congr 1
    simp only [List.length_append, List.length_cons, List.length_nil]
    omega

theorem stmts {cfg : RenderCfg σ} {bs : Nat → Behaviour} {inc : IncludeAt σ} {t : Template} {name : Option Str} {hs : Bool}
    {fs : List Frame} (hinc : IncFollows cfg bs inc fs) (ss : List Stmt) {st : Stack} {ρ : Scope} (hr : Rel st ρ) {pc : Nat}
    (h : At t pc (codeStmts pc ss)) (w : World σ) :
    Follows cfg bs (mach t name hs fs pc st none w) (stmtsAt asBuilt cfg bs inc name t.source ρ ss w)
      (fun w' => mach t name hs fs (pc + (codeStmts pc ss).length) st none w') := by
  match ss with
  | [] => exact fun P a hk => hk (.ok w) a (by rw [stmtsAt]; exact ⟨rfl, Nat.le_refl _⟩)
  | s :: ss =>
    rw [codeStmts] at h ⊢
    rw [stmtsAt]
    refine Follows.seq (stmt hinc s hr h.left w) fun w' => ?_
    have := stmts (name := name) (hs := hs) hinc ss hr h.right w'
    rw [List.length_append, ← Nat.add_assoc]
    exact this
end

theorem getTemplate_acting (b : Behaviour) (src : Str) (n : AstString) (w : World σ) :
    getTemplate (cfg.acting b) src n w = find cfg src n w := rfl

theorem included {tree : Template → Tree} (ht : Trees cfg tree) (left : Nat) :
    ∀ fs : List Frame, fs.length + 1 + left = max 1 cfg.maxIncludeDepth →
      IncFollows cfg bs (includeAt asBuilt cfg bs tree left) fs := by
  have quick : ∀ {vm : VM σ} {k : World σ → VM σ} {r : RunRes σ},
      (∀ a, step (cfg.acting (bs a)) (vm.acting (bs a)) = .halt r) → (∀ w, r ≠ .ok w) →
      Follows cfg bs vm (within fun a res b => res = r ∧ a ≤ b) k := by
    intro vm k r h hr P a hk
    have := hk r a (within.mk ⟨rfl, Nat.le_refl _⟩)
    refine Ends.halt (h a) ?_
    cases r with
    | ok w => exact absurd rfl (hr w)
    | err e w => exact this
    | crash => exact this
  induction left with
  | zero =>
    intro fs hl t name hs pc st ρ w n hr
    have env : ∀ b : Behaviour, (cfg.acting b).maxIncludeDepth = cfg.maxIncludeDepth := fun _ => rfl
    refine ⟨fun hi => ?_, fun hi v => ?_⟩
    all_goals
      rw [includeAt.eq_def]; dsimp only
      cases hf : find cfg t.source n w with
      | mk w' r => cases r with
        | ok t' =>
          refine quick (r := .err (depthErr cfg.maxIncludeDepth) w') (fun a => ?_) (by simp)
          simp [step, VM.acting, hi, execInstr, getTemplate_acting, hf, checkDepth, env, maxIncludeDepth_eq]
          omega
        | err e => refine quick (r := .err (e.attachName name) w') (fun a => ?_) (by simp); simp [step, VM.acting, hi, execInstr, getTemplate_acting, hf]
        | crash => refine quick (r := .crash) (fun a => ?_) (by simp); simp [step, VM.acting, hi, execInstr, getTemplate_acting, hf]
  | succ left ih =>
    intro fs hl t name hs pc st ρ w n hr
    have shallow : ∀ b, ¬ (fs.length + 1 + 1 > (cfg.acting b).maxIncludeDepth) := fun _ => by
      simp only [RenderCfg.acting]; omega
    have shallow' : ∀ b, ¬ (fs.length + 1 > (cfg.acting b).maxIncludeDepth) := fun _ => by
      simp only [RenderCfg.acting]; omega
    have code : ∀ {w' t'}, find cfg t.source n w = (w', .ok t') →
        (tree t').source = t'.source ∧ t'.instrs = codeStmts 0 (tree t').body := by
      intro w' t' hf
      have hc := ht t' (find_includable hf)
      rw [compileTemplate_eq] at hc
      have hc := Option.some.inj hc
      exact ⟨congrArg Template.source hc, (congrArg Template.instrs hc).symm⟩
    refine ⟨fun hi => ?_, fun hi v => ?_⟩
    · rw [includeAt.eq_def]; dsimp only
      cases hf : find cfg t.source n w with
      | mk w' r => cases r with
        | err e => refine quick (r := .err (e.attachName name) w') (fun a => ?_) (by simp); simp [step, VM.acting, hi, execInstr, getTemplate_acting, hf]
        | crash => refine quick (r := .crash) (fun a => ?_) (by simp); simp [step, VM.acting, hi, execInstr, getTemplate_acting, hf]
        | ok t' =>
          dsimp only
          obtain ⟨hsrc, hins⟩ := code hf
          refine Follows.first (vm' := mach t' (some n.name) false (⟨t, name, pc + 1, hs⟩ :: fs) 0 st none w') (fun P a h' => ?_) ?_
          · refine Ends.next ?_ (Ends.acting (bs a) h')
            simp [step, VM.acting, hi, execInstr, getTemplate_acting, hf, checkDepth, shallow]
          · rw [hsrc]
            refine (stmts (name := some n.name) (hs := false)
              (ih (⟨t, name, pc + 1, hs⟩ :: fs) (by simp only [List.length_cons]; omega))
              (tree t').body hr (t := t') (pc := 0) ⟨[], [], by simp [hins], rfl⟩ w').within.last fun w'' P a h' => ?_
            refine Ends.next ?_ (Ends.acting (bs a) h')
            simp [step, VM.acting, hins, checkDepth, shallow']
    · rw [includeAt.eq_def]; dsimp only
      cases hf : find cfg t.source n w with
      | mk w' r => cases r with
        | err e => refine quick (r := .err (e.attachName name) w') (fun a => ?_) (by simp); simp [step, VM.acting, hi, execInstr, getTemplate_acting, hf]
        | crash => refine quick (r := .crash) (fun a => ?_) (by simp); simp [step, VM.acting, hi, execInstr, getTemplate_acting, hf]
        | ok t' =>
          dsimp only
          obtain ⟨hsrc, hins⟩ := code hf
          refine Follows.first (vm' := mach t' (some n.name) true (⟨t, name, pc + 1, hs⟩ :: fs) 0
            (.scope v :: .boundary :: st) none w') (fun P a h' => ?_) ?_
          · refine Ends.next ?_ (Ends.acting (bs a) h')
            simp [step, VM.acting, hi, execInstr, getTemplate_acting, hf, checkDepth, shallow, SState.acting]
          · rw [hsrc]
            refine (stmts (name := some n.name) (hs := true)
              (ih (⟨t, name, pc + 1, hs⟩ :: fs) (by simp only [List.length_cons]; omega))
              (tree t').body (Rel.scope v (Rel.boundary hr)) (t := t') (pc := 0) ⟨[], [], by simp [hins], rfl⟩ w').within.last
              fun w'' P a h' => ?_
            refine Ends.next ?_ (Ends.acting (bs a) h')
            simp [step, VM.acting, hins, checkDepth, shallow', SState.acting]

/-- A render ends, and ends in a way that the timed meaning of the tree allows. -/
theorem renders {tree : Template → Tree} (ht : Trees cfg tree) {t : Template} {body : List Stmt}
    (hc : compileTemplate t.source body = some t) {base : SState} {b : Binding}
    (hb : (∃ f, base = .valueFn f ∧ b = .provider f) ∨ (∃ c, base = .scope c ∧ b = .globals c))
    (name : Option Str) (out : σ) :
    ∃ res, HaltsActing cfg bs (initVM t name base out) res ∧
      ∃ z, renderAt asBuilt cfg bs tree ⟨t.source, body⟩ name [b] ⟨out, []⟩ 0 res z := by
  rw [compileTemplate_eq] at hc
  have hc := Option.some.inj hc
  have hins : t.instrs = codeStmts 0 body := by rw [← hc]
  have hr : Rel [base] [b] := by
    rcases hb with ⟨f, rfl, rfl⟩ | ⟨c, rfl, rfl⟩
    · exact Rel.valueFn f Rel.nil
    · exact Rel.scope c Rel.nil
  have := stmts (name := name) (hs := false) (fs := [])
    (included (bs := bs) ht (cfg.maxIncludeDepth - 1) [] (by simp; omega)) body hr (t := t) (pc := 0)
    ⟨[], [], by simp [hins], rfl⟩ ⟨out, []⟩
    (fun res => ∃ z, renderAt asBuilt cfg bs tree ⟨t.source, body⟩ name [b] ⟨out, []⟩ 0 res z) 0 ?_
  · obtain ⟨n, res, h1, h2⟩ := this
    exact ⟨res, ⟨n, h1⟩, h2⟩
  · intro res z hz
    cases res with
    | ok w =>
      refine Ends.next (vm' := VM.acting (bs z) ⟨[], [base], none, w⟩) ?_ (Ends.halt (res := .ok w) rfl ⟨z, hz⟩)
      simp [step, VM.acting, hins, checkDepth]
    | err e w => exact ⟨z, hz⟩
    | crash => exact ⟨z, hz⟩

theorem runActing_mono : ∀ {n a : Nat} {vm : VM σ} {r : RunRes σ} (k : Nat), runActing cfg bs n a vm = some r →
    runActing cfg bs (n + k) a vm = some r := by
  intro n
  induction n with
  | zero => intro a vm r k h; cases h
  | succ n ih =>
    intro a vm r k h
    rw [Nat.add_right_comm, runActing]
    rw [runActing] at h
    cases hs : step (cfg.acting (bs a)) (vm.acting (bs a)) with
    | halt r' => rw [hs] at h; exact h
    | next vm' => rw [hs] at h; exact ih k h

theorem halts_unique {vm : VM σ} {r r' : RunRes σ} (h : HaltsActing cfg bs vm r) (h' : HaltsActing cfg bs vm r') : r = r' := by
  obtain ⟨n, h⟩ := h
  obtain ⟨m, h'⟩ := h'
  have h1 := runActing_mono m h
  have h2 := runActing_mono n h'
  rw [Nat.add_comm] at h2
  rw [h1] at h2
  exact Option.some.inj h2

end Eff
end Upon
