import Verif.Spec.Trace
import Verif.Props.Filters
import Verif.Proofs.NoCrash
import Verif.Proofs.Demo
/-
C13: pipelines of filters.
-/
namespace Upon
open Spec Compiler
variable {σ : Type} {cfg : RenderCfg σ} {src : Str} {st : Stack}

/-! Calls and conversions -/

theorem fromState_ok {env : Env} (f : Filter) (name : Ident) (v : Cow) (args : List BaseExpr) (a : ArgVal) (as : List ArgVal) :
    fromState env f src st name v args = .ok (a, as) ↔
      Converts env f.val v.val a ∧ PassAll env src st f.args args as := by
  have len : ∀ {ts xs ys}, PassAll env src st ts xs ys → xs.length = ts.length := by
    intro ts xs ys h
    induction h with
    | nil => rfl
    | cons _ _ ih => simp [ih]
  rw [fromState]
  by_cases hlen : args.length = f.args.length
  · rw [if_pos hlen]
    cases hv : f.val.fromCowMut env v with
    | error e =>
      constructor
      · intro h
        exfalso
        cases he : errExpectedVal e with
        | none => simp only [he] at h; cases h
        | some m =>
          simp only [he, errRender, throwAt] at h
          split at h <;> cases h
      · rintro ⟨h, _⟩
        rw [ArgTy.fromCowMut, (C31_convert _ _ _).mpr h] at hv; cases hv
    | ok a' =>
      dsimp only
      constructor
      · intro h
        cases ha : getArgs env src st f.args args with
        | err e => rw [ha] at h; cases h
        | crash => rw [ha] at h; cases h
        | ok as' =>
          rw [ha] at h; cases h
          exact ⟨(C31_convert _ _ _).mp hv, (getArgs_ok _ _ hlen _).mp ha⟩
      · rintro ⟨h1, h2⟩
        have e1 := (C31_convert _ _ _).mpr h1
        rw [ArgTy.fromCowMut, e1] at hv; cases hv
        rw [(getArgs_ok _ _ hlen _).mpr h2]; rfl
  · rw [if_neg hlen]
    constructor
    · intro h
      rw [errRender, throwAt] at h
      split at h <;> cases h
    · rintro ⟨_, h⟩
      exact absurd (len h) hlen

theorem callOf_some {name : Ident} {v : Cow} {args : List BaseExpr} {n : Str} {f : Filter} {a : ArgVal} {as : List ArgVal}
    (hn : name.span.of src = some n) (hf : BMap.get cfg.functions n = some (.filter f))
    (hv : Converts cfg.env f.val v.val a) (ha : PassAll cfg.env src st f.args args as) :
    callOf cfg src st name v args = [⟨n, a, as⟩] := by
  simp only [callOf, hn, hf, (fromState_ok f name v args a as).mpr ⟨hv, ha⟩]

theorem callOf_none {name : Ident} {v : Cow} {args : List BaseExpr}
    (h : ∀ n f a as, name.span.of src = some n → BMap.get cfg.functions n = some (.filter f) →
        Converts cfg.env f.val v.val a → ¬ PassAll cfg.env src st f.args args as) :
    callOf cfg src st name v args = [] := by
  rw [callOf]
  cases hn : name.span.of src with
  | none => rfl
  | some n =>
    dsimp only
    cases hf : BMap.get cfg.functions n with
    | none => rfl
    | some g =>
      cases g with
      | formatter g => rfl
      | filter f =>
        dsimp only
        cases hs : fromState cfg.env f src st name v args with
        | err e => rfl
        | crash => rfl
        | ok p =>
          obtain ⟨a, as⟩ := p
          obtain ⟨h1, h2⟩ := (fromState_ok f name v args a as).mp hs
          exact absurd h2 (h n f a as hn hf h1)

/-! Pipelines -/

/-- **C13** Evaluating an expression is a pipeline: its value, or its error, is reached by evaluating what
stands to the left, and then calling one filter, if nothing failed. -/
theorem C13_pipeline (cfg : RenderCfg σ) (src : Str) (st : Stack) (e : Expr) :
    ∃ cs, Pipeline cfg src st e cs (valueOf cfg src st e) := by
  induction e with
  | base b => cases b with
    | var v => exact ⟨[], .var⟩
    | lit l => exact ⟨[], .lit⟩
  | call name args recv sp ih =>
    obtain ⟨cs, ih⟩ := ih
    cases hr : valueOf cfg src st recv with
    | err e => exact ⟨cs, by rw [valueOf, hr]; rw [hr] at ih; exact .stops ih (fun v h => by cases h)⟩
    | crash => exact ⟨cs, by rw [valueOf, hr]; rw [hr] at ih; exact .stops ih (fun v h => by cases h)⟩
    | ok v =>
      rw [hr] at ih
      by_cases hc : ∃ n f a as, name.span.of src = some n ∧ BMap.get cfg.functions n = some (.filter f) ∧
        Converts cfg.env f.val v.val a ∧ PassAll cfg.env src st f.args ((args.map Args.values).getD []) as
      · obtain ⟨n, f, a, as, h1, h2, h3, h4⟩ := hc
        refine ⟨cs ++ [⟨n, a, as⟩], ?_⟩
        have e := (fromState_ok f name v ((args.map Args.values).getD []) a as).mpr ⟨h3, h4⟩
        cases hcall : f.call a as with
        | ok r =>
          have : valueOf cfg src st (.call name args recv sp) = .ok (.owned r) := by
            rw [valueOf, hr]
            simp only [Res.ok_bind, h1, Res.ofOption, h2, callFilter, e, hcall, enrich]
          rw [this]
          exact .call ih h1 h2 h3 h4 hcall
        | error m =>
          have : valueOf cfg src st (.call name args recv sp) = filterFault cfg.env m src name.span := by
            rw [valueOf, hr]
            simp only [Res.ok_bind, h1, Res.ofOption, h2, callFilter, e, hcall, enrich, Err.filter, filterFault]
            cases Pretty.build cfg.env src name.span <;> rfl
          rw [this]
          exact .fails ih h1 h2 h3 h4 hcall
      · exact ⟨cs, .refused ih (fun n f a as h1 h2 h3 h4 => hc ⟨n, f, a, as, h1, h2, h3, h4⟩)⟩

theorem pipeline_unique {e : Expr} {cs cs' : List Call} {r r' : Res Cow} (h : Pipeline cfg src st e cs r)
    (h' : Pipeline cfg src st e cs' r') : cs = cs' ∧ r = r' := by
  have conv : ∀ {f : Filter} {name : Ident} {v : Cow} {args : List BaseExpr} {a a' : ArgVal} {as as' : List ArgVal},
      Converts cfg.env f.val v.val a → PassAll cfg.env src st f.args args as →
      Converts cfg.env f.val v.val a' → PassAll cfg.env src st f.args args as' → a = a' ∧ as = as' := by
    intro f name v args a a' as as' h1 h2 h3 h4
    have e := (fromState_ok f name v args a as).mpr ⟨h1, h2⟩
    have e' := (fromState_ok f name v args a' as').mpr ⟨h3, h4⟩
    rw [e] at e'
    cases e'
    exact ⟨rfl, rfl⟩
  induction h generalizing cs' r' with
  | var => cases h'; exact ⟨rfl, rfl⟩
  | lit => cases h'; exact ⟨rfl, rfl⟩
  | @call recv cs v name args sp n f a as r hp h1 h2 h3 h4 h5 ih =>
    cases h' with
    | call hp' h1' h2' h3' h4' h5' =>
      obtain ⟨rfl, e⟩ := ih hp'
      cases e
      rw [h1] at h1'; cases h1'
      rw [h2] at h2'; cases h2'
      obtain ⟨rfl, rfl⟩ := conv (name := name) h3 h4 h3' h4'
      rw [h5] at h5'; cases h5'
      exact ⟨rfl, rfl⟩
    | fails hp' h1' h2' h3' h4' h5' =>
      obtain ⟨rfl, e⟩ := ih hp'
      cases e
      rw [h1] at h1'; cases h1'
      rw [h2] at h2'; cases h2'
      obtain ⟨rfl, rfl⟩ := conv (name := name) h3 h4 h3' h4'
      rw [h5] at h5'; cases h5'
    | refused hp' h' =>
      obtain ⟨rfl, e⟩ := ih hp'
      cases e
      exact absurd h4 (h' _ _ _ _ h1 h2 h3)
    | stops hp' hn =>
      obtain ⟨rfl, e⟩ := ih hp'
      exact absurd e.symm (hn _)
  | @fails recv cs v name args sp n f a as m hp h1 h2 h3 h4 h5 ih =>
    cases h' with
    | call hp' h1' h2' h3' h4' h5' =>
      obtain ⟨rfl, e⟩ := ih hp'
      cases e
      rw [h1] at h1'; cases h1'
      rw [h2] at h2'; cases h2'
      obtain ⟨rfl, rfl⟩ := conv (name := name) h3 h4 h3' h4'
      rw [h5] at h5'; cases h5'
    | fails hp' h1' h2' h3' h4' h5' =>
      obtain ⟨rfl, e⟩ := ih hp'
      cases e
      rw [h1] at h1'; cases h1'
      rw [h2] at h2'; cases h2'
      obtain ⟨rfl, rfl⟩ := conv (name := name) h3 h4 h3' h4'
      rw [h5] at h5'; cases h5'
      exact ⟨rfl, rfl⟩
    | refused hp' h' =>
      obtain ⟨rfl, e⟩ := ih hp'
      cases e
      exact absurd h4 (h' _ _ _ _ h1 h2 h3)
    | stops hp' hn =>
      obtain ⟨rfl, e⟩ := ih hp'
      exact absurd e.symm (hn _)
  | @refused recv cs v name args sp hp h ih =>
    cases h' with
    | call hp' h1' h2' h3' h4' h5' =>
      obtain ⟨rfl, e⟩ := ih hp'
      cases e
      exact absurd h4' (h _ _ _ _ h1' h2' h3')
    | fails hp' h1' h2' h3' h4' h5' =>
      obtain ⟨rfl, e⟩ := ih hp'
      cases e
      exact absurd h4' (h _ _ _ _ h1' h2' h3')
    | refused hp' h' =>
      obtain ⟨rfl, e⟩ := ih hp'
      exact ⟨rfl, rfl⟩
    | stops hp' hn =>
      obtain ⟨rfl, e⟩ := ih hp'
      exact absurd e.symm (hn _)
  | @stops recv cs r name args sp hp hn ih =>
    cases h' with
    | call hp' => exact absurd (ih hp').2 (hn _)
    | fails hp' => exact absurd (ih hp').2 (hn _)
    | refused hp' => exact absurd (ih hp').2 (hn _)
    | stops hp' _ => exact ih hp'

/-- **C13** … and the outcome of the pipeline is the value of the expression. -/
theorem C13_value {e : Expr} {cs : List Call} {r : Res Cow} (h : Pipeline cfg src st e cs r) : r = valueOf cfg src st e := by
  obtain ⟨cs', h'⟩ := C13_pipeline cfg src st e
  exact (pipeline_unique h h').2

/-- The names of the filters in an expression, from left to right. -/
def filterNames (src : Str) : Expr → List Str
  | .base _ => []
  | .call name _ recv _ => filterNames src recv ++ (name.span.of src).toList

/-- **C13** If nothing fails each filter is called exactly once, in the order of the source; in any case
those that are called are the first ones, each once, in the order of the source. -/
theorem C13_names {e : Expr} {cs : List Call} {r : Res Cow} (h : Pipeline cfg src st e cs r) :
    cs.map Call.name <+: filterNames src e ∧ ((∃ v, r = .ok v) → cs.map Call.name = filterNames src e) := by
  induction h with
  | var => exact ⟨List.prefix_rfl, fun _ => rfl⟩
  | lit => exact ⟨List.prefix_rfl, fun _ => rfl⟩
  | call hp h1 h2 h3 h4 h5 ih =>
    have e := ih.2 ⟨_, rfl⟩
    simp only [filterNames, h1, List.map_append, e]
    exact ⟨List.prefix_rfl, fun _ => rfl⟩
  | fails hp h1 h2 h3 h4 h5 ih =>
    have e := ih.2 ⟨_, rfl⟩
    simp only [filterNames, h1, List.map_append, e]
    exact ⟨List.prefix_rfl, fun _ => rfl⟩
  | @refused recv cs v name args sp hp hno ih =>
    have e := ih.2 ⟨_, rfl⟩
    refine ⟨e ▸ List.prefix_append _ _, ?_⟩
    rintro ⟨v', hv⟩
    exfalso
    rw [valueOf, ← C13_value hp, Res.ok_bind] at hv
    cases hn : name.span.of src with
    | none => rw [hn] at hv; cases hv
    | some n =>
      rw [hn] at hv
      simp only [Res.ofOption, Res.ok_bind] at hv
      cases hf : BMap.get cfg.functions n with
      | none => simp only [hf, fault] at hv; split at hv <;> cases hv
      | some g =>
        cases g with
        | formatter g => simp only [hf, fault] at hv; split at hv <;> cases hv
        | filter f =>
          simp only [hf] at hv
          cases hs : callFilter cfg.env f src st name v ((args.map Args.values).getD []) with
          | ok r =>
            obtain ⟨_, a, as, h3, h4, _⟩ := (C31_call f name v _ r).mp hs
            exact hno n f a as hn hf h3 h4
          | err e =>
            rw [hs] at hv
            simp only [enrich] at hv
            split at hv
            · cases hv
            · cases hb : Pretty.build cfg.env src name.span with
              | none => rw [hb] at hv; cases hv
              | some p => rw [hb] at hv; cases hv
          | crash => rw [hs] at hv; cases hv
  | stops hp hn ih =>
    refine ⟨ih.1.trans (List.prefix_append _ _), ?_⟩
    rintro ⟨v, rfl⟩
    exact absurd rfl (hn v)

/-! The machine -/

/-- The first state leads to the second, making these calls. -/
def TSteps (cfg : RenderCfg σ) (vm : VM σ) (cs : List Call) (vm' : VM σ) : Prop :=
  ∃ n, ∀ fuel, run cfg (fuel + n) vm = run cfg fuel vm' ∧ calls cfg (fuel + n) vm = cs ++ calls cfg fuel vm'

theorem TSteps.trans {a b c : VM σ} {cs cs' : List Call} (h : TSteps cfg a cs b) (h' : TSteps cfg b cs' c) :
    TSteps cfg a (cs ++ cs') c := by
  obtain ⟨n, h⟩ := h
  obtain ⟨m, h'⟩ := h'
  refine ⟨m + n, fun fuel => ?_⟩
  obtain ⟨h1, h2⟩ := h (fuel + m)
  obtain ⟨h3, h4⟩ := h' fuel
  rw [← Nat.add_assoc, h1, h2, h3, h4, List.append_assoc]
  exact ⟨rfl, rfl⟩

theorem TSteps.one {a b : VM σ} (h : step cfg a = .next b) : TSteps cfg a (called cfg a) b :=
  ⟨1, fun fuel => by rw [run, h, calls, h]; exact ⟨rfl, rfl⟩⟩

theorem Spec.HaltsWith.one {a : VM σ} {r : RunRes σ} (h : step cfg a = .halt r) : HaltsWith cfg a (called cfg a) r :=
  ⟨1, by rw [run, h], by rw [calls, h, List.append_nil]⟩

theorem TSteps.halts {a b : VM σ} {cs cs' : List Call} {r : RunRes σ} (h : TSteps cfg a cs b) (h' : HaltsWith cfg b cs' r) :
    HaltsWith cfg a (cs ++ cs') r := by
  obtain ⟨n, h⟩ := h
  obtain ⟨m, h', h''⟩ := h'
  exact ⟨m + n, by rw [(h m).1, h'], by rw [(h m).2, h'']⟩

theorem calls_mono : ∀ {n : Nat} {vm : VM σ} {r : RunRes σ} (k : Nat),
    run cfg n vm = some r → calls cfg (n + k) vm = calls cfg n vm := by
  intro n
  induction n with
  | zero => intro vm r k h; simp [run] at h
  | succ n ih =>
    intro vm r k h
    rw [Nat.add_right_comm, calls, calls]
    rw [run] at h
    congr 1
    split at h
    · next hs => rw [hs]
    · next hs => rw [hs]; exact ih k h

theorem Spec.HaltsWith.unique {vm : VM σ} {cs cs' : List Call} {r r' : RunRes σ} (h : HaltsWith cfg vm cs r)
    (h' : HaltsWith cfg vm cs' r') : cs = cs' ∧ r = r' := by
  obtain ⟨n, h, rfl⟩ := h
  obtain ⟨m, h', rfl⟩ := h'
  refine ⟨?_, Halts.unique ⟨n, h⟩ ⟨m, h'⟩⟩
  rw [← calls_mono m h, ← calls_mono n h', Nat.add_comm]

theorem halts_with {vm : VM σ} {r : RunRes σ} : Halts cfg vm r ↔ ∃ cs, HaltsWith cfg vm cs r :=
  ⟨fun ⟨n, h⟩ => ⟨_, n, h, rfl⟩, fun ⟨_, n, h, _⟩ => ⟨n, h⟩⟩

/-- What the machine does according to the outcome `r`: it goes on at `k`, or halts. -/
def TDoes (cfg : RenderCfg σ) (name : Option Str) (w : World σ) (vm : VM σ) (cs : List Call) (r : Res Cow) (k : Cow → VM σ) : Prop :=
  match r with
  | .ok c => TSteps cfg vm cs (k c)
  | .err e => HaltsWith cfg vm cs (.err (e.attachName name) w)
  | .crash => HaltsWith cfg vm cs .crash

theorem tdoes_step {t : Template} {name : Option Str} {hs : Bool} {fs : List Frame} {ex : Option Cow} {w : World σ} {pc : Nat}
    {i : Instr} (hi : t.instrs[pc]? = some i) {r : Res Cow} {pc' : Nat}
    (h : execInstr cfg t.source pc st ex w i = OneStep.ofRes w r (fun c => .next pc' st (some c) w)) :
    TDoes cfg name w (mach t name hs fs pc st ex w) (called cfg (mach t name hs fs pc st ex w)) r
      (fun c => mach t name hs fs pc' st (some c) w) := by
  cases r with
  | ok c => exact TSteps.one (by simp only [step, mach, hi, h, OneStep.ofRes])
  | err e => exact HaltsWith.one (by simp only [step, mach, hi, h, OneStep.ofRes])
  | crash => exact HaltsWith.one (by simp only [step, mach, hi, h, OneStep.ofRes])

theorem TDoes.steps {name : Option Str} {w : World σ} {a b : VM σ} {cs cs' : List Call} {r : Res Cow} {k : Cow → VM σ}
    (h : TSteps cfg a cs b) (h' : TDoes cfg name w b cs' r k) : TDoes cfg name w a (cs ++ cs') r k := by
  cases r with
  | ok c => exact TSteps.trans h h'
  | err e => exact TSteps.halts h h'
  | crash => exact TSteps.halts h h'

/-- The last step of a pipeline, in the machine. -/
theorem apply_does {t : Template} {name : Option Str} {hs : Bool} {fs : List Frame} {w : World σ} {pc : Nat}
    {fn : Ident} {args : Option Args} {recv : Expr} {sp : Span} {v : Cow} (hv : valueOf cfg t.source st recv = .ok v)
    (hi : t.instrs[pc]? = some (.apply fn sp args)) :
    TDoes cfg name w (mach t name hs fs pc st (some v) w)
      (callOf cfg t.source st fn v ((args.map Args.values).getD [])) (valueOf cfg t.source st (.call fn args recv sp))
      (fun c => mach t name hs fs (pc + 1) st (some c) w) := by
  have hc : called cfg (mach t name hs fs pc st (some v) w) =
      callOf cfg t.source st fn v ((args.map Args.values).getD []) := by
    simp only [called, mach, hi]
  rw [← hc]
  apply tdoes_step hi
  rw [valueOf, hv, Res.ok_bind, execInstr]
  cases Res.ofOption (fn.span.of t.source) with
  | err e => rfl
  | crash => rfl
  | ok n =>
    simp only [OneStep.ofRes, Res.ok_bind]
    cases BMap.get cfg.functions n with
    | none =>
      simp only [errRender, throwAt, fault]
      cases Pretty.build cfg.env t.source fn.span <;> rfl
    | some g =>
      cases g with
      | formatter g =>
        simp only [errRender, throwAt, fault]
        cases Pretty.build cfg.env t.source fn.span <;> rfl
      | filter f =>
        dsimp only
        cases enrich cfg.env t.source fn.span
          (callFilter cfg.env f t.source st fn v ((args.map Args.values).getD [])) <;> rfl

/-- **C13** Wherever the code of an expression stands in a template, running it makes exactly the calls of
the pipeline, in that order, and then goes on with the value of the expression, or fails with its error. -/
theorem C13_expr {e : Expr} {cs : List Call} {r : Res Cow} {t : Template} (h : Pipeline cfg t.source st e cs r)
    {pc : Nat} (hat : At t pc (codeExpr e)) (name : Option Str) (hs : Bool) (fs : List Frame) (w : World σ) :
    TDoes cfg name w (mach t name hs fs pc st none w) cs r
      (fun c => mach t name hs fs (pc + (codeExpr e).length) st (some c) w) := by
  generalize hsrc : t.source = src at h
  induction h generalizing pc with
  | @var v =>
    subst hsrc
    have hi : t.instrs[pc]? = some (.exprStart v) := hat.head
    have hc : called cfg (mach t name hs fs pc st none w) = [] := by simp only [called, mach, hi]
    rw [← hc]
    exact tdoes_step hi rfl
  | @lit l =>
    subst hsrc
    have hi : t.instrs[pc]? = some (.exprStartLit l.value) := hat.head
    have hc : called cfg (mach t name hs fs pc st none w) = [] := by simp only [called, mach, hi]
    rw [← hc]
    exact tdoes_step hi rfl
  | @call recv cs v fn args sp n f a as r hp h1 h2 h3 h4 h5 ih =>
    subst hsrc
    rw [codeExpr] at hat
    simp only [codeExpr, List.length_append, List.length_singleton, ← Nat.add_assoc]
    refine TDoes.steps (ih hat.left) ?_
    have := apply_does (name := name) (hs := hs) (fs := fs) (w := w) (C13_value hp).symm hat.right.head
    rw [callOf_some h1 h2 h3 h4, ← C13_value (.call hp h1 h2 h3 h4 h5)] at this
    exact this
  | @fails recv cs v fn args sp n f a as m hp h1 h2 h3 h4 h5 ih =>
    subst hsrc
    rw [codeExpr] at hat
    simp only [codeExpr, List.length_append, List.length_singleton, ← Nat.add_assoc]
    refine TDoes.steps (ih hat.left) ?_
    have := apply_does (name := name) (hs := hs) (fs := fs) (w := w) (C13_value hp).symm hat.right.head
    rw [callOf_some h1 h2 h3 h4, ← C13_value (.fails hp h1 h2 h3 h4 h5)] at this
    exact this
  | @refused recv cs v fn args sp hp hno ih =>
    subst hsrc
    rw [codeExpr] at hat
    simp only [codeExpr, List.length_append, List.length_singleton, ← Nat.add_assoc]
    have := apply_does (name := name) (hs := hs) (fs := fs) (w := w) (C13_value hp).symm hat.right.head
    rw [callOf_none hno] at this
    have := TDoes.steps (ih hat.left) this
    rwa [List.append_nil] at this
  | @stops recv cs r fn args sp hp hn ih =>
    subst hsrc
    rw [codeExpr] at hat
    have := ih hat.left
    cases r with
    | ok v => exact absurd rfl (hn v)
    | err e => exact this
    | crash => exact this

/-! Expressions that are written -/

theorem TSteps.rest {a b : VM σ} {cs cs' : List Call} {r : RunRes σ} (h : TSteps cfg a cs b) (h' : HaltsWith cfg a cs' r) :
    ∃ cs'', HaltsWith cfg b cs'' r ∧ cs' = cs ++ cs'' := by
  obtain ⟨n, h⟩ := h
  obtain ⟨m, h', rfl⟩ := h'
  refine ⟨calls cfg m b, ⟨m, ?_, rfl⟩, ?_⟩
  · rw [← (h m).1]; exact run_mono n h'
  · rw [← (h m).2]; exact (calls_mono n h').symm

/-- Templates that have nothing left to do make no calls. -/
theorem calls_ended (fuel : Nat) : ∀ vm : VM σ, (∀ fr ∈ vm.frames, fr.tmpl.instrs[fr.pc]? = none) → calls cfg fuel vm = [] := by
  induction fuel with
  | zero => intro vm _; rfl
  | succ fuel ih =>
    rintro ⟨frames, stack, expr, w⟩ h
    rw [calls]
    cases frames with
    | nil => rfl
    | cons fr frames =>
      have h1 : fr.tmpl.instrs[fr.pc]? = none := h fr (by simp)
      have h2 : called cfg ⟨fr :: frames, stack, expr, w⟩ = [] := by simp only [called, h1]
      rw [h2, List.nil_append]
      have h3 : ∀ vm' : VM σ, step cfg ⟨fr :: frames, stack, expr, w⟩ = .next vm' → vm'.frames = frames := by
        intro vm' hs
        simp only [step, h1, checkDepth] at hs
        repeat' split at hs
        all_goals first | (cases hs; done) | (cases hs; rfl)
      cases hs : step cfg ⟨fr :: frames, stack, expr, w⟩ with
      | halt r => rfl
      | next vm' => exact ih vm' (fun fr' hf => h fr' (by rw [h3 vm' hs] at hf; simp [hf]))

theorem idle_ended (k : Nat) : ∀ fr ∈ List.replicate k idle, fr.tmpl.instrs[fr.pc]? = none := by
  intro fr h
  rw [(List.mem_replicate.mp h).2]; rfl

/-- Writing makes no call besides those of its own instruction. -/
theorem emit_last {t : Template} {name : Option Str} {k : Nat} {w : World σ} {pc : Nat} {i : Instr} {v : Cow}
    (hi : t.instrs[pc]? = some i) (hend : t.instrs[pc + 1]? = none)
    (hn : ∀ pc' st' ex' w', execInstr cfg t.source pc st (some v) w i = .next pc' st' ex' w' → pc' = pc + 1)
    (hinc : ∀ pc' n, execInstr cfg t.source pc st (some v) w i ≠ .include_ pc' n)
    (hinc' : ∀ pc' n g, execInstr cfg t.source pc st (some v) w i ≠ .includeWith pc' n g) {cs : List Call} {res : RunRes σ}
    (h : HaltsWith cfg (mach t name false (List.replicate k idle) pc st (some v) w) cs res) :
    cs = called cfg (mach t name false (List.replicate k idle) pc st (some v) w) := by
  cases hs : step cfg (mach t name false (List.replicate k idle) pc st (some v) w) with
  | halt r => exact (h.unique (HaltsWith.one hs)).1
  | next vm' =>
    obtain ⟨cs', ⟨m, hm, rfl⟩, rfl⟩ := (TSteps.one hs).rest h
    have : ∀ fr ∈ vm'.frames, fr.tmpl.instrs[fr.pc]? = none := by
      simp only [step, mach, hi] at hs
      cases he : execInstr cfg t.source pc st (some v) w i with
      | next pc' st' ex' w' =>
        rw [he] at hs
        cases hs
        rw [hn _ _ _ _ he]
        intro fr hf
        rcases List.mem_cons.mp hf with rfl | hf
        · exact hend
        · exact idle_ended k fr hf
      | include_ pc' n => exact absurd he (hinc _ _)
      | includeWith pc' n g => exact absurd he (hinc' _ _ _)
      | err e w => rw [he] at hs; cases hs
      | crash => rw [he] at hs; cases hs
    rw [calls_ended m vm' this, List.append_nil]

theorem emit_cases {f : Formatter} {v : Value} {sp : Span} {w : World σ} {pc : Nat} {st : Stack} :
    (∃ w', emit cfg f v src sp w (fun w => .next (pc + 1) st none w) = .next (pc + 1) st none w') ∨
    (∃ e w', emit cfg f v src sp w (fun w => .next (pc + 1) st none w) = .err e w') ∨
    emit cfg f v src sp w (fun w => .next (pc + 1) st none w) = .crash := by
  rw [emit.eq_def]
  split
  · exact .inl ⟨_, rfl⟩
  · simp only [throwAt]
    cases Pretty.build cfg.env src sp with
    | none => exact .inr (.inr rfl)
    | some p => exact .inr (.inl ⟨_, _, rfl⟩)

/-- What is left to show after the receiver. -/
theorem emit_after {name : Option Str} {k : Nat} {w : World σ} {e : Expr} {code : Instr} {cs cs' : List Call} {r : Res Cow}
    {res : RunRes σ} (h : Pipeline cfg src st e cs r)
    (hrun : HaltsWith cfg (mach ⟨src, codeExpr e ++ [code]⟩ name false (List.replicate k idle) 0 st none w) cs' res) :
    (∃ v cs'', r = .ok v ∧ cs' = cs ++ cs'' ∧
      HaltsWith cfg (mach ⟨src, codeExpr e ++ [code]⟩ name false (List.replicate k idle) (codeExpr e).length st (some v) w) cs'' res) ∨
    ((∀ v, r ≠ .ok v) ∧ cs' = cs) := by
  have := C13_expr (t := ⟨src, codeExpr e ++ [code]⟩) h (pc := 0) ⟨[], [code], rfl, rfl⟩ name false (List.replicate k idle) w
  rw [Nat.zero_add] at this
  cases r with
  | ok v =>
    obtain ⟨cs'', h1, h2⟩ := TSteps.rest this hrun
    exact .inl ⟨v, cs'', rfl, h2, h1⟩
  | err e => exact .inr ⟨(fun _ h => by cases h), (hrun.unique this).1⟩
  | crash => exact .inr ⟨(fun _ h => by cases h), (hrun.unique this).1⟩

/-- **C13** Rendering `{{ e }}` makes exactly the calls of the pipeline `e`, in that order, unless `e` ends in
a formatter. -/
theorem C13_emit {k : Nat} {name : Option Str} {e : Expr} {sp : Span} {w : World σ} {cs cs' : List Call} {r : Res Cow}
    {res : RunRes σ}
    (hlast : ∀ fn recv s n f, e = .call fn none recv s → fn.span.of src = some n →
      BMap.get cfg.functions n ≠ some (.formatter f))
    (h : Pipeline cfg src st e cs r) (hp : PieceCalls cfg k name src [.inlineExpr e sp] st w cs' res) : cs' = cs := by
  obtain ⟨t, ht, hrun⟩ := hp
  rw [compileTemplate_eq] at ht
  cases ht
  simp only [codeStmts, codeStmt, List.append_nil] at hrun
  have gen : HaltsWith cfg (mach ⟨src, codeExpr e ++ [.emit e.span]⟩ name false (List.replicate k idle) 0 st none w) cs' res → cs' = cs := by
    intro hrun
    rcases emit_after h hrun with ⟨v, cs'', rfl, rfl, h2⟩ | ⟨_, h⟩
    · have hi : (codeExpr e ++ [Instr.emit e.span])[(codeExpr e).length]? = some (.emit e.span) := by simp
      have hx : execInstr cfg src (codeExpr e).length st (some v) w (.emit e.span) =
        emit cfg cfg.defaultFormatter v.val src e.span w (fun w => .next ((codeExpr e).length + 1) st none w) := rfl
      have := emit_last (t := ⟨src, codeExpr e ++ [.emit e.span]⟩) hi (by simp)
        (by
          intro pc' st' ex' w' h
          dsimp only at h
          rw [hx] at h
          rcases emit_cases (cfg := cfg) (src := src) (f := cfg.defaultFormatter) (v := v.val) (sp := e.span) (w := w)
            (pc := (codeExpr e).length) (st := st) with ⟨w', h'⟩ | ⟨e', w', h'⟩ | h' <;> rw [h'] at h <;> cases h
          rfl)
        (by
          intro pc' n h
          dsimp only at h
          rw [hx] at h
          rcases emit_cases (cfg := cfg) (src := src) (f := cfg.defaultFormatter) (v := v.val) (sp := e.span) (w := w)
            (pc := (codeExpr e).length) (st := st) with ⟨w', h'⟩ | ⟨e', w', h'⟩ | h' <;> rw [h'] at h <;> cases h)
        (by
          intro pc' n g h
          dsimp only at h
          rw [hx] at h
          rcases emit_cases (cfg := cfg) (src := src) (f := cfg.defaultFormatter) (v := v.val) (sp := e.span) (w := w)
            (pc := (codeExpr e).length) (st := st) with ⟨w', h'⟩ | ⟨e', w', h'⟩ | h' <;> rw [h'] at h <;> cases h)
        h2
      rw [this]
      simp only [called, mach, hi, List.append_nil]
    · exact h
  match e, h, hlast, hrun, gen with
  | .base b, h, hlast, hrun, gen => exact gen hrun
  | .call fn (some args) recv s, h, hlast, hrun, gen => exact gen hrun
  | .call fn none recv s, h, hlast, hrun, _ =>
    rw [codeEmit] at hrun
    obtain ⟨cr, hr⟩ := C13_pipeline cfg src st recv
    have hwhole := h
    rcases emit_after hr hrun with ⟨v, cs'', hv, rfl, h2⟩ | ⟨hno, rfl⟩
    · rw [hv] at hr
      have hi : (codeExpr recv ++ [Instr.emitWith fn s])[(codeExpr recv).length]? = some (.emitWith fn s) := by simp
      have hx : ∀ X, execInstr cfg src (codeExpr recv).length st (some v) w (.emitWith fn s) = X →
          (∃ w', X = .next ((codeExpr recv).length + 1) st none w') ∨ (∃ e w', X = .err e w') ∨ X = .crash := by
        intro X hX
        simp only [execInstr] at hX
        cases hn : fn.span.of src with
        | none => rw [hn] at hX; subst hX; exact .inr (.inr rfl)
        | some n =>
          rw [hn] at hX
          simp only [Res.ofOption, OneStep.ofRes] at hX
          cases hf : BMap.get cfg.functions n with
          | none =>
            simp only [hf, errRender, throwAt] at hX
            cases hb : Pretty.build cfg.env src fn.span with
            | none => rw [hb] at hX; subst hX; exact .inr (.inr rfl)
            | some p => rw [hb] at hX; subst hX; exact .inr (.inl ⟨_, _, rfl⟩)
          | some g =>
            cases g with
            | formatter g => exact absurd hf (hlast fn recv s n g rfl hn)
            | filter f =>
              simp only [hf] at hX
              cases hc : enrich cfg.env src fn.span (callFilter cfg.env f src st fn v []) with
              | err e => rw [hc] at hX; subst hX; exact .inr (.inl ⟨_, _, rfl⟩)
              | crash => rw [hc] at hX; subst hX; exact .inr (.inr rfl)
              | ok x =>
                rw [hc] at hX
                subst hX
                exact emit_cases
      have := emit_last (t := ⟨src, codeExpr recv ++ [.emitWith fn s]⟩) hi (by simp)
        (by
          intro pc' st' ex' w' h
          dsimp only at h
          rcases hx _ h with ⟨w', h'⟩ | ⟨e', w', h'⟩ | h' <;> cases h'
          rfl)
        (by
          intro pc' n h
          dsimp only at h
          rcases hx _ h with ⟨w', h'⟩ | ⟨e', w', h'⟩ | h' <;> cases h')
        (by
          intro pc' n g h
          dsimp only at h
          rcases hx _ h with ⟨w', h'⟩ | ⟨e', w', h'⟩ | h' <;> cases h')
        h2
      rw [this]
      have hcall : called cfg (mach ⟨src, codeExpr recv ++ [.emitWith fn s]⟩ name false (List.replicate k idle)
          (codeExpr recv).length st (some v) w) = callOf cfg src st fn v [] := by
        simp only [called, mach, hi]
      rw [hcall]
      by_cases hc : ∃ n f a as, fn.span.of src = some n ∧ BMap.get cfg.functions n = some (.filter f) ∧
        Converts cfg.env f.val v.val a ∧ PassAll cfg.env src st f.args [] as
      · obtain ⟨n, f, a, as, h1, h3, h4, h5⟩ := hc
        rw [callOf_some h1 h3 h4 h5]
        cases hcl : f.call a as with
        | ok x => exact (pipeline_unique (.call (args := none) hr h1 h3 h4 h5 hcl) hwhole).1
        | error m => exact (pipeline_unique (.fails (args := none) hr h1 h3 h4 h5 hcl) hwhole).1
      · have hno : ∀ n f a as, fn.span.of src = some n → BMap.get cfg.functions n = some (.filter f) →
          Converts cfg.env f.val v.val a → ¬ PassAll cfg.env src st f.args [] as :=
          fun n f a as h1 h3 h4 h5 => hc ⟨n, f, a, as, h1, h3, h4, h5⟩
        rw [callOf_none hno, List.append_nil]
        exact (pipeline_unique (.refused (args := none) hr hno) hwhole).1
    · exact (pipeline_unique (.stops hr hno) hwhole).1

/-- **C13** If `e` ends in a formatter exactly the calls of what stands before it are made. -/
theorem C13_emit_formatter {k : Nat} {name : Option Str} {fn : Ident} {recv : Expr} {s sp : Span} {w : World σ}
    {cs cs' : List Call} {r : Res Cow} {res : RunRes σ} {n : Str} {f : Formatter} (hn : fn.span.of src = some n)
    (hf : BMap.get cfg.functions n = some (.formatter f)) (h : Pipeline cfg src st recv cs r)
    (hp : PieceCalls cfg k name src [.inlineExpr (.call fn none recv s) sp] st w cs' res) : cs' = cs := by
  obtain ⟨t, ht, hrun⟩ := hp
  rw [compileTemplate_eq] at ht
  cases ht
  simp only [codeStmts, codeStmt, List.append_nil, codeEmit] at hrun
  rcases emit_after h hrun with ⟨v, cs'', rfl, rfl, h2⟩ | ⟨_, h⟩
  · have hi : (codeExpr recv ++ [Instr.emitWith fn s])[(codeExpr recv).length]? = some (.emitWith fn s) := by simp
    have hx : execInstr cfg src (codeExpr recv).length st (some v) w (.emitWith fn s) =
        emit cfg f v.val src fn.span w (fun w => .next ((codeExpr recv).length + 1) st none w) := by
      simp only [execInstr, hn, Res.ofOption, OneStep.ofRes, hf]
    have hX : ∀ X, execInstr cfg src (codeExpr recv).length st (some v) w (.emitWith fn s) = X →
          (∃ w', X = .next ((codeExpr recv).length + 1) st none w') ∨ (∃ e w', X = .err e w') ∨ X = .crash := by
      intro X h; rw [← h, hx]; exact emit_cases
    have := emit_last (t := ⟨src, codeExpr recv ++ [.emitWith fn s]⟩) hi (by simp)
        (by
          intro pc' st' ex' w' h
          dsimp only at h
          rcases hX _ h with ⟨w', h'⟩ | ⟨e', w', h'⟩ | h' <;> cases h'
          rfl)
        (by
          intro pc' n h
          dsimp only at h
          rcases hX _ h with ⟨w', h'⟩ | ⟨e', w', h'⟩ | h' <;> cases h')
        (by
          intro pc' n g h
          dsimp only at h
          rcases hX _ h with ⟨w', h'⟩ | ⟨e', w', h'⟩ | h' <;> cases h')
        h2
    rw [this]
    simp only [called, mach, hi, callOf, hn, hf, List.append_nil]
  · exact h

/-- **C13** These theorems are about every rendering: it makes some list of calls. -/
theorem C13_exists {k : Nat} {name : Option Str} {ss : List Stmt} {w : World σ} {res : RunRes σ} :
    Piece cfg k name src ss st w res ↔ ∃ cs, PieceCalls cfg k name src ss st w cs res := by
  constructor
  · rintro ⟨t, h1, h2⟩
    obtain ⟨cs, h⟩ := halts_with.mp h2
    exact ⟨cs, t, h1, h⟩
  · rintro ⟨cs, t, h1, h2⟩
    exact ⟨t, h1, halts_with.mpr ⟨cs, h2⟩⟩

/-! There are no other calls -/

theorem callFilter_same {env : Env} {f g : Filter} (hv : g.val = f.val) (ha : g.args = f.args) {name : Ident} {v : Cow}
    {args : List BaseExpr} (hc : ∀ a as, fromState env f src st name v args = .ok (a, as) → g.call a as = f.call a as) :
    callFilter env g src st name v args = callFilter env f src st name v args := by
  have e : fromState env g src st name v args = fromState env f src st name v args := by
    simp only [fromState, hv, ha]
  rw [callFilter, callFilter, e]
  cases hs : fromState env f src st name v args with
  | err e => rfl
  | crash => rfl
  | ok p =>
    obtain ⟨a, as⟩ := p
    simp only [Res.ok_bind]
    rw [hc a as hs]

/-- **C13** The calls recorded are all calls made: if the filters of two engines have the same signatures, and
give the same answers to the calls recorded in a step, the step is the same, whatever else they would answer. -/
theorem C13_calls_only (gs : BMap EngFn) (vm : VM σ) (h : SameOn cfg.functions gs (called cfg vm)) :
    step { cfg with functions := gs } vm = step cfg vm ∧ called { cfg with functions := gs } vm = called cfg vm := by
  obtain ⟨frames, stack, expr, w⟩ := vm
  cases frames with
  | nil => exact ⟨rfl, rfl⟩
  | cons fr frames =>
    cases hi : fr.tmpl.instrs[fr.pc]? with
    | none => exact ⟨by simp only [step, hi, checkDepth], by simp only [called, hi]⟩
    | some i =>
      have hstep : execInstr { cfg with functions := gs } fr.tmpl.source fr.pc stack expr w i =
          execInstr cfg fr.tmpl.source fr.pc stack expr w i →
          step { cfg with functions := gs } ⟨fr :: frames, stack, expr, w⟩ = step cfg ⟨fr :: frames, stack, expr, w⟩ := by
        intro he
        simp only [step, hi, he]
        cases execInstr cfg fr.tmpl.source fr.pc stack expr w i <;> rfl
      have same : ∀ (fn : Ident) (v : Cow) (args : List BaseExpr) (n : Str) (f : Filter),
          called cfg ⟨fr :: frames, stack, expr, w⟩ = callOf cfg fr.tmpl.source stack fn v args →
          fn.span.of fr.tmpl.source = some n → BMap.get cfg.functions n = some (.filter f) →
          ∃ g, BMap.get gs n = some (.filter g) ∧
            callFilter cfg.env g fr.tmpl.source stack fn v args = callFilter cfg.env f fr.tmpl.source stack fn v args ∧
            fromState cfg.env g fr.tmpl.source stack fn v args = fromState cfg.env f fr.tmpl.source stack fn v args := by
        intro fn v args n f hcall hn hf
        obtain ⟨g, hg, e1, e2, hc⟩ := h.filter n f hf
        refine ⟨g, hg, callFilter_same e1 e2 fun a as hs => hc a as ?_, by simp only [fromState, e1, e2]⟩
        rw [hcall]
        simp only [callOf, hn, hf, hs, List.mem_singleton]
      have hof : ∀ (fn : Ident) (v : Cow) (args : List BaseExpr),
          called cfg ⟨fr :: frames, stack, expr, w⟩ = callOf cfg fr.tmpl.source stack fn v args →
          callOf { cfg with functions := gs } fr.tmpl.source stack fn v args = callOf cfg fr.tmpl.source stack fn v args := by
        intro fn v args hcall
        cases hn : fn.span.of fr.tmpl.source with
        | none => simp only [callOf, hn]
        | some n =>
          simp only [callOf, hn]
          cases hf : BMap.get cfg.functions n with
          | none => simp only [h.none n hf]
          | some g =>
            cases g with
            | formatter f => simp only [h.formatter n f hf]
            | filter f =>
              obtain ⟨g, hg, _, e⟩ := same fn v args n f hcall hn hf
              simp only [hg, e]
      cases i with
      | apply fn sp args =>
        cases expr with
        | none =>
          refine ⟨hstep ?_, by simp only [called, hi]⟩
          simp only [execInstr]
          congr 1; funext n
          cases hf : BMap.get cfg.functions n with
          | none => simp only [h.none n hf]
          | some g =>
            cases g with
            | formatter f => simp only [h.formatter n f hf]
            | filter f => obtain ⟨g, hg, _⟩ := h.filter n f hf; simp only [hg]
        | some v =>
          have hcall : called cfg ⟨fr :: frames, stack, some v, w⟩ =
            callOf cfg fr.tmpl.source stack fn v ((args.map Args.values).getD []) := by simp only [called, hi]
          refine ⟨hstep ?_, by rw [hcall, ← hof _ _ _ hcall]; simp only [called, hi]⟩
          simp only [execInstr]
          cases hn : fn.span.of fr.tmpl.source with
          | none => rfl
          | some n =>
            simp only [Res.ofOption, OneStep.ofRes]
            cases hf : BMap.get cfg.functions n with
            | none => simp only [h.none n hf]
            | some g =>
              cases g with
              | formatter f => simp only [h.formatter n f hf]
              | filter f =>
                obtain ⟨g, hg, e, _⟩ := same fn v _ n f hcall hn hf
                simp only [hg, e]
      | emitWith fn sp =>
        cases expr with
        | none =>
          refine ⟨hstep ?_, by simp only [called, hi]⟩
          simp only [execInstr]
          congr 1; funext n
          cases hf : BMap.get cfg.functions n with
          | none => simp only [h.none n hf]
          | some g =>
            cases g with
            | formatter f => simp only [h.formatter n f hf]
            | filter f => obtain ⟨g, hg, _⟩ := h.filter n f hf; simp only [hg]
        | some v =>
          have hcall : called cfg ⟨fr :: frames, stack, some v, w⟩ =
            callOf cfg fr.tmpl.source stack fn v [] := by simp only [called, hi]
          refine ⟨hstep ?_, by rw [hcall, ← hof _ _ _ hcall]; simp only [called, hi]⟩
          simp only [execInstr]
          cases hn : fn.span.of fr.tmpl.source with
          | none => rfl
          | some n =>
            simp only [Res.ofOption, OneStep.ofRes]
            cases hf : BMap.get cfg.functions n with
            | none => simp only [h.none n hf]
            | some g =>
              cases g with
              | formatter f => simp only [h.formatter n f hf, emit]
              | filter f =>
                obtain ⟨g, hg, e, _⟩ := same fn v _ n f hcall hn hf
                simp only [hg, e, emit]
      | _ => exact ⟨hstep rfl, by simp only [called, hi]⟩

/-- **C13** … and so is a whole render. -/
theorem C13_calls_only_run (gs : BMap EngFn) (vm : VM σ) {cs : List Call} {r : RunRes σ} (h : HaltsWith cfg vm cs r)
    (hs : SameOn cfg.functions gs cs) : HaltsWith { cfg with functions := gs } vm cs r := by
  obtain ⟨n, h1, h2⟩ := h
  refine ⟨n, ?_⟩
  induction n generalizing vm cs with
  | zero => cases h1
  | succ n ih =>
    rw [calls] at h2
    rw [run] at h1
    have sub : SameOn cfg.functions gs (called cfg vm) :=
      ⟨hs.none, hs.formatter, fun n f hf => by
        obtain ⟨g, e1, e2, e3, e4⟩ := hs.filter n f hf
        exact ⟨g, e1, e2, e3, fun a as hm => e4 a as (h2 ▸ List.mem_append_left _ hm)⟩⟩
    obtain ⟨e1, e2⟩ := C13_calls_only gs vm sub
    rw [run, calls, e1, e2]
    cases hst : step cfg vm with
    | halt r' => rw [hst] at h1 h2; exact ⟨h1, h2⟩
    | next vm' =>
      rw [hst] at h1 h2
      dsimp only at h1 h2 ⊢
      have sub' : SameOn cfg.functions gs (calls cfg n vm') :=
        ⟨hs.none, hs.formatter, fun n' f hf => by
          obtain ⟨g, e1, e2, e3, e4⟩ := hs.filter n' f hf
          exact ⟨g, e1, e2, e3, fun a as hm => e4 a as (h2 ▸ List.mem_append_right _ hm)⟩⟩
      obtain ⟨i1, i2⟩ := ih vm' sub' h1 rfl
      exact ⟨i1, by rw [i2, h2]⟩

/-- `{{ v | add: 1 | add: v }}` with `v = 3`, in a loop, in a condition: `add` is called with 3 and 1 and then with
the result, 4, and 3. -/
example :
    let int : ArgVal → Option Int := fun | .int i => some i | _ => none
    (calls ⟨asciiEnv, fmtDefault asciiEnv, [("add".toList, .filter Demo.add)], [], none, 64, stringSink⟩ 50
      (initVM (Demo.code Demo.j) none (.scope (.borrowed (Demo.globals [("m", Demo.globals [("p", .integer 3)])]))) [])).map
        (fun c => (c.name, int c.val, c.args.map int)) =
      [("add".toList, some 3, [some 1]), ("add".toList, some 4, [some 3])] := by decide +kernel

end Upon
