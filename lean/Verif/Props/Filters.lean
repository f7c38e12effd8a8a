import Verif.Spec.Filters
import Verif.Props.Include
/-
C31, C32: filter calls and default formatting.
-/
namespace Upon
open Spec
variable {σ : Type} {env : Env} {src : Str} {st : Stack}

/-! Conversions -/

/-- **C31** An integer parameter takes exactly the integers of its type. -/
theorem C31_range (t : IntTy) (i : Int) : (t.min env ≤ i ∧ i ≤ t.max env) ↔ Fits env t i := by
  cases t <;> simp only [IntTy.min, IntTy.max, Fits] <;> omega

/-- **C31** When a value can be passed for a parameter by reference, and as what. -/
theorem C31_convert (t : ArgTy) (v : Value) (a : ArgVal) : t.fromValueRef env v = .ok a ↔ Converts env t v a := by
  constructor
  · intro h
    cases t <;> cases v <;> simp only [ArgTy.fromValueRef] at h <;> try (first | cases h; constructor | cases h)
    rename_i t i
    split at h
    · rename_i hr
      cases h
      exact .int ((C31_range t i).mp hr)
    · cases h
  · intro h
    cases h with
    | int h => rw [ArgTy.fromValueRef, if_pos ((C31_range _ _).mpr h)]
    | _ => first | rfl | simp [ArgTy.fromValueRef]

/-- **C31** … and by value. -/
theorem C31_convert_owned (t : ArgTy) (v : Value) (a : ArgVal) :
    t.fromValue env v = .ok a ↔ ¬ ByRef t ∧ Converts env t v a := by
  by_cases hr : ByRef t
  · constructor
    · intro h
      cases t <;> try exact absurd hr id
      all_goals cases v <;> simp [ArgTy.fromValue, ArgTy.fromValueRef] at h
    · intro h; exact absurd hr h.1
  · have : t.fromValue env v = t.fromValueRef env v := by
      cases t <;> try rfl
      all_goals exact absurd trivial hr
    rw [this, C31_convert]
    exact ⟨fun h => ⟨hr, h⟩, fun h => h.2⟩

theorem getArg_ok (t : ArgTy) (x : BaseExpr) (a : ArgVal) :
    getArg env src st t x = .ok a ↔ Passes env src st t x a := by
  have ne : ∀ {α : Type} {m sp} {b : α}, (errRender env m src sp : Res α) ≠ .ok b := by
    intro α m sp b
    rw [errRender, throwAt]; split <;> simp
  cases x with
  | lit l =>
    rw [getArg]
    cases h : t.fromValueRef env l.value with
    | ok a' =>
      constructor
      · intro e; cases e; exact .lit ((C31_convert _ _ _).mp h)
      · intro e; cases e with
        | lit h' => rw [(C31_convert _ _ _).mpr h'] at h; cases h; rfl
    | error e =>
      constructor
      · intro e; exact absurd e ne
      · intro e; cases e with
        | lit h' => rw [(C31_convert _ _ _).mpr h'] at h; cases h
  | var v =>
    rw [getArg]
    cases hl : lookupVar env src st v with
    | err e =>
      rw [Res.err_bind]
      constructor
      · intro e; cases e
      · intro h; cases h with
        | borrowed h _ => rw [hl] at h; cases h
        | owned h _ _ => rw [hl] at h; cases h
    | crash =>
      rw [Res.crash_bind]
      constructor
      · intro e; cases e
      · intro h; cases h with
        | borrowed h _ => rw [hl] at h; cases h
        | owned h _ _ => rw [hl] at h; cases h
    | ok c =>
      rw [Res.ok_bind]
      cases c with
      | borrowed x =>
        dsimp only
        cases h : t.fromValueRef env x with
        | ok a' =>
          constructor
          · intro e; cases e; exact .borrowed hl ((C31_convert _ _ _).mp h)
          · intro e; cases e with
            | borrowed h1 h2 => rw [hl] at h1; cases h1; rw [(C31_convert _ _ _).mpr h2] at h; cases h; rfl
            | owned h1 _ _ => rw [hl] at h1; cases h1
        | error e =>
          constructor
          · intro e; exact absurd e ne
          · intro e; cases e with
            | borrowed h1 h2 => rw [hl] at h1; cases h1; rw [(C31_convert _ _ _).mpr h2] at h; cases h
            | owned h1 _ _ => rw [hl] at h1; cases h1
      | owned x =>
        dsimp only
        cases h : t.fromValue env x with
        | ok a' =>
          constructor
          · intro e; cases e
            have := (C31_convert_owned _ _ _).mp h
            exact .owned hl this.1 this.2
          · intro e; cases e with
            | borrowed h1 h2 => rw [hl] at h1; cases h1
            | owned h1 h2 h3 => rw [hl] at h1; cases h1; rw [(C31_convert_owned _ _ _).mpr ⟨h2, h3⟩] at h; cases h; rfl
        | error e =>
          constructor
          · intro e; exact absurd e ne
          · intro e; cases e with
            | borrowed h1 h2 => rw [hl] at h1; cases h1
            | owned h1 h2 h3 => rw [hl] at h1; cases h1; rw [(C31_convert_owned _ _ _).mpr ⟨h2, h3⟩] at h; cases h

theorem passes_unique {t : ArgTy} {x : BaseExpr} {a b : ArgVal} (h : Passes env src st t x a) (h' : Passes env src st t x b) :
    a = b := by
  have h := (getArg_ok t x a).mpr h
  rw [(getArg_ok t x b).mpr h'] at h
  cases h; rfl

theorem getArgs_ok (ts : List ArgTy) (xs : List BaseExpr) (hlen : xs.length = ts.length) (as : List ArgVal) :
    getArgs env src st ts xs = .ok as ↔ PassAll env src st ts xs as := by
  induction ts generalizing xs as with
  | nil =>
    cases xs with
    | nil =>
      rw [getArgs]
      constructor
      · intro h; cases h; exact .nil
      · intro h; cases h; rfl
    | cons => cases hlen
  | cons t ts ih =>
    cases xs with
    | nil => cases hlen
    | cons x xs =>
      have hlen' : xs.length = ts.length := Nat.succ.inj hlen
      rw [getArgs]
      constructor
      · intro h
        cases h1 : getArg env src st t x with
        | err e => rw [h1] at h; cases h
        | crash => rw [h1] at h; cases h
        | ok a =>
          rw [h1, Res.ok_bind] at h
          cases h2 : getArgs env src st ts xs with
          | err e => rw [h2] at h; cases h
          | crash => rw [h2] at h; cases h
          | ok as' =>
            rw [h2] at h; cases h
            exact .cons ((getArg_ok _ _ _).mp h1) ((ih xs hlen' _).mp h2)
      · intro h
        cases h with
        | cons h1 h2 => rw [(getArg_ok _ _ _).mpr h1, Res.ok_bind, (ih xs hlen' _).mpr h2]; rfl

/-! Calls -/

/-- **C31** A filter call succeeds exactly when the number of arguments is right, the value and the
arguments can be passed for the parameters, and the filter, called with them, succeeds. -/
theorem C31_call (f : Filter) (name : Ident) (v : Cow) (args : List BaseExpr) (r : Value) :
    callFilter env f src st name v args = .ok r ↔
      args.length = f.args.length ∧ ∃ a as, Converts env f.val v.val a ∧ PassAll env src st f.args args as ∧
        f.call a as = .ok r := by
  have ne : ∀ {α : Type} {m sp} {b : α}, (errRender env m src sp : Res α) ≠ .ok b := by
    intro α m sp b
    rw [errRender, throwAt]; split <;> simp
  rw [callFilter, fromState]
  by_cases hlen : args.length = f.args.length
  · rw [if_pos hlen]
    cases hv : f.val.fromCowMut env v with
    | error e =>
      constructor
      · intro h
        exfalso
        cases he : errExpectedVal e with
        | none => simp only [he] at h; cases h
        | some m =>
          simp only [he, errRender, throwAt] at h
          split at h <;> cases h
      · rintro ⟨_, a, as, h, _⟩
        rw [ArgTy.fromCowMut, (C31_convert _ _ _).mpr h] at hv; cases hv
    | ok a =>
      have hv' := (C31_convert _ _ _).mp hv
      dsimp only
      cases ha : getArgs env src st f.args args with
      | err e =>
        constructor
        · intro h; cases h
        · rintro ⟨_, a, as, _, h, _⟩
          rw [(getArgs_ok _ _ hlen _).mpr h] at ha; cases ha
      | crash =>
        constructor
        · intro h; cases h
        · rintro ⟨_, a, as, _, h, _⟩
          rw [(getArgs_ok _ _ hlen _).mpr h] at ha; cases ha
      | ok as =>
        have ha' := (getArgs_ok _ _ hlen _).mp ha
        rw [Res.ok_bind, Res.ok_bind]
        dsimp only
        constructor
        · intro h
          refine ⟨hlen, a, as, hv', ha', ?_⟩
          cases hc : f.call a as with
          | ok r' => rw [hc] at h; cases h; rfl
          | error m => rw [hc] at h; cases h
        · rintro ⟨_, a', as', h1, h2, h3⟩
          have e1 := (C31_convert _ _ _).mpr h1
          rw [ArgTy.fromCowMut, e1] at hv; cases hv
          rw [(getArgs_ok _ _ hlen _).mpr h2] at ha; cases ha
          rw [h3]
  · rw [if_neg hlen]
    constructor
    · intro h
      exfalso
      rw [errRender, throwAt] at h
      split at h <;> cases h
    · intro h; exact absurd h.1 hlen

/-- **C31** A filter is called only then: otherwise the outcome does not depend on what the filter does. -/
theorem C31_not_called (f : Filter) (name : Ident) (v : Cow) (args : List BaseExpr)
    (h : ¬ (args.length = f.args.length ∧ ∃ a as, Converts env f.val v.val a ∧ PassAll env src st f.args args as))
    (call : ArgVal → List ArgVal → Except String Value) :
    callFilter env { f with call } src st name v args = callFilter env f src st name v args := by
  have e : fromState env { f with call } src st name v args = fromState env f src st name v args := rfl
  rw [callFilter, callFilter, e]
  cases hs : fromState env f src st name v args with
  | err e => rfl
  | crash => rfl
  | ok p =>
    exfalso
    apply h
    rw [fromState] at hs
    by_cases hlen : args.length = f.args.length
    · refine ⟨hlen, ?_⟩
      rw [if_pos hlen] at hs
      cases hv : f.val.fromCowMut env v with
      | error e =>
        rw [hv] at hs
        cases he : errExpectedVal e with
        | none => simp only [he] at hs; cases hs
        | some m =>
          simp only [he, errRender, throwAt] at hs
          split at hs <;> cases hs
      | ok a =>
        rw [hv] at hs
        dsimp only at hs
        cases ha : getArgs env src st f.args args with
        | err e => rw [ha] at hs; cases hs
        | crash => rw [ha] at hs; cases hs
        | ok as => exact ⟨a, as, (C31_convert _ _ _).mp hv, (getArgs_ok _ _ hlen _).mp ha⟩
    · rw [if_neg hlen, errRender, throwAt] at hs
      split at hs <;> cases hs

/-- **C31** Called with the wrong number of arguments: an error at the filter's name. -/
theorem C31_arity (f : Filter) (name : Ident) (v : Cow) (args : List BaseExpr) (h : args.length ≠ f.args.length)
    {p : Pretty} (hp : Pretty.build env src name.span = some p) :
    callFilter env f src st name v args =
      .err ⟨.render, none, some s!"filter expected {f.args.length} arguments", some p⟩ := by
  rw [callFilter, fromState, if_neg h, errRender, throwAt, hp]; rfl

theorem expectedVal_some (t : ArgTy) (v : Value) {e : ArgErr} (h : t.fromValueRef env v = .error e) :
    ∃ m, errExpectedVal e = some m := by
  rcases offer_value env t v with ⟨a, ha, _⟩ | ⟨e', m, he, hm, _⟩
  · rw [h] at ha; cases ha
  · rw [h] at he; cases he; exact ⟨m, hm⟩

theorem accepts_iff (t : ArgTy) (v : Value) (a : ArgVal) : accepts env t v = some a ↔ Converts env t v a := by
  rw [← C31_convert, fromValueRef_eq]
  cases accepts env t v with
  | some x => simp
  | none => cases t <;> cases v <;> simp

theorem accepts_none {t : ArgTy} {v : Value} : accepts env t v = none ↔ ∀ a, ¬ Converts env t v a := by
  constructor
  · intro h a ha
    rw [(accepts_iff t v a).mpr ha] at h
    cases h
  · intro h
    cases ha : accepts env t v with
    | none => rfl
    | some a => exact absurd ((accepts_iff t v a).mp ha) (h a)

/-- **C31** The value cannot be passed: an error at the filter's name, which says what was expected and what was
found. -/
theorem C31_bad_value (f : Filter) (name : Ident) (v : Cow) (args : List BaseExpr) (hlen : args.length = f.args.length)
    (h : ∀ a, ¬ Converts env f.val v.val a) {p : Pretty} (hp : Pretty.build env src name.span = some p) :
    callFilter env f src st name v args = .err ⟨.render, none, some (objection .value f.val v.val), some p⟩ := by
  rw [callFilter, fromState, if_pos hlen, ArgTy.fromCowMut]
  rcases offer_value env f.val v.val with ⟨a, ha, _⟩ | ⟨e, m, he, hm, ho⟩
  · exact absurd ((C31_convert _ _ _).mp ha) (h a)
  · rw [offer, accepts_none.mpr h] at ho
    injection ho with ho
    rw [he, ho]
    simp only [hm, errRender, throwAt, hp]
    rfl

theorem offer_fails {t : ArgTy} {x : Value} {lent : Bool} {m : String} (h : offer env .argument lent t x = .error m) :
    ((∀ a, ¬ Converts env t x a) ∧ m = objection .argument t x) ∨
    (lent = false ∧ ByRef t ∧ (∃ a, Converts env t x a) ∧ m = noLoan t) := by
  rw [offer] at h
  cases ha : accepts env t x with
  | none => rw [ha] at h; injection h with h; exact .inl ⟨accepts_none.mp ha, h.symm⟩
  | some a =>
    rw [ha] at h
    dsimp only at h
    split at h
    · rename_i hr
      injection h with h
      exact .inr ⟨hr.2, hr.1, ⟨a, (accepts_iff _ _ _).mp ha⟩, h.symm⟩
    · cases h

/-- **C31** An argument cannot be passed: for the first one, a literal gives an error at the literal, a
variable that has a value gives an error at the variable, and a variable without one gives its own error. -/
theorem C31_bad_arg (f : Filter) (name : Ident) (v : Cow) (args : List BaseExpr) (hlen : args.length = f.args.length)
    {a : ArgVal} (hv : Converts env f.val v.val a) {t : ArgTy} {x : BaseExpr}
    (hb : FirstBad env src st f.args args t x) {p : Pretty} (hp : Pretty.build env src x.span = some p) :
    (∃ m, Objects env src st t x m ∧ callFilter env f src st name v args = .err ⟨.render, none, some m, some p⟩) ∨
    (∃ var, x = .var var ∧ ∃ e, lookupVar env src st var = .err e ∧ callFilter env f src st name v args = .err e) ∨
    (∃ var, x = .var var ∧ lookupVar env src st var = .crash ∧ callFilter env f src st name v args = .crash) := by
  have one : (∃ m, Objects env src st t x m ∧ getArg env src st t x = .err ⟨.render, none, some m, some p⟩) ∨
      (∃ var, x = .var var ∧ ∃ e, lookupVar env src st var = .err e ∧ getArg env src st t x = .err e) ∨
      (∃ var, x = .var var ∧ lookupVar env src st var = .crash ∧ getArg env src st t x = .crash) := by
    have hno : ∀ a, ¬ Passes env src st t x a := by
      generalize f.args = ts at hb
      clear hlen
      induction hb with
      | here h => exact h
      | later _ _ ih => exact ih hp
    cases x with
    | lit l =>
      left
      rw [getArg]
      have ho := offer_lent env t l.value
      cases h : t.fromValueRef env l.value with
      | ok a => exact absurd (.lit ((C31_convert _ _ _).mp h)) (hno a)
      | error e =>
        rw [h] at ho
        rw [BaseExpr.span] at hp
        rcases offer_fails ho with ⟨h1, h2⟩ | ⟨h1, _⟩
        · exact ⟨errExpectedArg e, h2 ▸ .lit h1, by simp only [errRender, throwAt, hp]⟩
        · cases h1
    | var var =>
      rw [BaseExpr.span] at hp
      rw [getArg]
      cases hl : lookupVar env src st var with
      | err e => exact .inr (.inl ⟨var, rfl, e, hl, rfl⟩)
      | crash => exact .inr (.inr ⟨var, rfl, hl, rfl⟩)
      | ok c =>
        left
        rw [Res.ok_bind]
        cases c with
        | borrowed x =>
          have ho := offer_lent env t x
          cases h : t.fromValueRef env x with
          | ok a => exact absurd (.borrowed hl ((C31_convert _ _ _).mp h)) (hno a)
          | error e =>
            rw [h] at ho
            rcases offer_fails ho with ⟨h1, h2⟩ | ⟨h1, _⟩
            · refine ⟨errExpectedArg e, ?_, by dsimp only; rw [h]; simp only [errRender, throwAt, hp]⟩
              rw [h2]
              exact .var (c := .borrowed x) hl h1
            · cases h1
        | owned x =>
          have ho := offer_owned env t x
          cases h : t.fromValue env x with
          | ok a =>
            have := (C31_convert_owned _ _ _).mp h
            exact absurd (.owned hl this.1 this.2) (hno a)
          | error e =>
            rw [h] at ho
            refine ⟨errExpectedArg e, ?_, by dsimp only; rw [h]; simp only [errRender, throwAt, hp]⟩
            rcases offer_fails ho with ⟨h1, h2⟩ | ⟨_, h1, ⟨a, ha⟩, h2⟩
            · rw [h2]
              exact .var (c := .owned x) hl h1
            · rw [h2]
              exact .loan hl h1 ha
  have all : ∀ res, (getArg env src st t x = .err res → getArgs env src st f.args args = .err res) ∧
      (getArg env src st t x = .crash → getArgs env src st f.args args = .crash) := by
    intro res
    generalize f.args = ts at hb ⊢
    clear one hlen
    induction hb with
    | here _ =>
      rw [getArgs]
      refine ⟨fun h => ?_, fun h => ?_⟩ <;> rw [h] <;> rfl
    | later h1 _ ih =>
      obtain ⟨i1, i2⟩ := ih hp
      rw [getArgs, (getArg_ok _ _ _).mpr h1, Res.ok_bind]
      refine ⟨fun h => ?_, fun h => ?_⟩
      · rw [i1 h]; rfl
      · rw [i2 h]; rfl
  have call : (∀ res, getArg env src st t x = .err res → callFilter env f src st name v args = .err res) ∧
      (getArg env src st t x = .crash → callFilter env f src st name v args = .crash) := by
    rw [callFilter, fromState, if_pos hlen, ArgTy.fromCowMut, (C31_convert _ _ _).mpr hv]
    dsimp only
    refine ⟨fun res h => ?_, fun h => ?_⟩
    · rw [(all res).1 h]; rfl
    · rw [(all Err.ofFmt).2 h]; rfl
  rcases one with ⟨m, ho, h⟩ | ⟨var, e1, e, h1, h2⟩ | ⟨var, e1, h1, h2⟩
  · exact .inl ⟨m, ho, call.1 _ h⟩
  · exact .inr (.inl ⟨var, e1, e, h1, call.1 _ h2⟩)
  · exact .inr (.inr ⟨var, e1, h1, call.2 h2⟩)

/-- **C31** The filter itself fails: an error of kind filter with its message. -/
theorem C31_filter_error (f : Filter) (name : Ident) (v : Cow) (args : List BaseExpr) {a : ArgVal} {as : List ArgVal}
    (hlen : args.length = f.args.length) (hv : Converts env f.val v.val a) (ha : PassAll env src st f.args args as) {m : String}
    (hc : f.call a as = .error m) : callFilter env f src st name v args = .err ⟨.filter, none, some m, none⟩ := by
  rw [callFilter, fromState, if_pos hlen, ArgTy.fromCowMut, (C31_convert _ _ _).mpr hv]
  dsimp only
  rw [(getArgs_ok _ _ hlen _).mpr ha, Res.ok_bind, Res.ok_bind]
  dsimp only
  rw [hc]
  rfl

end Upon
