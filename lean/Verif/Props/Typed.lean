import Verif.Spec.Typed
import Verif.Props.Filters
/-
C54: Rust functions as filters.
-/
namespace Upon
open Spec
variable {σ : Type} {env : Env} {src : Str} {st : Stack}

/-! Links to the conversions of C31 -/

/-- What a parameter holds is the converted value with its type. -/
theorem holds_iff {t : ArgTy} {v : Value} {x : t.Out env} : Holds env t v x ↔ ∃ a, Converts env t v a ∧ t.out env a = some x := by
  constructor
  · intro h
    cases t with
    | int t =>
      cases v <;> try exact h.elim
      case integer i =>
        obtain ⟨j, hj⟩ := x
        have e : j = i := h
        subst e
        exact ⟨_, .int ((IntTy.fits env t j).mp hj), dif_pos hj⟩
    | unit => cases v <;> first | exact h.elim | exact ⟨_, .unit, rfl⟩
    | value => cases h; exact ⟨_, .value, rfl⟩
    | valueRef => cases h; exact ⟨_, .valueRef, rfl⟩
    | bool => cases v <;> first | exact h.elim | (cases h; exact ⟨_, .bool, rfl⟩)
    | f32 => cases v <;> first | exact h.elim | (cases h; exact ⟨_, .f32, rfl⟩)
    | f64 => cases v <;> first | exact h.elim | (cases h; exact ⟨_, .f64, rfl⟩)
    | string => cases v <;> first | exact h.elim | (cases h; exact ⟨_, .string, rfl⟩)
    | str => cases v <;> first | exact h.elim | (cases h; exact ⟨_, .str, rfl⟩)
    | list => cases v <;> first | exact h.elim | (cases h; exact ⟨_, .list, rfl⟩)
    | listRef => cases v <;> first | exact h.elim | (cases h; exact ⟨_, .listRef, rfl⟩)
    | map => cases v <;> first | exact h.elim | (cases h; exact ⟨_, .map, rfl⟩)
    | mapRef => cases v <;> first | exact h.elim | (cases h; exact ⟨_, .mapRef, rfl⟩)
  · rintro ⟨a, hc, ho⟩
    cases hc with
    | int hf =>
      rename_i t i
      have e : (if h : t.min env ≤ i ∧ i ≤ t.max env then some (⟨i, h⟩ : { i : Int // t.min env ≤ i ∧ i ≤ t.max env }) else none)
          = some x := ho
      rw [dif_pos ((IntTy.fits env t i).mpr hf)] at e
      cases e
      exact rfl
    | unit => trivial
    | _ => cases ho; exact rfl

/-- A value that converts has a value of the parameter's type. -/
theorem out_some {t : ArgTy} {v : Value} {a : ArgVal} (h : Converts env t v a) : ∃ x, t.out env a = some x := by
  cases h with
  | int hf => exact ⟨_, dif_pos ((IntTy.fits env _ _).mpr hf)⟩
  | _ => exact ⟨_, rfl⟩

/-- **C54** What a parameter holds is determined by the value it is given. -/
theorem C54_holds_unique {t : ArgTy} {v : Value} {x y : t.Out env} (hx : Holds env t v x) (hy : Holds env t v y) : x = y := by
  obtain ⟨a, ha, hax⟩ := holds_iff.mp hx
  obtain ⟨b, hb, hby⟩ := holds_iff.mp hy
  have e := (accepts_iff t v a).mpr ha
  rw [(accepts_iff t v b).mpr hb] at e
  cases e
  rw [hax] at hby
  cases hby
  rfl

theorem given_iff {t : ArgTy} {b : BaseExpr} {x : t.Out env} :
    Given env src st t b x ↔ ∃ a, Passes env src st t b a ∧ t.out env a = some x := by
  constructor
  · intro h
    cases h with
    | lit h =>
      obtain ⟨a, ha, hx⟩ := holds_iff.mp h
      exact ⟨a, .lit ha, hx⟩
    | var hl hb h =>
      rename_i v c
      obtain ⟨a, ha, hx⟩ := holds_iff.mp h
      cases c with
      | borrowed y => exact ⟨a, .borrowed hl ha, hx⟩
      | owned y =>
        refine ⟨a, .owned hl (fun hr => ?_) ha, hx⟩
        obtain ⟨_, h⟩ := hb hr
        cases h
  · rintro ⟨a, hp, hx⟩
    cases hp with
    | lit h => exact .lit (holds_iff.mpr ⟨a, h, hx⟩)
    | borrowed hl h => exact .var hl (fun _ => ⟨_, rfl⟩) (holds_iff.mpr ⟨a, h, hx⟩)
    | owned hl hr h => exact .var hl (fun h => absurd h hr) (holds_iff.mpr ⟨a, h, hx⟩)

theorem givenAll_iff {ts : List ArgTy} {bs : List BaseExpr} {xs : Tuple env ts} :
    GivenAll env src st ts bs xs ↔ ∃ as, PassAll env src st ts bs as ∧ Tuple.out env ts as = some xs := by
  induction ts generalizing bs with
  | nil =>
    constructor
    · intro h; cases h; exact ⟨[], .nil, rfl⟩
    · rintro ⟨as, h, hx⟩; cases h; cases hx; exact .nil
  | cons t ts ih =>
    constructor
    · intro h
      cases h with
      | cons h hs =>
        obtain ⟨a, ha, hx⟩ := given_iff.mp h
        obtain ⟨as, has, hxs⟩ := ih.mp hs
        refine ⟨a :: as, .cons ha has, ?_⟩
        rw [Tuple.out, hx, hxs]
        rfl
    · rintro ⟨as, h, hx⟩
      cases h with
      | cons h hs =>
        rename_i a as
        rw [Tuple.out] at hx
        cases hy : t.out env a with
        | none => rw [hy] at hx; cases hx
        | some y =>
          cases hys : Tuple.out env ts as with
          | none => rw [hy, hys] at hx; cases hx
          | some ys =>
            rw [hy, hys] at hx
            cases hx
            exact .cons (given_iff.mpr ⟨_, h, hy⟩) (ih.mpr ⟨_, hs, hys⟩)

theorem passAll_length {ts : List ArgTy} {bs : List BaseExpr} {as : List ArgVal} (h : PassAll env src st ts bs as) :
    bs.length = ts.length := by
  induction h with
  | nil => rfl
  | cons _ _ ih => simp [ih]

/-- **C54** A tuple of arguments is determined by the arguments of the call. -/
theorem C54_given_unique {ts : List ArgTy} {bs : List BaseExpr} {xs ys : Tuple env ts} (hx : GivenAll env src st ts bs xs)
    (hy : GivenAll env src st ts bs ys) : xs = ys := by
  induction hx with
  | nil => cases hy; rfl
  | cons h _ ih =>
    cases hy with
    | cons h' hs' =>
      have e : ∀ {t : ArgTy} {b : BaseExpr} {x y : t.Out env}, Given env src st t b x → Given env src st t b y → x = y := by
        intro t b x y h h'
        obtain ⟨a, ha, hx⟩ := given_iff.mp h
        obtain ⟨a', ha', hy⟩ := given_iff.mp h'
        rw [passes_unique ha ha', hy] at hx
        cases hx
        rfl
      rw [e h h', ih hs']

theorem passAll_out {ts : List ArgTy} {bs : List BaseExpr} {as : List ArgVal} (h : PassAll env src st ts bs as) :
    ∃ xs, Tuple.out env ts as = some xs := by
  induction h with
  | nil => exact ⟨_, rfl⟩
  | cons h _ ih =>
    obtain ⟨xs, hxs⟩ := ih
    obtain ⟨x, hx⟩ : ∃ x, ArgTy.out env _ _ = some x := by
      cases h with
      | lit h => exact out_some h
      | borrowed _ h => exact out_some h
      | owned _ _ h => exact out_some h
    exact ⟨.cons x xs, by rw [Tuple.out, hx, hxs]; rfl⟩

/-! Calls -/

section
variable {R : Type} {val : ArgTy} {ts : List ArgTy} {ret : R → Except String Value} {f : FnOf env (val :: ts) R}
  {name : Ident} {v : Cow} {args : List BaseExpr}

theorem ofFn_call {a : ArgVal} {as : List ArgVal} {x : val.Out env} {xs : Tuple env ts} (hx : val.out env a = some x)
    (hxs : Tuple.out env ts as = some xs) : (Filter.ofFn env val ts ret f).call a as = ret (FnOf.apply f (.cons x xs)) := by
  rw [Filter.ofFn]
  simp only [hx, hxs]

/-- The outcome of a call of a function whose parameters are given values. -/
theorem ofFn_given {x : val.Out env} {xs : Tuple env ts} (hx : Holds env val v.val x) (hxs : GivenAll env src st ts args xs) :
    callFilter env (Filter.ofFn env val ts ret f) src st name v args = (match ret (FnOf.apply f (.cons x xs)) with
      | .ok r => .ok r
      | .error m => .err ⟨.filter, none, some m, none⟩) := by
  obtain ⟨a, ha, hax⟩ := holds_iff.mp hx
  obtain ⟨as, has, haxs⟩ := givenAll_iff.mp hxs
  have hlen := passAll_length has
  have hc := ofFn_call (ret := ret) (f := f) hax haxs
  cases hr : ret (FnOf.apply f (.cons x xs)) with
  | ok r => exact (C31_call _ _ _ _ _).mpr ⟨hlen, a, as, ha, has, hc.trans hr⟩
  | error m => exact C31_filter_error _ _ _ _ hlen ha has (hc.trans hr)

end

section
variable {T : Type} {into : T → Value} {val : ArgTy} {ts : List ArgTy} {name : Ident} {v : Cow} {args : List BaseExpr}

/-- **C54** A function that returns something that converts into a value: the call succeeds exactly when each parameter
can be given what the template passes for it, and its value is what the function returns for exactly those. -/
theorem C54_returns {f : FnOf env (val :: ts) T} {r : Value} :
    callFilter env (Filter.ofFn env val ts (returns into) f) src st name v args = .ok r ↔
      ∃ x xs, Holds env val v.val x ∧ GivenAll env src st ts args xs ∧ r = into (FnOf.apply f (.cons x xs)) := by
  rw [C31_call]
  constructor
  · rintro ⟨_, a, as, ha, has, hc⟩
    have ha : Converts env val v.val a := ha
    have has : PassAll env src st ts args as := has
    obtain ⟨x, hx⟩ := out_some ha
    obtain ⟨xs, hxs⟩ := passAll_out has
    rw [ofFn_call hx hxs, returns] at hc
    cases hc
    exact ⟨x, xs, holds_iff.mpr ⟨a, ha, hx⟩, givenAll_iff.mpr ⟨as, has, hxs⟩, rfl⟩
  · rintro ⟨x, xs, hx, hxs, rfl⟩
    obtain ⟨a, ha, hx⟩ := holds_iff.mp hx
    obtain ⟨as, has, hxs⟩ := givenAll_iff.mp hxs
    exact ⟨passAll_length has, a, as, ha, has, ofFn_call hx hxs⟩

/-- **C54** A function that returns a `Result`: the same, when what it returns is `Ok`. -/
theorem C54_returns_ok {f : FnOf env (val :: ts) (Except String T)} {r : Value} :
    callFilter env (Filter.ofFn env val ts (returnsResult into) f) src st name v args = .ok r ↔
      ∃ x xs y, Holds env val v.val x ∧ GivenAll env src st ts args xs ∧ FnOf.apply f (.cons x xs) = .ok y ∧ r = into y := by
  rw [C31_call]
  constructor
  · rintro ⟨_, a, as, ha, has, hc⟩
    have ha : Converts env val v.val a := ha
    have has : PassAll env src st ts args as := has
    obtain ⟨x, hx⟩ := out_some ha
    obtain ⟨xs, hxs⟩ := passAll_out has
    rw [ofFn_call hx hxs] at hc
    cases hf : FnOf.apply f (.cons x xs) with
    | error m => rw [hf] at hc; cases hc
    | ok y =>
      rw [hf] at hc
      cases hc
      exact ⟨x, xs, y, holds_iff.mpr ⟨a, ha, hx⟩, givenAll_iff.mpr ⟨as, has, hxs⟩, hf, rfl⟩
  · rintro ⟨x, xs, y, hx, hxs, hf, rfl⟩
    obtain ⟨a, ha, hx⟩ := holds_iff.mp hx
    obtain ⟨as, has, hxs⟩ := givenAll_iff.mp hxs
    refine ⟨passAll_length has, a, as, ha, has, ?_⟩
    rw [ofFn_call hx hxs, hf]
    rfl

/-- **C54** … and when it is `Err`, the message is that of a filter error. -/
theorem C54_returns_err {f : FnOf env (val :: ts) (Except String T)} {x : val.Out env} {xs : Tuple env ts} {m : String}
    (hx : Holds env val v.val x) (hxs : GivenAll env src st ts args xs) (hf : FnOf.apply f (.cons x xs) = .error m) :
    callFilter env (Filter.ofFn env val ts (returnsResult into) f) src st name v args = .err ⟨.filter, none, some m, none⟩ := by
  rw [ofFn_given hx hxs, hf]
  rfl

/-- **C54** If some parameter cannot be given what the template passes for it, the function is not called: the outcome is the
same whatever the function is and whatever it returns. -/
theorem C54_not_called {R R' : Type} {ret : R → Except String Value} {ret' : R' → Except String Value} (f : FnOf env (val :: ts) R)
    (g : FnOf env (val :: ts) R') (h : ∀ x xs, Holds env val v.val x → ¬ GivenAll env src st ts args xs) :
    callFilter env (Filter.ofFn env val ts ret f) src st name v args =
      callFilter env (Filter.ofFn env val ts ret' g) src st name v args := by
  refine C31_not_called (Filter.ofFn env val ts ret' g) name v args ?_ (Filter.ofFn env val ts ret f).call
  rintro ⟨_, a, as, ha, has⟩
  obtain ⟨x, hx⟩ := out_some ha
  obtain ⟨xs, hxs⟩ := passAll_out has
  exact h x xs (holds_iff.mpr ⟨a, ha, hx⟩) (givenAll_iff.mpr ⟨as, has, hxs⟩)

end

/-! In an expression -/

section
variable {cfg : RenderCfg σ} {T : Type} {into : T → Value} {val : ArgTy} {ts : List ArgTy} {name : Ident} {n : Str}
  {args : Option Args} {recv : Expr} {sp : Span} {v : Cow}

/-- **C54** `value | name: a, b` where a function is registered under the name: its value is what the function returns. -/
theorem C54_value {f : FnOf cfg.env (val :: ts) T} (hv : valueOf cfg src st recv = .ok v) (hn : name.span.of src = some n)
    (hf : BMap.get cfg.functions n = some (.filter (Filter.ofFn cfg.env val ts (returns into) f))) {x : val.Out cfg.env}
    {xs : Tuple cfg.env ts} (hx : Holds cfg.env val v.val x) (hxs : GivenAll cfg.env src st ts ((args.map Args.values).getD []) xs) :
    valueOf cfg src st (.call name args recv sp) = .ok (.owned (into (FnOf.apply f (.cons x xs)))) := by
  rw [valueOf, hv, Res.ok_bind, hn]
  simp only [Res.ofOption, Res.ok_bind, hf]
  rw [C54_returns.mpr ⟨x, xs, hx, hxs, rfl⟩]
  rfl

/-- **C54** … and if the function returns an `Err`, the error says so, with the message, at the name. -/
theorem C54_value_err {f : FnOf cfg.env (val :: ts) (Except String T)} (hv : valueOf cfg src st recv = .ok v)
    (hn : name.span.of src = some n)
    (hf : BMap.get cfg.functions n = some (.filter (Filter.ofFn cfg.env val ts (returnsResult into) f))) {x : val.Out cfg.env}
    {xs : Tuple cfg.env ts} (hx : Holds cfg.env val v.val x) (hxs : GivenAll cfg.env src st ts ((args.map Args.values).getD []) xs)
    {m : String} (hm : FnOf.apply f (.cons x xs) = .error m) {p : Pretty} (hp : Pretty.build cfg.env src name.span = some p) :
    valueOf cfg src st (.call name args recv sp) = .err ⟨.filter, none, some m, some p⟩ := by
  rw [valueOf, hv, Res.ok_bind, hn]
  simp only [Res.ofOption, Res.ok_bind, hf]
  rw [C54_returns_err hx hxs hm, enrich, hp]
  rfl

end
end Upon
