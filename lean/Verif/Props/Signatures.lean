import Verif.Spec.Signatures
import Verif.Props.Typed
/-
C64: which functions can be filters.
-/
namespace Upon
open Spec

namespace Sig

/-- What an impl requires of a parameter. -/
inductive Kind where
  | owned | str | listRef | mapRef | valueRef
deriving DecidableEq

def kindOf : ArgTy → Kind
  | .str => .str
  | .listRef => .listRef
  | .mapRef => .mapRef
  | .valueRef => .valueRef
  | _ => .owned

def paramKind : Param → Kind
  | .generic _ => .owned
  | .str => .str
  | .listRef => .listRef
  | .mapRef => .mapRef
  | .valueRef => .valueRef

theorem owns_iff {t : ArgTy} : t.owns = true ↔ kindOf t = .owned := by cases t <;> simp [ArgTy.owns, kindOf]
theorem owns_ref {t : ArgTy} : t.owns = true ↔ ¬ ByRef t := by cases t <;> simp [ArgTy.owns, ByRef]
theorem kind_str {t : ArgTy} : kindOf t = .str ↔ t = .str := by cases t <;> simp [kindOf]

/-- Names of the type variables in a list of parameters. -/
def vars : List Param → List Char
  | [] => []
  | .generic n :: ps => n :: vars ps
  | _ :: ps => vars ps

/-- The impl is in order. -/
def Fine (i : FilterImpl) : Prop :=
  i.params = i.func ∧ i.output = i.func ∧ i.types = i.func ∧ i.generics = vars i.func ∧ i.owned = vars i.func ∧ (vars i.func).Nodup ∧
  i.passed = i.names ∧ i.names.Nodup ∧ i.names.length = i.func.length

instance (i : FilterImpl) : Decidable (Fine i) := by unfold Fine; infer_instance

set_option maxRecDepth 100000 in
theorem all_fine : ∀ i ∈ filterImpls, Fine i := by decide +kernel

theorem mem_vars {n : Char} {ps : List Param} : n ∈ vars ps ↔ .generic n ∈ ps := by
  induction ps with
  | nil => simp [vars]
  | cons p ps ih => cases p <;> simp [vars, ih]

/-- A choice of the type variables. -/
def choose : List Param → List ArgTy → Char → ArgTy
  | .generic n :: ps, t :: ts, c => if c = n then t else choose ps ts c
  | _ :: ps, _ :: ts, c => choose ps ts c
  | _, _, _ => .unit

theorem choose_owns (c : Char) : ∀ (ps : List Param) (ts : List ArgTy), ps.map paramKind = ts.map kindOf → (choose ps ts c).owns = true
  | [], _, _ => by rw [choose]; rfl; all_goals simp
  | p :: ps, [], h => by simp at h
  | p :: ps, t :: ts, h => by
    simp only [List.map_cons, List.cons.injEq] at h
    have ih := choose_owns c ps ts h.2
    cases p with
    | generic n =>
      rw [choose]
      split
      · exact owns_iff.mpr (by rw [← h.1]; rfl)
      · exact ih
    | _ => rw [choose]; exact ih; all_goals simp

theorem map_congr_vars {θ θ' : Char → ArgTy} : ∀ {ps : List Param}, (∀ n ∈ vars ps, θ n = θ' n) → ps.map (Param.ty θ) = ps.map (Param.ty θ')
  | [], _ => rfl
  | p :: ps, h => by
    cases p with
    | generic n =>
      simp only [List.map_cons, List.cons.injEq]
      exact ⟨h n (by simp [vars]), map_congr_vars fun m hm => h m (by simp [vars, hm])⟩
    | _ =>
      simp only [List.map_cons, List.cons.injEq]
      exact ⟨rfl, map_congr_vars fun m hm => h m (by simpa [vars] using hm)⟩

theorem choose_map : ∀ (ps : List Param) (ts : List ArgTy), (vars ps).Nodup → ps.map paramKind = ts.map kindOf → ps.map (Param.ty (choose ps ts)) = ts
  | [], [], _, _ => rfl
  | [], t :: ts, _, h => by simp at h
  | p :: ps, [], _, h => by simp at h
  | p :: ps, t :: ts, hn, h => by
    simp only [List.map_cons, List.cons.injEq] at h
    cases p with
    | generic n =>
      rw [vars, List.nodup_cons] at hn
      have ih := choose_map ps ts hn.2 h.2
      simp only [List.map_cons, List.cons.injEq]
      refine ⟨by simp [Param.ty, choose], ?_⟩
      refine (map_congr_vars fun m hm => ?_).trans ih
      have hne : m ≠ n := fun e => hn.1 (by rw [← e]; exact hm)
      rw [choose, if_neg hne]
    | _ =>
      have ih := choose_map ps ts (by simpa [vars] using hn) h.2
      simp only [List.map_cons, List.cons.injEq]
      refine ⟨?_, ?_⟩
      · have := h.1
        revert this
        cases t <;> simp [kindOf, paramKind, Param.ty]
      · refine (map_congr_vars fun m hm => ?_).trans ih
        simp only [choose]

theorem applies_iff {i : FilterImpl} (hi : Fine i) {ts : List ArgTy} : i.AppliesTo ts ↔ i.func.map paramKind = ts.map kindOf := by
  obtain ⟨h1, h2, h3, h4, h5, h6, _⟩ := hi
  constructor
  · rintro ⟨θ, ho, _, hg, hm, _⟩
    rw [← hm, List.map_map]
    refine List.map_congr_left fun p hp => ?_
    cases p with
    | generic n =>
      show Kind.owned = kindOf (θ n)
      exact (owns_iff.mp (ho n (by rw [h5]; exact mem_vars.mpr hp))).symm
    | _ => rfl
  · intro h
    refine ⟨choose i.func ts, fun n _ => choose_owns n _ _ h, fun n hn => by rw [h5, ← h4]; exact hn, fun n hn => by rw [h4]; rw [h1] at hn; exact mem_vars.mpr hn,
      choose_map _ _ h6 h, h1, h2, h3⟩

/-- All lists of a length that own or are `&str`. -/
def tails : Nat → List (List Kind)
  | 0 => [[]]
  | n + 1 => (tails n).map (Kind.owned :: ·) ++ (tails n).map (Kind.str :: ·)

theorem mem_tails : ∀ (ks : List Kind), (∀ k ∈ ks, k = .owned ∨ k = .str) ↔ ks ∈ tails ks.length
  | [] => by simp [tails]
  | k :: ks => by
    have ih := mem_tails ks
    simp only [List.length_cons, tails, List.mem_append, List.mem_map, List.cons.injEq, List.mem_cons, forall_eq_or_imp, ih]
    constructor
    · rintro ⟨rfl | rfl, h⟩
      · exact .inl ⟨ks, h, rfl, rfl⟩
      · exact .inr ⟨ks, h, rfl, rfl⟩
    · rintro (⟨x, h, rfl, rfl⟩ | ⟨x, h, rfl, rfl⟩)
      · exact ⟨.inl rfl, h⟩
      · exact ⟨.inr rfl, h⟩

theorem tails_length {n : Nat} : ∀ {ks : List Kind}, ks ∈ tails n → ks.length = n := by
  induction n with
  | zero => intro ks h; simp [tails] at h; simp [h]
  | succ n ih =>
    intro ks h
    simp only [tails, List.mem_append, List.mem_map] at h
    rcases h with ⟨x, h, rfl⟩ | ⟨x, h, rfl⟩ <;> simp [ih h]

def heads : List Kind := [.owned, .str, .listRef, .mapRef, .valueRef]

def expected : List (List Kind) := [0, 1, 2, 3, 4].flatMap fun n => heads.flatMap fun k => (tails n).map (k :: ·)

theorem mem_expected {ks : List Kind} : ks ∈ expected ↔ ∃ k r, ks = k :: r ∧ r.length ≤ 4 ∧ ∀ x ∈ r, x = .owned ∨ x = .str := by
  simp only [expected, List.mem_flatMap, List.mem_map]
  constructor
  · rintro ⟨n, hn, k, _, r, hr, rfl⟩
    have e := tails_length hr
    refine ⟨k, r, rfl, ?_, (mem_tails r).mpr (by rw [e]; exact hr)⟩
    simp only [List.mem_cons, List.not_mem_nil, or_false] at hn
    omega
  · rintro ⟨k, r, rfl, hl, hr⟩
    refine ⟨r.length, ?_, k, ?_, r, (mem_tails r).mp hr, rfl⟩
    · simp only [List.mem_cons, List.not_mem_nil, or_false]
      omega
    · cases k <;> simp [heads]

def kinds : List (List Kind) := filterImpls.map fun i => i.func.map paramKind

set_option maxRecDepth 100000 in
theorem kinds_expected : (∀ ks ∈ kinds, ks ∈ expected) ∧ (∀ ks ∈ expected, ks ∈ kinds) := by decide +kernel

set_option maxRecDepth 100000 in
theorem kinds_nodup : kinds.Nodup := by decide +kernel

theorem can_iff {val : ArgTy} {args : List ArgTy} : CanFilter val args ↔ (val :: args).map kindOf ∈ expected := by
  rw [mem_expected]
  constructor
  · rintro ⟨h1, h2⟩
    refine ⟨_, _, rfl, by rw [List.length_map]; exact h1, fun x hx => ?_⟩
    obtain ⟨t, ht, rfl⟩ := List.mem_map.mp hx
    by_cases hr : ByRef t
    · exact .inr (by rw [h2 t ht hr]; rfl)
    · exact .inl (owns_iff.mp (owns_ref.mpr hr))
  · rintro ⟨k, r, e, hl, hr⟩
    rw [List.map_cons, List.cons.injEq] at e
    obtain ⟨_, rfl⟩ := e
    refine ⟨by rwa [List.length_map] at hl, fun t ht hb => ?_⟩
    rcases hr _ (List.mem_map_of_mem ht) with h | h
    · exact absurd hb (owns_ref.mp (owns_iff.mpr h))
    · exact kind_str.mp h

end Sig
open Sig

/-- **C64** A function can be a filter – there is an impl of `Filter` that applies to it – if and only if it has at least one parameter and at most four more,
and those that are not the first own what they hold or are `&str`. -/
theorem C64_registrable (ts : List ArgTy) : (∃ i ∈ filterImpls, i.AppliesTo ts) ↔ ∃ val args, ts = val :: args ∧ CanFilter val args := by
  constructor
  · rintro ⟨i, hi, h⟩
    have h := (applies_iff (all_fine i hi)).mp h
    have hk := kinds_expected.1 _ (List.mem_map_of_mem (f := fun i : FilterImpl => i.func.map paramKind) hi)
    have hk : ts.map kindOf ∈ expected := by rw [← h]; exact hk
    cases ts with
    | nil => obtain ⟨_, _, e, _⟩ := mem_expected.mp hk; cases e
    | cons v as => exact ⟨v, as, rfl, can_iff.mpr hk⟩
  · rintro ⟨v, as, rfl, h⟩
    obtain ⟨i, hi, e⟩ := List.mem_map.mp (kinds_expected.2 _ (can_iff.mp h))
    exact ⟨i, hi, (applies_iff (all_fine i hi)).mpr e⟩

/-- **C64** Never more than one: which impl is used is not ambiguous. -/
theorem C64_unambiguous {ts : List ArgTy} {m n : Nat} {i j : FilterImpl} (hi : filterImpls[m]? = some i) (hj : filterImpls[n]? = some j) (h : i.AppliesTo ts)
    (h' : j.AppliesTo ts) : m = n := by
  have hi' := (applies_iff (all_fine i (List.mem_of_getElem? hi))).mp h
  have hj' := (applies_iff (all_fine j (List.mem_of_getElem? hj))).mp h'
  have e1 : kinds[m]? = some (ts.map kindOf) := by rw [kinds, List.getElem?_map, hi]; exact congrArg some hi'
  have e2 : kinds[n]? = some (ts.map kindOf) := by rw [kinds, List.getElem?_map, hj]; exact congrArg some hj'
  have hm := (List.getElem?_eq_some_iff.mp e1).1
  exact (List.getElem?_inj hm kinds_nodup).mp (e1.trans e2.symm)

namespace Sig

theorem bound_all {α : Type} : ∀ (ns : List Char) (xs : List α), ns.Nodup → ns.length = xs.length → ns.mapM (bound (ns.zip xs)) = some xs
  | [], [], _, _ => rfl
  | [], _ :: _, _, h => by simp at h
  | _ :: _, [], _, h => by simp at h
  | n :: ns, x :: xs, hn, h => by
    rw [List.nodup_cons] at hn
    have ih := bound_all ns xs hn.2 (by simpa using h)
    have e : ns.mapM (bound ((n :: ns).zip (x :: xs))) = ns.mapM (bound (ns.zip xs)) := by
      refine mapM_congr ns fun m hm => ?_
      have hne : (m == n) = false := by
        rw [beq_eq_false_iff_ne]
        intro e
        exact hn.1 (by rw [← e]; exact hm)
      simp only [bound, List.zip_cons_cons, List.lookup_cons, hne]
    rw [List.mapM_cons, e, ih]
    simp [bound]
where
  mapM_congr {f g : Char → Option α} : ∀ (l : List Char), (∀ m ∈ l, f m = g m) → l.mapM f = l.mapM g
    | [], _ => rfl
    | a :: l, h => by
      rw [List.mapM_cons, List.mapM_cons, h a (by simp), mapM_congr l fun m hm => h m (by simp [hm])]

theorem err_bind {α β : Type} (env : Env) (m : String) (source : Str) (sp : Span) (k : α → Res β) :
    ((errRender env m source sp : Res α) >>= k) = errRender env m source sp := by
  simp only [errRender, throwAt]
  cases Pretty.build env source sp <;> rfl

/-- `V::from_cow_mut(state.value).map_err(err)?` -/
def readVal (env : Env) (source : Str) (name : Ident) (value : Cow) (t : ArgTy) : Res ArgVal :=
  match t.fromCowMut env value with
  | .ok v => .ok v
  | .error e =>
    match errExpectedVal e with
    | some msg => errRender env msg source name.span
    | none => .crash

theorem fromState_eq (env : Env) (f : Filter) (source : Str) (stack : Stack) (name : Ident) (value : Cow) (args : List BaseExpr) :
    fromState env f source stack name value args =
      if args.length = f.args.length then (do
        let v ← readVal env source name value f.val
        let as ← getArgs env source stack f.args args
        .ok (v, as))
      else errRender env s!"filter expected {f.args.length} arguments" source name.span := by
  rw [fromState, readVal]
  cases h : f.val.fromCowMut env value with
  | ok v => rfl
  | error e =>
    dsimp only
    cases h' : errExpectedVal e with
    | none => rfl
    | some m => simp only [err_bind]

theorem readAll_val (env : Env) (source : Str) (stack : Stack) (name : Ident) (value : Cow) (args : List BaseExpr) (types : List (Char × ArgTy)) (x T : Char)
    (rest : List (Char × Char × Option Nat)) :
    readAll env source stack name value args types ((x, T, none) :: rest) = (do
      let t ← Res.ofOption (bound types T)
      let v ← readVal env source name value t
      let vs ← readAll env source stack name value args types rest
      .ok ((x, v) :: vs)) := by
  rw [readAll]; rfl

theorem readAll_arg (env : Env) (source : Str) (stack : Stack) (name : Ident) (value : Cow) (args : List BaseExpr) (types : List (Char × ArgTy)) (x T : Char) (k : Nat)
    (rest : List (Char × Char × Option Nat)) :
    readAll env source stack name value args types ((x, T, some k) :: rest) = (do
      let t ← Res.ofOption (bound types T)
      let a ← Res.ofOption args[k]?
      let v ← getArg env source stack t a
      let vs ← readAll env source stack name value args types rest
      .ok ((x, v) :: vs)) := by
  rw [readAll]
  cases bound types T with
  | none => rfl
  | some t =>
    show (Res.ofOption args[k]? >>= fun a => getArg env source stack t a) >>= _ = Res.ofOption args[k]? >>= _
    cases args[k]? <;> rfl

theorem readAll_nil (env : Env) (source : Str) (stack : Stack) (name : Ident) (value : Cow) (args : List BaseExpr) (types : List (Char × ArgTy)) :
    readAll env source stack name value args types [] = .ok [] := by rw [readAll]

theorem from_state {a : ArgsImpl} (ha : a ∈ argsImpls) {f : Filter} (hl : a.generics.length = f.args.length + 1) (env : Env) (source : Str) (stack : Stack)
    (name : Ident) (value : Cow) (args : List BaseExpr) :
    a.fromState env (f.val :: f.args) source stack name value args =
      (do let r ← fromState env f source stack name value args; .ok (r.1 :: r.2)) := by
  obtain ⟨val, as, call⟩ := f
  rw [fromState_eq, ArgsImpl.fromState]
  have he : a.expects = as.length := by
    have : a.expects + 1 = a.generics.length := by clear hl; revert a; decide
    have : a.generics.length = as.length + 1 := hl
    omega
  rw [he]
  dsimp only
  by_cases hn : args.length = as.length
  · rw [if_pos hn, if_pos hn]
    simp only [argsImpls, List.mem_cons, List.not_mem_nil, or_false] at ha
    cases hv : readVal env source name value val with
    | ok v =>
      rcases ha with rfl | rfl | rfl | rfl | rfl
      · match as, hl, args, hn with
        | [], _, [], _ => simp [readAll_val, readAll_nil, bound, hv, getArgs, Res.ofOption]
      · match as, hl, args, hn with
        | [t], _, [x], _ =>
          simp only [readAll_val, readAll_arg, readAll_nil]
          cases h1 : getArg env source stack t x <;>
          simp [bound, hv, getArgs, Res.ofOption, h1, List.lookup]
      · match as, hl, args, hn with
        | [t, t2], _, [x, x2], _ =>
          simp only [readAll_val, readAll_arg, readAll_nil]
          cases h1 : getArg env source stack t x <;> cases h2 : getArg env source stack t2 x2 <;>
          simp [bound, hv, getArgs, Res.ofOption, h1, h2, List.lookup]
      · match as, hl, args, hn with
        | [t, t2, t3], _, [x, x2, x3], _ =>
          simp only [readAll_val, readAll_arg, readAll_nil]
          cases h1 : getArg env source stack t x <;> cases h2 : getArg env source stack t2 x2 <;> cases h3 : getArg env source stack t3 x3 <;>
          simp [bound, hv, getArgs, Res.ofOption, h1, h2, h3, List.lookup]
      · match as, hl, args, hn with
        | [t, t2, t3, t4], _, [x, x2, x3, x4], _ =>
          simp only [readAll_val, readAll_arg, readAll_nil]
          cases h1 : getArg env source stack t x <;> cases h2 : getArg env source stack t2 x2 <;> cases h3 : getArg env source stack t3 x3 <;>
          cases h4 : getArg env source stack t4 x4 <;>
          simp [bound, hv, getArgs, Res.ofOption, h1, h2, h3, h4, List.lookup]
    | err e =>
      rcases ha with rfl | rfl | rfl | rfl | rfl <;> simp [readAll_val, bound, hv, Res.ofOption]
    | crash =>
      rcases ha with rfl | rfl | rfl | rfl | rfl <;> simp [readAll_val, bound, hv, Res.ofOption]
  · rw [if_neg hn, if_neg hn, err_bind]

theorem args_length {env : Env} {source : Str} {stack : Stack} : ∀ (ts : List ArgTy) (as : List BaseExpr) {xs : List ArgVal}, as.length = ts.length →
    getArgs env source stack ts as = .ok xs → xs.length = ts.length
  | [], _, xs, _, h => by rw [getArgs] at h; cases h; rfl
  | t :: ts, [], xs, hn, _ => by simp at hn
  | t :: ts, a :: as, xs, hn, h => by
    rw [getArgs] at h
    cases h1 : getArg env source stack t a with
    | ok x =>
      rw [h1, Res.ok_bind] at h
      cases h2 : getArgs env source stack ts as with
      | ok ys =>
        rw [h2, Res.ok_bind] at h
        cases h
        simp [args_length ts as (by simpa using hn) h2]
      | err e => rw [h2] at h; cases h
      | crash => rw [h2] at h; cases h
    | err e => rw [h1] at h; cases h
    | crash => rw [h1] at h; cases h

theorem from_state_length {env : Env} {f : Filter} {source : Str} {stack : Stack} {name : Ident} {value : Cow} {args : List BaseExpr} {v : ArgVal} {xs : List ArgVal}
    (h : fromState env f source stack name value args = .ok (v, xs)) : xs.length = f.args.length := by
  rw [fromState_eq] at h
  split at h
  next hn =>
    cases hv : readVal env source name value f.val with
    | ok w =>
      rw [hv, Res.ok_bind] at h
      cases hg : getArgs env source stack f.args args with
      | ok ys =>
        rw [hg, Res.ok_bind] at h
        cases h
        clear hv
        revert hg hn xs
        generalize f.args = ts
        intro xs hn hg
        exact args_length ts args hn hg
      | err e => rw [hg] at h; cases h
      | crash => rw [hg] at h; cases h
    | err e => rw [hv] at h; cases h
    | crash => rw [hv] at h; cases h
  next =>
    simp only [errRender, throwAt] at h
    cases hp : Pretty.build env source name.span <;> rw [hp] at h <;> cases h

theorem args_impl (n : Nat) (h : n ≤ 4) : ∃ (k : Nat) (a : ArgsImpl), argsImpls[k]? = some a ∧ a.generics.length = n + 1 ∧ a.output = a.generics ∧
    ∀ (j : Nat) (b : ArgsImpl), argsImpls[j]? = some b → b.generics.length = n + 1 → j = k := by
  have hu : ∀ (j : Nat) (b : ArgsImpl), argsImpls[j]? = some b → b.generics.length = j + 1 := by
    intro j b hb
    match j, hb with
    | 0, hb | 1, hb | 2, hb | 3, hb | 4, hb => simp [argsImpls] at hb; subst hb; rfl
    | j + 5, hb => simp [argsImpls] at hb
  have hex : ∃ a : ArgsImpl, argsImpls[n]? = some a ∧ a.output = a.generics := by
    match n, h with
    | 0, _ | 1, _ | 2, _ | 3, _ | 4, _ => exact ⟨_, rfl, rfl⟩
  obtain ⟨a, ha, ho⟩ := hex
  exact ⟨n, a, ha, hu n a ha, ho, fun j b hb hl => by have := hu j b hb; omega⟩

end Sig
open Sig

/-- **C64** For a function that can be a filter there is exactly one impl of `FilterArgs` too, the one for tuples of as many types. -/
theorem C64_arguments {val : ArgTy} {args : List ArgTy} (h : CanFilter val args) : ∃ (k : Nat) (a : ArgsImpl), argsImpls[k]? = some a ∧ a.generics.length = args.length + 1 ∧
    a.output = a.generics ∧ ∀ (j : Nat) (b : ArgsImpl), argsImpls[j]? = some b → b.generics.length = args.length + 1 → j = k :=
  args_impl _ h.few

/-- **C64** And which impls these are makes no difference to what the filter does: it is called with the value and the arguments in the order in which they are
written, each converted to the type of its own parameter, as in the rest of the model. -/
theorem C64_call {f : Filter} {i : FilterImpl} {a : ArgsImpl} (hi : i ∈ filterImpls) (ha : a ∈ argsImpls) (h : i.AppliesTo (f.val :: f.args))
    (hl : a.generics.length = f.args.length + 1) (env : Env) (source : Str) (stack : Stack) (name : Ident) (value : Cow) (args : List BaseExpr) :
    callWith env i a (f.val :: f.args) (Filter.takes f) source stack name value args = callFilter env f source stack name value args := by
  rw [callWith, from_state ha hl, callFilter]
  obtain ⟨_, _, _, _, _, _, hp, hn, hln⟩ := all_fine i hi
  cases hs : fromState env f source stack name value args with
  | ok r =>
    obtain ⟨v, xs⟩ := r
    have hxs := from_state_length hs
    have e := congrArg List.length ((applies_iff (all_fine i hi)).mp h)
    simp only [List.length_map, List.length_cons] at e
    have hb := bound_all i.names (v :: xs) hn (by rw [List.length_cons]; omega)
    simp only [Res.ok_bind, FilterImpl.filter, hp, hb, Option.map_some, Res.ofOption, Filter.takes]
    cases f.call v xs <;> rfl
  | err e => rfl
  | crash => rfl

end Upon
