import Verif.Spec.Globals
import Verif.Proofs.ParsedIn
import Verif.Props.Writers
import Verif.Props.Blame
/-
Renders of the same template with values that differ in who owns them, and with a function in place of the globals (for C48).
-/
namespace Upon
open Spec
variable {σ : Type}

namespace Given

/-- Errors that may differ in message and place if they are render errors. -/
def Loose (e e' : Err) : Prop := e.kind = e'.kind ∧ e.name = e'.name ∧ (e.kind = .render ∨ e = e')

theorem Loose.refl (e : Err) : Loose e e := ⟨rfl, rfl, .inr rfl⟩

theorem Loose.attach {e e' : Err} (h : Loose e e') (n : Option Str) : Loose (e.attachName n) (e'.attachName n) := by
  obtain ⟨h1, h2, h3⟩ := h
  cases n with
  | none => exact ⟨h1, h2, h3⟩
  | some n =>
    refine ⟨h1, by simp only [Err.attachName, Err.withTemplateName, h2], ?_⟩
    rcases h3 with h3 | rfl
    · exact .inl h3
    · exact .inr rfl

theorem attach_kind (e : Err) (n : Option Str) : (e.attachName n).kind = e.kind := by cases n <;> rfl

/-- The same value, owned in the second if owned in the first. -/
def Same (c c' : Cow) : Prop := c.val = c'.val ∧ (isOwned c = true → isOwned c' = true)

theorem Same.refl (c : Cow) : Same c c := ⟨rfl, id⟩

/-- Related outcomes; if `L` the second may be a render error instead. -/
inductive RR (L : Prop) {α β : Type} (R : α → β → Prop) : Res α → Res β → Prop
  | ok {a b} : R a b → RR L R (.ok a) (.ok b)
  | err {e e'} : Loose e e' → RR L R (.err e) (.err e')
  | crash : RR L R .crash .crash
  | lost {r e'} : L → e'.kind = .render → RR L R r (.err e')

inductive RU (L : Prop) : RunRes σ → RunRes σ → Prop
  | ok {w} : RU L (.ok w) (.ok w)
  | err {e e' w} : Loose e e' → RU L (.err e w) (.err e' w)
  | crash : RU L .crash .crash
  | lost {r e' w} : L → e'.kind = .render → RU L r (.err e' w)

variable {L : Prop}

theorem RR.refl {α : Type} {R : α → α → Prop} (hR : ∀ a, R a a) (r : Res α) : RR L R r r := by
  cases r with
  | ok a => exact .ok (hR a)
  | err e => exact .err (.refl e)
  | crash => exact .crash

theorem RU.refl (r : RunRes σ) : RU L r r := by
  cases r with
  | ok a => exact .ok
  | err e => exact .err (.refl e)
  | crash => exact .crash

theorem RR.bind {α β γ δ : Type} {R : α → β → Prop} {S : γ → δ → Prop} {r : Res α} {r' : Res β} (h : RR L R r r')
    {k : α → Res γ} {k' : β → Res δ} (hk : ∀ a b, R a b → RR L S (k a) (k' b)) : RR L S (r >>= k) (r' >>= k') := by
  cases h with
  | ok h => exact hk _ _ h
  | err h => exact .err h
  | crash => exact .crash
  | lost h1 h2 => exact .lost h1 h2

theorem RR.andThen {α β : Type} {R : α → β → Prop} {r : Res α} {r' : Res β} (h : RR L R r r') {name : Option Str} {w : World σ}
    {k : α → RunRes σ} {k' : β → RunRes σ} (hk : ∀ a b, R a b → RU L (k a) (k' b)) : RU L (andThen name w r k) (andThen name w r' k') := by
  cases h with
  | ok h => exact hk _ _ h
  | err h => exact .err (h.attach _)
  | crash => exact .crash
  | lost h1 h2 => exact .lost h1 (by rw [attach_kind]; exact h2)

theorem RU.seq {r r' : RunRes σ} (h : RU L r r') {k k' : World σ → RunRes σ} (hk : ∀ w, RU L (k w) (k' w)) :
    RU L (seq r k) (seq r' k') := by
  cases h with
  | ok => exact hk _
  | err h => exact .err h
  | crash => exact .crash
  | lost h1 h2 => exact .lost h1 h2

theorem RU.each {α β : Type} {R : α → β → Prop} {f : α → World σ → RunRes σ} {f' : β → World σ → RunRes σ}
    (h : ∀ a b, R a b → ∀ w, RU L (f a w) (f' b w)) {l : List α} {l' : List β} (hl : List.Forall₂ R l l') :
    ∀ w, RU L (forEach f l w) (forEach f' l' w) := by
  induction hl with
  | nil => intro w; exact .ok
  | cons h1 _ ih => intro w; rw [forEach, forEach]; exact (h _ _ h1 w).seq ih

/-! Lookups -/

theorem same_like {c c' : Cow} (h : Same c c') (v : Value) : Same (like c v) (like c' v) := by
  cases c <;> cases c' <;> simp_all [Same, like, isOwned, Cow.val]

theorem followCow_rel {env : Env} {src : Str} {c c' : Cow} (h : Same c c') (ms : List Member) :
    RR L Same (followCow env src c ms) (followCow env src c' ms) := by
  rw [followCow, followCow, h.1]
  split
  · exact .ok (same_like h _)
  · exact .ok (.refl _)
  · exact .err (.refl _)
  · exact .crash

/-- The same answer, or none in both. -/
def SameO (o o' : Option Cow) : Prop := (o = none ∧ o' = none) ∨ ∃ c c', o = some c ∧ o' = some c' ∧ Same c c'

theorem SameO.refl (o : Option Cow) : SameO o o := by
  cases o with
  | none => exact .inl ⟨rfl, rfl⟩
  | some c => exact .inr ⟨c, c, rfl, rfl, .refl c⟩

theorem followItem_rel {q : Quirks} {env : Env} {src : Str} {c c' : Cow} (h : Same c c') (ms : List Member) :
    RR L SameO (followItem q env src c ms) (followItem q env src c' ms) := by
  rw [followItem, followItem, h.1]
  split
  · exact .ok (.inr ⟨_, _, rfl, rfl, same_like h _⟩)
  · exact .refl SameO.refl _
  · exact .err (.refl _)
  · exact .crash

/-- Bindings that differ in ownership only. -/
inductive Bound : Binding → Binding → Prop
  | globals {c c'} : Same c c' → Bound (.globals c) (.globals c')
  | name {n c c'} : Same c c' → Bound (.name n c) (.name n c')
  | item {n c c' i a} : Same c c' → Bound (.item n c i a) (.item n c' i a)
  | entry {k v key c c' i a} : Same c c' → Bound (.entry k v key c i a) (.entry k v key c' i a)
  | wall : Bound .wall .wall

/-- Scopes that differ in ownership, and at the bottom in how the globals are given. -/
inductive Scoped : Scope → Scope → Prop
  | base {c f} : AnswersFrom f c.val → Scoped [.globals c] [.provider f]
  | cons {b b' ρ ρ'} : Bound b b' → Scoped ρ ρ' → Scoped (b :: ρ) (b' :: ρ')

theorem get_rel {q : Quirks} {env : Env} {src : Str} {b b' : Binding} (h : Bound b b') (v : Var) :
    RR L SameO (b.get q env src v) (b'.get q env src v) := by
  cases h with
  | globals h =>
    rw [Binding.get, Binding.get, h.1]
    split
    · exact (followCow_rel (same_like h _) _).bind fun _ _ h => .ok (.inr ⟨_, _, rfl, rfl, h⟩)
    · exact .ok (.refl _)
    · exact .ok (.refl _)
    · exact .crash
  | name h =>
    rw [Binding.get, Binding.get]
    refine (RR.refl (R := Eq) (fun _ => rfl) _).bind fun a _ e => ?_
    subst e
    refine (RR.refl (R := Eq) (fun _ => rfl) _).bind fun b _ e => ?_
    subst e
    split
    · exact (followCow_rel h _).bind fun _ _ h => .ok (.inr ⟨_, _, rfl, rfl, h⟩)
    · exact .ok (.refl _)
  | item h =>
    rw [Binding.get, Binding.get]
    split
    · exact .ok (.refl _)
    · refine (RR.refl (R := Eq) (fun _ => rfl) _).bind fun a _ e => ?_
      subst e
      split
      · exact .refl SameO.refl _
      · split
        · exact followItem_rel h _
        · exact .ok (.refl _)
  | entry h =>
    rw [Binding.get, Binding.get]
    split
    · exact .ok (.refl _)
    · refine (RR.refl (R := Eq) (fun _ => rfl) _).bind fun a _ e => ?_
      subst e
      split
      · exact .refl SameO.refl _
      · split
        · exact .refl SameO.refl _
        · split
          · exact followItem_rel h _
          · exact .ok (.refl _)
  | wall => exact .refl SameO.refl _

/-- A member as a path for a value function. -/
theorem pathOf_in {src : Str} {ms : List Member} (h : ∀ m ∈ ms, MemberIn src m) : ∃ p, pathOf src ms = .ok p := by
  induction ms with
  | nil => exact ⟨_, rfl⟩
  | cons m ms ih =>
    obtain ⟨p, hp⟩ := ih fun m hm => h m (List.mem_cons_of_mem _ hm)
    obtain ⟨op, acc, sp⟩ := m
    cases acc with
    | index i => exact ⟨_, by rw [pathOf, hp]; rfl⟩
    | key k =>
      obtain ⟨t, ht⟩ := (h _ List.mem_cons_self).2
      have ht : k.span.of src = some t := ht
      exact ⟨_, by simp only [pathOf, ht, Res.ofOption, hp, Res.ok_bind]; rfl⟩

/-- Looking up one member is a step of a path. -/
theorem lookup_reach {env : Env} {src : Str} (hne : src ≠ []) {m : Member} (hm : MemberIn src m) {vm : ValueMember}
    (hp : pathOf src [m] = .ok [vm]) (v : Value) :
    (∃ x, lookup env src v m = .ok (some x) ∧ (∀ p y, GoesTo v (vm :: p) y ↔ GoesTo x p y) ∧
      (∀ y, GoesTo v [⟨.direct, vm.access⟩] y ↔ y = x)) ∨
    (lookup env src v m = .ok none ∧ (∀ p y, GoesTo v (vm :: p) y ↔ y = .none) ∧ (∀ y, ¬ GoesTo v [⟨.direct, vm.access⟩] y)) ∨
    (∃ e, lookup env src v m = .err e ∧ e.kind = .render ∧ e.name = none ∧ (∀ p y, ¬ GoesTo v (vm :: p) y) ∧
      (∀ y, ¬ GoesTo v [⟨.direct, vm.access⟩] y)) := by
  have er (msg : String) : ∃ e, (errRender env msg src m.span : Res (Option Value)) = .err e ∧ e.kind = .render ∧ e.name = none := by
    obtain ⟨t, ht⟩ := hm.1
    obtain ⟨p, hp⟩ := pretty_isSome env hne ht
    exact ⟨⟨.render, none, some msg, some p⟩, by simp only [errRender, throwAt, hp], rfl, rfl⟩
  obtain ⟨op, acc, sp⟩ := m
  cases acc with
  | index i =>
    cases hp
    rw [lookup.eq_def]
    cases v with
    | list l =>
      dsimp only
      cases hl : l[i.value]? with
      | some x =>
        refine .inl ⟨x, by cases op <;> rfl, fun p y => ?_, fun y => ?_⟩
        · constructor
          · intro h; cases h with
            | index h1 h2 => rw [hl] at h1; cases h1; exact h2
            | noIndex h1 => rw [hl] at h1; cases h1
          · exact .index hl
        · constructor
          · intro h; cases h with
            | index h1 h2 => rw [hl] at h1; cases h1; cases h2; rfl
          · rintro rfl; exact .index hl .here
      | none =>
        cases op with
        | optional =>
          refine .inr (.inl ⟨rfl, fun p y => ⟨fun h => ?_, ?_⟩, fun y h => ?_⟩)
          · cases h with
            | index h1 h2 => rw [hl] at h1; cases h1
            | noIndex h1 => rfl
          · rintro rfl; exact .noIndex hl
          · cases h with
            | index h1 h2 => rw [hl] at h1; cases h1
        | direct =>
          obtain ⟨e, h1, h2, h3⟩ := er s!"index out of bounds, the length is {l.length}"
          refine .inr (.inr ⟨e, h1, h2, h3, fun p y h => ?_, fun y h => ?_⟩)
          · cases h with
            | index h1 h2 => rw [hl] at h1; cases h1
          · cases h with
            | index h1 h2 => rw [hl] at h1; cases h1
    | _ =>
      obtain ⟨e, h1, h2, h3⟩ := er _
      refine .inr (.inr ⟨e, h1, h2, h3, ?_, ?_⟩)
      · intro p y h; cases h
      · intro y h; cases h
  | key k =>
    obtain ⟨n, hn⟩ := hm.2
    have hn : k.span.of src = some n := hn
    have hp' : pathOf src [⟨op, .key k, sp⟩] = .ok [⟨op, .key n⟩] := by
      simp only [pathOf, hn, Res.ofOption, Res.ok_bind]
    cases hp.symm.trans hp'
    rw [lookup.eq_def]
    cases v with
    | map l =>
      dsimp only
      rw [hn]
      simp only [Res.ofOption, Res.ok_bind]
      cases hl : BMap.get l n with
      | some x =>
        refine .inl ⟨x, by cases op <;> rfl, fun p y => ?_, fun y => ?_⟩
        · constructor
          · intro h; cases h with
            | key h1 h2 => rw [hl] at h1; cases h1; exact h2
            | noKey h1 => rw [hl] at h1; cases h1
          · exact .key hl
        · constructor
          · intro h; cases h with
            | key h1 h2 => rw [hl] at h1; cases h1; cases h2; rfl
          · rintro rfl; exact .key hl .here
      | none =>
        cases op with
        | optional =>
          refine .inr (.inl ⟨rfl, fun p y => ⟨fun h => ?_, ?_⟩, fun y h => ?_⟩)
          · cases h with
            | key h1 h2 => rw [hl] at h1; cases h1
            | noKey h1 => rfl
          · rintro rfl; exact .noKey hl
          · cases h with
            | key h1 h2 => rw [hl] at h1; cases h1
        | direct =>
          obtain ⟨e, h1, h2, h3⟩ := er "not found in map"
          refine .inr (.inr ⟨e, h1, h2, h3, fun p y h => ?_, fun y h => ?_⟩)
          · cases h with
            | key h1 h2 => rw [hl] at h1; cases h1
          · cases h with
            | key h1 h2 => rw [hl] at h1; cases h1
    | _ =>
      obtain ⟨e, h1, h2, h3⟩ := er _
      refine .inr (.inr ⟨e, h1, h2, h3, ?_, ?_⟩)
      · intro p y h; cases h
      · intro y h; cases h

theorem pathOf_cons {src : Str} {m : Member} {ms : List Member} {p : List ValueMember} (h : pathOf src (m :: ms) = .ok p) :
    ∃ vm vs, p = vm :: vs ∧ pathOf src [m] = .ok [vm] ∧ pathOf src ms = .ok vs := by
  obtain ⟨op, acc, sp⟩ := m
  rw [pathOf] at h
  cases hp : pathOf src ms with
  | err e => rw [hp] at h; cases acc <;> dsimp only at h <;> first | cases h | (rename_i k; cases hk : k.span.of src <;> rw [hk] at h <;> cases h)
  | crash => rw [hp] at h; cases acc <;> dsimp only at h <;> first | cases h | (rename_i k; cases hk : k.span.of src <;> rw [hk] at h <;> cases h)
  | ok vs =>
    rw [hp] at h
    cases acc with
    | index i => cases h; exact ⟨_, _, rfl, rfl, rfl⟩
    | key k =>
      dsimp only at h
      cases hk : k.span.of src with
      | none => rw [hk] at h; cases h
      | some n =>
        rw [hk] at h; cases h
        exact ⟨_, _, rfl, by simp only [pathOf, hk, Res.ofOption, Res.ok_bind], rfl⟩

theorem follow_reach {env : Env} {src : Str} (hne : src ≠ []) {ms : List Member} : ∀ (v : Value) (p : List ValueMember),
    (∀ m ∈ ms, MemberIn src m) → pathOf src ms = .ok p →
    (∃ x, follow env src v ms = .ok (some x) ∧ ∀ y, GoesTo v p y ↔ y = x) ∨
    (follow env src v ms = .ok none ∧ ∀ y, GoesTo v p y ↔ y = .none) ∨
    (∃ e, follow env src v ms = .err e ∧ e.kind = .render ∧ e.name = none ∧ ∀ y, ¬ GoesTo v p y) := by
  induction ms with
  | nil =>
    intro v p _ hp
    cases hp
    refine .inl ⟨v, rfl, fun y => ⟨fun h => ?_, fun h => h ▸ .here⟩⟩
    cases h; rfl
  | cons m ms ih =>
    intro v p hm hp
    obtain ⟨vm, vs, rfl, h1, h2⟩ := pathOf_cons hp
    rw [follow]
    rcases lookup_reach (env := env) hne (hm m List.mem_cons_self) h1 v with ⟨x, h3, h4, _⟩ | ⟨h3, h4, _⟩ | ⟨e, h3, hk, hn, h4, _⟩
    · simp only [h3, h4]
      exact ih x vs (fun m h => hm m (List.mem_cons_of_mem _ h)) h2
    · rw [h3]
      exact .inr (.inl ⟨rfl, h4 vs⟩)
    · rw [h3]
      exact .inr (.inr ⟨e, rfl, hk, hn, h4 vs⟩)

theorem resolve_rel {q : Quirks} {env : Env} {src : Str} (hne : src ≠ []) {ρ ρ' : Scope} (h : Scoped ρ ρ') {v : Var} (hv : VarIn src v) :
    RR L Same (resolve q env src ρ v) (resolve q env src ρ' v) := by
  have er {α : Type} (msg : String) {sp : Span} (hs : SpanIn src sp) :
      ∃ e, (errRender env msg src sp : Res α) = .err e ∧ e.kind = .render ∧ e.name = none := by
    obtain ⟨t, ht⟩ := hs
    obtain ⟨p, hp⟩ := pretty_isSome env hne ht
    exact ⟨⟨.render, none, some msg, some p⟩, by simp only [errRender, throwAt, hp], rfl, rfl⟩
  induction h with
  | cons hb _ ih =>
    rw [resolve, resolve]
    refine (get_rel hb v).bind fun o o' ho => ?_
    rcases ho with ⟨rfl, rfl⟩ | ⟨c, c', rfl, rfl, hc⟩
    · exact ih
    · exact .ok hc
  | @base c f hf =>
    have hin : ∀ m ∈ v.path, MemberIn src m := by
      intro m hm
      rcases List.mem_cons.mp hm with rfl | hm
      · exact hv.1
      · exact hv.2 m hm
    obtain ⟨p, hp⟩ := pathOf_in hin
    obtain ⟨vm, vs, rfl, h1, h2⟩ := pathOf_cons (m := v.first) (ms := v.rest) hp
    have hg : ∀ v, (Binding.provider f).get q env src v = (pathOf src v.path >>= fun path => match f path with
        | .ok x => .ok (some (.owned x))
        | .error reason => errRender env reason src v.span) := fun _ => rfl
    simp only [resolve]
    rw [hg, hp]
    simp only [Res.ok_bind, Binding.get]
    have bad (hno : ∀ x, f (vm :: vs) ≠ .ok x) {r : Res Cow} (hr : ∃ e, r = .err e ∧ e.kind = .render ∧ e.name = none) :
        RR L Same r ((match f (vm :: vs) with
          | .ok x => .ok (some (.owned x))
          | .error reason => errRender env reason src v.span : Res (Option Cow)) >>= fun x => match x with
            | some c => .ok c
            | none => errRender env "not found in this scope" src v.first.span) := by
      obtain ⟨e, rfl, k1, k2⟩ := hr
      cases hx : f (vm :: vs) with
      | ok x => exact absurd hx (hno x)
      | error msg =>
        obtain ⟨e', h3, k3, k4⟩ := er (α := Option Cow) msg (var_span_in hv)
        simp only [h3, Res.err_bind]
        exact .err ⟨k1.trans k3.symm, k2.trans k4.symm, .inl k1⟩
    have good {x : Value} (hx : f (vm :: vs) = .ok x) {c : Cow} (hc : c.val = x) :
        RR L Same (.ok c) ((match f (vm :: vs) with
          | .ok x => .ok (some (.owned x))
          | .error reason => errRender env reason src v.span : Res (Option Cow)) >>= fun x => match x with
            | some c => .ok c
            | none => errRender env "not found in this scope" src v.first.span) := by
      rw [hx]
      exact .ok ⟨hc, fun _ => rfl⟩
    rcases lookup_reach (env := env) hne hv.1 h1 c.val with ⟨x, h3, _, h4⟩ | ⟨h3, _, h4⟩ | ⟨e, h3, k1, k2, _, h4⟩
    · simp only [h3]
      rw [followCow]
      have hl : (like c x).val = x := by cases c <;> rfl
      rw [hl]
      rcases follow_reach (env := env) hne x vs hv.2 h2 with ⟨y, h5, h6⟩ | ⟨h5, h6⟩ | ⟨e, h5, k1, k2, h6⟩
      · simp only [h5, Res.ok_bind]
        exact good ((hf vm vs y).mpr ⟨x, (h4 x).mpr rfl, (h6 y).mpr rfl⟩) (by cases c <;> rfl)
      · simp only [h5, Res.ok_bind]
        exact good ((hf vm vs .none).mpr ⟨x, (h4 x).mpr rfl, (h6 .none).mpr rfl⟩) rfl
      · simp only [h5, Res.err_bind]
        refine bad (fun y hy => ?_) ⟨e, rfl, k1, k2⟩
        obtain ⟨x', hx', hy⟩ := (hf vm vs y).mp hy
        exact h6 y ((h4 x').mp hx' ▸ hy)
    · simp only [h3, Res.ok_bind]
      refine bad (fun y hy => ?_) (er _ hv.1.1)
      obtain ⟨x', hx', _⟩ := (hf vm vs y).mp hy
      exact h4 x' hx'
    · simp only [h3, Res.ok_bind]
      refine bad (fun y hy => ?_) (er _ hv.1.1)
      obtain ⟨x', hx', _⟩ := (hf vm vs y).mp hy
      exact h4 x' hx'

/-! Expressions -/

theorem fromValue_owned {env : Env} {t : ArgTy} (h : ¬ ByReference t) (v : Value) : t.fromValue env v = t.fromValueRef env v := by
  rw [ByReference] at h
  rw [ArgTy.fromValue.eq_def]
  split
  · simp at h
  · simp at h
  · simp at h
  · simp at h
  · rfl

theorem evalArg_rel {q : Quirks} {env : Env} {src : Str} (hne : src ≠ []) {ρ ρ' : Scope} (h : Scoped ρ ρ') {t : ArgTy}
    (ht : ByReference t → L) {a : BaseExpr} (ha : BaseIn src a) :
    RR L Eq (evalArg q env src ρ t a) (evalArg q env src ρ' t a) := by
  cases a with
  | lit l => exact .refl (fun _ => rfl) _
  | var v =>
    rw [evalArg, evalArg]
    refine (resolve_rel hne h ha).bind fun c c' hc => ?_
    by_cases hr : ByReference t
    · have hL := ht hr
      cases c with
      | borrowed x =>
        cases c' with
        | borrowed x' => cases hc.1; exact .refl (fun _ => rfl) _
        | owned x' =>
          cases hc.1
          dsimp only
          obtain ⟨e, h1, h2, _⟩ := errRender_in (α := ArgVal) env (noLoan t) hne (var_span_in ha)
          simp only [offer]
          cases hx : accepts env t x with
          | none => exact .refl (fun _ => rfl) _
          | some y =>
            rw [errRender_eq] at h1
            by_cases hb : ByRef t
            · simp only [hb, h1, if_true, true_and]
              exact .lost hL h2
            · simp only [hb]
              exact .refl (fun _ => rfl) _
      | owned x =>
        cases c' with
        | borrowed x' => exact absurd (hc.2 rfl) (by simp [isOwned])
        | owned x' => cases hc.1; exact .refl (fun _ => rfl) _
    · have hb : ¬ ByRef t := fun h => hr (by rw [ByReference]; cases t <;> first | exact absurd h id | simp)
      cases c <;> cases c' <;> cases hc.1 <;> simp only [offer, hb, false_and, if_false] <;> exact .refl (fun _ => rfl) _

theorem evalArgs_rel {q : Quirks} {env : Env} {src : Str} (hne : src ≠ []) {ρ ρ' : Scope} (h : Scoped ρ ρ') {ts : List ArgTy}
    (ht : ∀ t ∈ ts, ByReference t → L) {as : List BaseExpr} (ha : ∀ a ∈ as, BaseIn src a) :
    RR L Eq (evalArgs q env src ρ ts as) (evalArgs q env src ρ' ts as) := by
  induction as generalizing ts with
  | nil => cases ts <;> exact .ok rfl
  | cons a as ih =>
    cases ts with
    | nil => exact .ok rfl
    | cons t ts =>
      rw [evalArgs, evalArgs]
      refine (evalArg_rel hne h (ht t List.mem_cons_self) (ha a List.mem_cons_self)).bind fun x _ e => ?_
      subst e
      refine (ih (fun t h => ht t (List.mem_cons_of_mem _ h)) fun a h => ha a (List.mem_cons_of_mem _ h)).bind fun y _ e => ?_
      subst e
      exact .ok rfl

theorem applyFilter_rel {q : Quirks} {env : Env} {src : Str} (hne : src ≠ []) {ρ ρ' : Scope} (h : Scoped ρ ρ') {f : Filter} {name : Ident}
    {c c' : Cow} (hc : Same c c') (ht : ∀ t ∈ f.args, ByReference t → L) {as : List BaseExpr} (ha : ∀ a ∈ as, BaseIn src a) :
    RR L Eq (applyFilter q env src ρ f name c as) (applyFilter q env src ρ' f name c' as) := by
  rw [applyFilter, applyFilter, hc.1]
  split
  · exact .refl (fun _ => rfl) _
  · split
    · exact .refl (fun _ => rfl) _
    · refine (evalArgs_rel hne h ht ha).bind fun x _ e => ?_
      subst e
      exact .refl (fun _ => rfl) _

/-- If a filter takes an argument by reference, `L` holds. -/
def Refs (L : Prop) (cfg : RenderCfg σ) : Prop := ∀ n f, BMap.get cfg.functions n = some (.filter f) → ∀ t ∈ f.args, ByReference t → L

theorem args_in {src : Str} {args : Option Args} (h : ∀ a, args = some a → ∀ x ∈ a.values, BaseIn src x) :
    ∀ a ∈ (args.map Args.values).getD [], BaseIn src a := by
  cases args with
  | none => intro a ha; cases ha
  | some as => exact h as rfl

theorem evalExpr_rel {q : Quirks} {cfg : RenderCfg σ} (hr : Refs L cfg) {src : Str} (hne : src ≠ []) {ρ ρ' : Scope} (h : Scoped ρ ρ')
    {e : Expr} (he : ExprIn src e) : RR L Same (evalExpr q cfg src ρ e) (evalExpr q cfg src ρ' e) := by
  induction e with
  | base b =>
    rw [evalExpr, evalExpr]
    cases b with
    | var v => exact resolve_rel hne h he
    | lit l => exact .ok (.refl _)
  | call name args recv sp ih =>
    obtain ⟨h1, h2, h3, h4⟩ := he
    rw [evalExpr, evalExpr]
    refine (ih h3).bind fun c c' hc => ?_
    refine (RR.refl (R := Eq) (fun _ => rfl) _).bind fun n _ e => ?_
    subst e
    cases hf : BMap.get cfg.functions n with
    | none => exact .refl Same.refl _
    | some g =>
      cases g with
      | formatter _ => exact .refl Same.refl _
      | filter f =>
        refine (applyFilter_rel hne h hc (hr n f hf) (args_in h2)).bind fun x _ e => ?_
        subst e
        exact .ok (.refl _)

theorem emitExpr_rel {q : Quirks} {cfg : RenderCfg σ} (hr : Refs L cfg) {src : Str} (hne : src ≠ []) {ρ ρ' : Scope} (h : Scoped ρ ρ')
    (name : Option Str) {e : Expr} (he : ExprIn src e) (w : World σ) :
    RU L (emitExpr q cfg name src ρ e w) (emitExpr q cfg name src ρ' e w) := by
  match e with
  | .base b => simp only [emitExpr]; exact (evalExpr_rel hr hne h he).andThen fun c c' hc => by rw [hc.1]; exact .refl _
  | .call fn (some as) recv sp => simp only [emitExpr]; exact (evalExpr_rel hr hne h he).andThen fun c c' hc => by rw [hc.1]; exact .refl _
  | .call fn none recv sp =>
    rw [emitExpr, emitExpr]
    refine (evalExpr_rel hr hne h he.2.2.1).andThen fun c c' hc => ?_
    refine (RR.refl (R := Eq) (fun _ => rfl) _).andThen fun n _ e => ?_
    subst e
    cases hf : BMap.get cfg.functions n with
    | none => exact .refl _
    | some g =>
      cases g with
      | formatter _ => dsimp only; rw [hc.1]; exact .refl _
      | filter f =>
        refine (applyFilter_rel hne h hc (hr n f hf) (as := []) (by simp)).andThen fun x _ e => ?_
        subst e
        exact .refl _

/-! Statements -/

theorem listRounds_rel {o o' : Bool} (h : o = true → o' = true) (n : Str) : ∀ (l : List Value) (i : Nat),
    List.Forall₂ Bound (listRounds n o i l) (listRounds n o' i l)
  | [], _ => .nil
  | x :: xs, i => .cons (.item ⟨by cases o <;> cases o' <;> rfl, by cases o <;> cases o' <;> simp_all [isOwned]⟩) (listRounds_rel h n xs _)

theorem mapRounds_rel {o o' : Bool} (h : o = true → o' = true) (k v : Str) : ∀ (l : List (Str × Value)) (i : Nat),
    List.Forall₂ Bound (mapRounds k v o i l) (mapRounds k v o' i l)
  | [], _ => .nil
  | (key, x) :: xs, i =>
    .cons (.entry ⟨by cases o <;> cases o' <;> rfl, by cases o <;> cases o' <;> simp_all [isOwned]⟩) (mapRounds_rel h k v xs _)

theorem rounds_rel {env : Env} {src : Str} {vars : LoopVars} {c c' : Cow} (hc : Same c c') (sp : Span) :
    RR L (List.Forall₂ Bound) (rounds env src vars c sp) (rounds env src vars c' sp) := by
  have er (msg : String) (sp : Span) : RR L (List.Forall₂ Bound) (errRender env msg src sp) (errRender env msg src sp) := by
    rw [errRender, throwAt]
    cases Pretty.build env src sp with
    | none => exact .crash
    | some p => exact .err (.refl _)
  rw [rounds.eq_def, rounds.eq_def, ← hc.1]
  split
  · refine (RR.refl (R := Eq) (fun _ => rfl) _).bind fun n _ e => ?_
    subst e
    exact .ok (listRounds_rel hc.2 _ _ _)
  · exact er _ _
  · refine (RR.refl (R := Eq) (fun _ => rfl) _).bind fun n _ e => ?_
    subst e
    refine (RR.refl (R := Eq) (fun _ => rfl) _).bind fun n' _ e => ?_
    subst e
    exact .ok (mapRounds_rel hc.2 _ _ _ _)
  · exact er _ _
  · exact er _ _

/-- Two ways to include that agree. -/
def Inc (L : Prop) (inc : Include σ) : Prop :=
  ∀ a src name (ρ ρ' : Scope) w, Scoped ρ ρ' → RU L (inc a src name ρ w) (inc a src name ρ' w)

mutual
theorem evalStmt_rel {q : Quirks} {cfg : RenderCfg σ} (hr : Refs L cfg) {inc : Include σ} (hi : Inc L inc) {src : Str} (hne : src ≠ [])
    (name : Option Str) : ∀ (s : Stmt) (ρ ρ' : Scope) (w : World σ), Scoped ρ ρ' → StmtIn src s →
    RU L (evalStmt q cfg inc name src ρ s w) (evalStmt q cfg inc name src ρ' s w)
  | .raw sp, ρ, ρ', w, _, _ => by rw [evalStmt, evalStmt]; exact .refl _
  | .inlineExpr e sp, ρ, ρ', w, h, hs => by
    rw [evalStmt, evalStmt]; rw [StmtIn] at hs; exact emitExpr_rel hr hne h name hs.1 w
  | .include_ n none, ρ, ρ', w, h, _ => by rw [evalStmt, evalStmt]; exact hi n src name ρ ρ' w h
  | .include_ n (some e), ρ, ρ', w, h, hs => by
    rw [evalStmt, evalStmt]; rw [StmtIn] at hs
    exact (evalExpr_rel hr hne h hs.2).andThen fun c c' hc => hi n src name _ _ w (.cons (.globals hc) (.cons .wall h))
  | .ifElse neg e t none, ρ, ρ', w, h, hs => by
    rw [evalStmt, evalStmt]; rw [StmtIn] at hs
    refine (evalExpr_rel hr hne h hs.1).andThen fun c c' hc => ?_
    rw [hc.1]
    split
    · exact evalStmts_rel hr hi hne name t ρ ρ' w h hs.2
    · exact .ok
  | .ifElse neg e t (some f), ρ, ρ', w, h, hs => by
    rw [evalStmt, evalStmt]; rw [StmtIn] at hs
    refine (evalExpr_rel hr hne h hs.1).andThen fun c c' hc => ?_
    rw [hc.1]
    split
    · exact evalStmts_rel hr hi hne name t ρ ρ' w h hs.2.1
    · exact evalStmts_rel hr hi hne name f ρ ρ' w h hs.2.2
  | .forLoop vars e body, ρ, ρ', w, h, hs => by
    rw [evalStmt, evalStmt]; rw [StmtIn] at hs
    refine (evalExpr_rel hr hne h hs.2.1).andThen fun c c' hc => ?_
    refine (rounds_rel hc _).andThen fun bs bs' hb => ?_
    exact RU.each (R := Bound) (fun b b' hb w => evalStmts_rel hr hi hne name body _ _ w (.cons hb h) hs.2.2) hb w
  | .with_ e n body, ρ, ρ', w, h, hs => by
    rw [evalStmt, evalStmt]; rw [StmtIn] at hs
    refine (evalExpr_rel hr hne h hs.1).andThen fun c c' hc => ?_
    exact evalStmts_rel hr hi hne name body _ _ w (.cons (.name hc) h) hs.2.2
theorem evalStmts_rel {q : Quirks} {cfg : RenderCfg σ} (hr : Refs L cfg) {inc : Include σ} (hi : Inc L inc) {src : Str} (hne : src ≠ [])
    (name : Option Str) : ∀ (ss : List Stmt) (ρ ρ' : Scope) (w : World σ), Scoped ρ ρ' → StmtsIn src ss →
    RU L (evalStmts q cfg inc name src ρ ss w) (evalStmts q cfg inc name src ρ' ss w)
  | [], ρ, ρ', w, _, _ => by rw [evalStmts, evalStmts]; exact .ok
  | s :: ss, ρ, ρ', w, h, hs => by
    rw [evalStmts, evalStmts]; rw [StmtsIn] at hs
    exact (evalStmt_rel hr hi hne name s ρ ρ' w h hs.1).seq fun w => evalStmts_rel hr hi hne name ss ρ ρ' w h hs.2
end

theorem tree_rel {q : Quirks} {cfg : RenderCfg σ} (hr : Refs L cfg) {inc : Include σ} (hi : Inc L inc) {env : Env} {t : Template} {T : Tree}
    (hT : Parsed env t T) (name : Option Str) {ρ ρ' : Scope} (h : Scoped ρ ρ') (w : World σ) :
    RU L (evalStmts q cfg inc name T.source ρ T.body w) (evalStmts q cfg inc name T.source ρ' T.body w) := by
  by_cases he : T.source = []
  · rw [hT.empty he, evalStmts, evalStmts]; exact .ok
  · exact evalStmts_rel hr hi he name T.body ρ ρ' w h hT.inside

theorem include_rel {q : Quirks} {cfg : RenderCfg σ} (hr : Refs L cfg) {env : Env} {tree : Template → Tree}
    (ht : ∀ t, Includable cfg t → Parsed env t (tree t)) (left : Nat) : Inc L (include_ q cfg tree left) := by
  induction left with
  | zero =>
    intro a src name ρ ρ' w _
    rw [include_, include_]
    exact .refl _
  | succ n ih =>
    intro a src name ρ ρ' w h
    rw [include_, include_]
    cases hf : find cfg src a w with
    | mk w' r =>
      cases r with
      | err e => exact .refl _
      | crash => exact .refl _
      | ok t =>
        have hi : Includable cfg t := by
          rw [Includable]
          rw [find] at hf
          split at hf
          · rename_i f hff
            split at hf
            · rename_i t' ht'
              cases hf; exact ⟨_, _, ht'⟩
            · exact absurd (Prod.mk.inj hf).2 errRender_ok
          · rename_i hff
            split at hf
            · rename_i t' ht'
              cases hf; exact ⟨_, ht'⟩
            · exact absurd (Prod.mk.inj hf).2 errRender_ok
        exact tree_rel hr ih (ht t hi) (some a.name) h w'

theorem render_rel {q : Quirks} {cfg : RenderCfg σ} (hr : Refs L cfg) {env : Env} {tree : Template → Tree}
    (ht : ∀ t, Includable cfg t → Parsed env t (tree t)) {t : Template} {T : Tree} (hT : Parsed env t T) (name : Option Str)
    {c : Cow} {f : ValueFn} (hf : AnswersFrom f c.val) (w : World σ) :
    RU L (Spec.render q cfg tree T name [.globals c] w) (Spec.render q cfg tree T name [.provider f] w) :=
  tree_rel hr (include_rel hr ht _) hT name (.base hf) w

end Given
end Upon
