import Verif.Spec.Related
import Verif.Proofs.ParsedIn
import Verif.Props.Writers
import Verif.Props.Blame
import Verif.Props.Serial
/-
Two renders of the same template with corresponding data: if the first succeeds, so does the second, with corresponding output.
-/
namespace Upon
open Spec
variable {σ : Type}

namespace Rel

/-- If the first succeeds, so does the second, with a corresponding result. -/
def Fol {α β : Type} (R : α → β → Prop) (r : Res α) (r' : Res β) : Prop := ∀ a, r = .ok a → ∃ b, r' = .ok b ∧ R a b

theorem Fol.ok {α β : Type} {R : α → β → Prop} {a : α} {b : β} (h : R a b) : Fol R (.ok a) (.ok b) := by
  intro x hx; cases hx; exact ⟨b, rfl, h⟩

theorem Fol.bad {α β : Type} {R : α → β → Prop} {r : Res α} {r' : Res β} (h : ∀ a, r ≠ .ok a) : Fol R r r' :=
  fun a ha => absurd ha (h a)

theorem fault_ok {α : Type} {env : Env} {m : String} {src : Str} {sp : Span} {a : α} : fault env m src sp ≠ .ok a := by
  rw [fault]; split <;> simp

theorem filterFault_ok {α : Type} {env : Env} {m : String} {src : Str} {sp : Span} {a : α} : filterFault env m src sp ≠ .ok a := by
  rw [filterFault]; split <;> simp

theorem Fol.fault {α β : Type} {R : α → β → Prop} {env : Env} {m : String} {src : Str} {sp : Span} {r' : Res β} :
    Fol R (fault env m src sp : Res α) r' := .bad fun _ => fault_ok

theorem Fol.refl {α : Type} {R : α → α → Prop} (hR : ∀ a, R a a) (r : Res α) : Fol R r r := fun a ha => ⟨a, ha, hR a⟩

theorem Fol.bind {α β γ δ : Type} {R : α → β → Prop} {S : γ → δ → Prop} {r : Res α} {r' : Res β} (h : Fol R r r')
    {k : α → Res γ} {k' : β → Res δ} (hk : ∀ a b, r = .ok a → R a b → Fol S (k a) (k' b)) : Fol S (r >>= k) (r' >>= k') := by
  intro c hc
  obtain ⟨a, ha, hc⟩ := bind_ok.mp hc
  obtain ⟨b, hb, hab⟩ := h a ha
  obtain ⟨d, hd, hcd⟩ := hk a b ha hab c hc
  exact ⟨d, by rw [hb]; exact hd, hcd⟩

/-- The same for whole runs. -/
def FolR (W : World σ → World σ → Prop) (r r' : RunRes σ) : Prop := ∀ w, r = .ok w → ∃ w', r' = .ok w' ∧ W w w'

variable {W : World σ → World σ → Prop}

theorem FolR.ok {w w' : World σ} (h : W w w') : FolR W (.ok w) (.ok w') := by
  intro x hx; cases hx; exact ⟨w', rfl, h⟩

theorem FolR.andThen {α β : Type} {R : α → β → Prop} {r : Res α} {r' : Res β} (h : Fol R r r') {name : Option Str} {w w' : World σ}
    {k : α → RunRes σ} {k' : β → RunRes σ} (hk : ∀ a b, r = .ok a → R a b → FolR W (k a) (k' b)) :
    FolR W (andThen name w r k) (andThen name w' r' k') := by
  intro x hx
  cases r with
  | err e => cases hx
  | crash => cases hx
  | ok a =>
    obtain ⟨b, rfl, hab⟩ := h a rfl
    exact hk a b rfl hab x hx

theorem FolR.seq {r r' : RunRes σ} (h : FolR W r r') {k k' : World σ → RunRes σ} (hk : ∀ w w', W w w' → FolR W (k w) (k' w')) :
    FolR W (seq r k) (seq r' k') := by
  intro x hx
  cases r with
  | err e => cases hx
  | crash => cases hx
  | ok w =>
    obtain ⟨w', rfl, hw⟩ := h w rfl
    exact hk w w' hw x hx

theorem FolR.each {α β : Type} {R : α → β → Prop} {f : α → World σ → RunRes σ} {f' : β → World σ → RunRes σ}
    (h : ∀ a b, R a b → ∀ w w', W w w' → FolR W (f a w) (f' b w')) {l : List α} {l' : List β} (hl : List.Forall₂ R l l') :
    ∀ w w', W w w' → FolR W (forEach f l w) (forEach f' l' w') := by
  induction hl with
  | nil => intro w w' hw; exact .ok hw
  | cons h1 _ ih => intro w w' hw; rw [forEach, forEach]; exact (h _ _ h1 w w' hw).seq ih

/-- What is needed of a correspondence between values. For keys in `opt` also the absence of entries must agree, and if `pairs` then maps must have
corresponding entries. -/
structure Matching (R : Value → Value → Prop) (opt : Str → Prop) (pairs : Prop) : Prop where
  refl : ∀ v, R v v
  truthy : ∀ {v v'}, R v v' → truthy v = truthy v'
  none : ∀ {v'}, R .none v' → v' = .none
  bool : ∀ {b v'}, R (.bool b) v' → v' = .bool b
  integer : ∀ {i v'}, R (.integer i) v' → v' = .integer i
  float : ∀ {f v'}, R (.float f) v' → v' = .float f
  string : ∀ {s v'}, R (.string s) v' → ∃ s', v' = .string s'
  list : ∀ {l v'}, R (.list l) v' → ∃ l', v' = .list l' ∧ List.Forall₂ R l l'
  map : ∀ {m v'}, R (.map m) v' → ∃ m', v' = .map m' ∧ (∀ k x, BMap.get m k = some x → ∃ x', BMap.get m' k = some x' ∧ R x x') ∧
    (∀ k, opt k → BMap.get m k = Option.none → BMap.get m' k = Option.none) ∧
    (pairs → List.Forall₂ (fun p p' => p.1 = p'.1 ∧ R p.2 p'.2) m m')

variable {R : Value → Value → Prop} {opt : Str → Prop} {pairs : Prop}

/-- Optional accesses are to keys in `opt`. -/
def MOk (opt : Str → Prop) (src : Str) (m : Member) : Prop :=
  m.op = .optional → ∀ k n, m.access = .key k → k.span.of src = some n → opt n

def VOk (opt : Str → Prop) (src : Str) (v : Var) : Prop := ∀ m ∈ v.path, MOk opt src m

theorem VOk.first {src : Str} {v : Var} (h : VOk opt src v) : MOk opt src v.first := h _ List.mem_cons_self
theorem VOk.rest {src : Str} {v : Var} (h : VOk opt src v) : ∀ m ∈ v.rest, MOk opt src m := fun m hm => h m (List.mem_cons_of_mem _ hm)

def OptRel {α β : Type} (R : α → β → Prop) (o : Option α) (o' : Option β) : Prop :=
  (o = none ∧ o' = none) ∨ ∃ a b, o = some a ∧ o' = some b ∧ R a b

theorem OptRel.some {α β : Type} {R : α → β → Prop} {a : α} {b : β} (h : R a b) : OptRel R (some a) (some b) := .inr ⟨a, b, rfl, rfl, h⟩
theorem OptRel.none {α β : Type} {R : α → β → Prop} : OptRel R (none : Option α) (none : Option β) := .inl ⟨rfl, rfl⟩
theorem OptRel.refl {α : Type} {R : α → α → Prop} (h : ∀ a, R a a) (o : Option α) : OptRel R o o := by
  cases o with
  | none => exact .none
  | some a => exact .some (h a)

theorem forall₂_get {α β : Type} {R : α → β → Prop} {l : List α} {l' : List β} (h : List.Forall₂ R l l') : ∀ i : Nat, OptRel R l[i]? l'[i]? := by
  induction h with
  | nil => intro i; exact .none
  | cons h _ ih =>
    intro i
    cases i with
    | zero => exact .some h
    | succ i => exact ih i

theorem lookup_fol (hR : Matching R opt pairs) {env : Env} {src : Str} {v v' : Value} (h : R v v') {m : Member} (hm : MOk opt src m) :
    Fol (OptRel R) (lookup env src v m) (lookup env src v' m) := by
  have hbad : ∀ {msg : String} {sp : Span} {r' : Res (Option Value)}, Fol (OptRel R) (errRender env msg src sp : Res (Option Value)) r' :=
    fun {_ _ _} => .bad fun _ => errRender_ok
  obtain ⟨op, acc, sp⟩ := m
  cases v with
  | list l =>
    obtain ⟨l', rfl, hl⟩ := hR.list h
    cases acc with
    | key k => rw [lookup.eq_def]; exact hbad
    | index i =>
      rw [lookup.eq_def, lookup.eq_def]
      dsimp only
      rcases forall₂_get hl i.value with ⟨h1, h2⟩ | ⟨a, b, h1, h2, hab⟩
      · rw [h1, h2]
        cases op with
        | direct => exact hbad
        | optional => exact .ok .none
      · rw [h1, h2]
        cases op <;> exact .ok (.some hab)
  | map mp =>
    obtain ⟨mp', rfl, h1, h2, _⟩ := hR.map h
    cases acc with
    | index i => rw [lookup.eq_def]; exact hbad
    | key k =>
      rw [lookup.eq_def, lookup.eq_def]
      dsimp only
      refine (Fol.refl (R := Eq) (fun _ => rfl) _).bind fun n _ hn e => ?_
      subst e
      have hn := ofOption_ok hn
      cases hg : BMap.get mp n with
      | some x =>
        obtain ⟨x', hx', hxx⟩ := h1 n x hg
        rw [hx']
        cases op <;> exact .ok (.some hxx)
      | none =>
        cases op with
        | direct => exact hbad
        | optional =>
          rw [h2 n (hm rfl k n rfl hn) hg]
          exact .ok .none
  | _ => cases acc <;> (rw [lookup.eq_def]; exact hbad)

theorem follow_fol (hR : Matching R opt pairs) {env : Env} {src : Str} {ms : List Member} (hms : ∀ m ∈ ms, MOk opt src m) :
    ∀ {v v' : Value}, R v v' → Fol (OptRel R) (follow env src v ms) (follow env src v' ms) := by
  induction ms with
  | nil => intro v v' h; exact .ok (.some h)
  | cons m ms ih =>
    intro v v' h
    have hl := lookup_fol hR (env := env) h (hms m List.mem_cons_self)
    rw [follow, follow]
    cases hx : lookup env src v m with
    | err e => exact .bad fun _ => by simp
    | crash => exact .bad fun _ => by simp
    | ok o =>
      obtain ⟨o', ho', hoo⟩ := hl o hx
      rw [ho']
      rcases hoo with ⟨rfl, rfl⟩ | ⟨a, b, rfl, rfl, hab⟩
      · exact .ok .none
      · exact ih (fun m hm => hms m (List.mem_cons_of_mem _ hm)) hab

/-- Corresponding values with the same owner. -/
def CR (R : Value → Value → Prop) (c c' : Cow) : Prop := R c.val c'.val ∧ isOwned c = isOwned c'

theorem CR.refl (hR : ∀ v, R v v) (c : Cow) : CR R c c := ⟨hR _, rfl⟩

theorem CR.like {c c' : Cow} (h : CR R c c') {v v' : Value} (hv : R v v') : CR R (like c v) (like c' v') := by
  cases c <;> cases c' <;> simp_all [CR, Spec.like, isOwned, Cow.val]

theorem followCow_fol (hR : Matching R opt pairs) {env : Env} {src : Str} {ms : List Member} (hms : ∀ m ∈ ms, MOk opt src m) {c c' : Cow}
    (h : CR R c c') : Fol (CR R) (followCow env src c ms) (followCow env src c' ms) := by
  have hf := follow_fol hR (env := env) hms h.1
  rw [followCow, followCow]
  cases hx : follow env src c.val ms with
  | err e => exact .bad fun _ => by simp
  | crash => exact .bad fun _ => by simp
  | ok o =>
    obtain ⟨o', ho', hoo⟩ := hf o hx
    rw [ho']
    rcases hoo with ⟨rfl, rfl⟩ | ⟨a, b, rfl, rfl, hab⟩
    · exact .ok (.refl hR.refl _)
    · exact .ok (h.like hab)

theorem followItem_fol (hR : Matching R opt pairs) {q : Quirks} {env : Env} {src : Str} {ms : List Member} (hms : ∀ m ∈ ms, MOk opt src m)
    {c c' : Cow} (h : CR R c c') : Fol (OptRel (CR R)) (followItem q env src c ms) (followItem q env src c' ms) := by
  have hf := follow_fol hR (env := env) hms h.1
  rw [followItem, followItem]
  cases hx : follow env src c.val ms with
  | err e => exact .bad fun _ => by simp
  | crash => exact .bad fun _ => by simp
  | ok o =>
    obtain ⟨o', ho', hoo⟩ := hf o hx
    rw [ho']
    rcases hoo with ⟨rfl, rfl⟩ | ⟨a, b, rfl, rfl, hab⟩
    · dsimp only
      split
      · exact .ok .none
      · exact .ok (.some (.refl hR.refl _))
    · exact .ok (.some (h.like hab))

/-- Corresponding bindings. -/
inductive Bound (R : Value → Value → Prop) : Binding → Binding → Prop
  | name {n c c'} : CR R c c' → Bound R (.name n c) (.name n c')
  | item {n c c' i a} : CR R c c' → Bound R (.item n c i a) (.item n c' i a)
  | entry {k v key c c' i a} : CR R c c' → Bound R (.entry k v key c i a) (.entry k v key c' i a)

/-- Corresponding scopes. -/
inductive Scoped (R : Value → Value → Prop) (opt : Str → Prop) (q : Quirks) (env : Env) : Scope → Scope → Prop
  | base {b b'} : (∀ src v, VOk opt src v → Fol (CR R) (resolve q env src [b] v) (resolve q env src [b'] v)) → Scoped R opt q env [b] [b']
  | walled {c c' ρ ρ'} : CR R c c' → Scoped R opt q env (.globals c :: .wall :: ρ) (.globals c' :: .wall :: ρ')
  | cons {b b' ρ ρ'} : Bound R b b' → Scoped R opt q env ρ ρ' → Scoped R opt q env (b :: ρ) (b' :: ρ')

theorem get_fol (hR : Matching R opt pairs) {q : Quirks} {env : Env} {src : Str} {b b' : Binding} (h : Bound R b b') {v : Var}
    (hv : VOk opt src v) : Fol (OptRel (CR R)) (b.get q env src v) (b'.get q env src v) := by
  have hrefl : ∀ o : Option Cow, OptRel (CR R) o o := OptRel.refl (CR.refl hR.refl)
  cases h with
  | name h =>
    rw [Binding.get, Binding.get]
    refine (Fol.refl (R := Eq) (fun _ => rfl) _).bind fun a _ _ e => ?_
    subst e
    refine (Fol.refl (R := Eq) (fun _ => rfl) _).bind fun b _ _ e => ?_
    subst e
    split
    · exact (followCow_fol hR hv.rest h).bind fun _ _ _ h => .ok (.some h)
    · exact .ok .none
  | item h =>
    rw [Binding.get, Binding.get]
    split
    · exact .ok .none
    · refine (Fol.refl (R := Eq) (fun _ => rfl) _).bind fun a _ _ e => ?_
      subst e
      split
      · exact .refl hrefl _
      · split
        · exact followItem_fol hR hv.rest h
        · exact .ok .none
  | entry h =>
    rw [Binding.get, Binding.get]
    split
    · exact .ok .none
    · refine (Fol.refl (R := Eq) (fun _ => rfl) _).bind fun a _ _ e => ?_
      subst e
      split
      · exact .refl hrefl _
      · split
        · exact .refl hrefl _
        · split
          · exact followItem_fol hR hv.rest h
          · exact .ok .none

/-- Entries found in corresponding globals correspond. -/
theorem globals_fol (hR : Matching R opt pairs) {q : Quirks} {env : Env} {src : Str} {c c' : Cow} (h : ∀ m x, MOk opt src m → lookup env src c.val m = .ok (some x) →
    ∃ x', lookup env src c'.val m = .ok (some x') ∧ R x x') (ho : isOwned c = isOwned c') {v : Var} (hv : VOk opt src v) :
    ∀ x, (Binding.globals c).get q env src v = .ok (some x) → ∃ x', (Binding.globals c').get q env src v = .ok (some x') ∧ CR R x x' := by
  intro x hx
  rw [Binding.get] at hx
  cases hl : lookup env src c.val v.first with
  | err e => rw [hl] at hx; cases hx
  | crash => rw [hl] at hx; cases hx
  | ok o =>
    rw [hl] at hx
    cases o with
    | none => cases hx
    | some y =>
      obtain ⟨y', hy', hyy⟩ := h _ y hv.first hl
      dsimp only at hx
      obtain ⟨z, hz, hx⟩ := bind_ok.mp hx
      cases hx
      have hc : CR R (like c y) (like c' y') := by
        cases c <;> cases c' <;> simp_all [CR, Spec.like, isOwned, Cow.val]
      obtain ⟨z', hz', hzz⟩ := followCow_fol hR (env := env) hv.rest hc _ hz
      exact ⟨z', by rw [Binding.get, hy']; dsimp only; rw [hz']; rfl, hzz⟩

theorem resolve_one (q : Quirks) (env : Env) (src : Str) (b : Binding) (ρ : Scope) (v : Var) (x : Cow) (h : b.get q env src v = .ok (some x)) :
    resolve q env src (b :: ρ) v = .ok x := by
  rw [resolve, h]; rfl

theorem resolve_fol (hR : Matching R opt pairs) {q : Quirks} {env : Env} {src : Str} {ρ ρ' : Scope} (h : Scoped R opt q env ρ ρ') {v : Var}
    (hv : VOk opt src v) : Fol (CR R) (resolve q env src ρ v) (resolve q env src ρ' v) := by
  induction h with
  | base h => exact h src v hv
  | @walled c c' ρ ρ' h =>
    intro x hx
    rw [resolve] at hx
    obtain ⟨o, ho, hx⟩ := bind_ok.mp hx
    cases o with
    | none =>
      dsimp only at hx
      rw [resolve] at hx
      obtain ⟨o, ho, hx⟩ := bind_ok.mp hx
      exact absurd ho fault_ok
    | some y =>
      cases hx
      have hl : ∀ m x, MOk opt src m → lookup env src c.val m = .ok (some x) → ∃ x', lookup env src c'.val m = .ok (some x') ∧ R x x' := by
        intro m x hm hx
        obtain ⟨o', ho', hoo⟩ := lookup_fol hR (env := env) h.1 hm _ hx
        rcases hoo with ⟨h1, _⟩ | ⟨a, b, h1, rfl, hab⟩
        · cases h1
        · cases h1; exact ⟨b, ho', hab⟩
      obtain ⟨z, hz, hzz⟩ := globals_fol hR (q := q) hl h.2 hv _ ho
      exact ⟨z, resolve_one _ _ _ _ _ _ _ hz, hzz⟩
  | cons hb _ ih =>
    rw [resolve, resolve]
    refine (get_fol hR hb hv).bind fun o o' _ ho => ?_
    rcases ho with ⟨rfl, rfl⟩ | ⟨c, c', rfl, rfl, hc⟩
    · exact ih
    · exact .ok hc

/-! Expressions -/

theorem accepts_fol (hR : Matching R opt pairs) {env : Env} {t : ArgTy} {v v' : Value} (h : R v v') {a : ArgVal} (ha : accepts env t v = some a) :
    ∃ a', accepts env t v' = some a' ∧ ArgAlike R a a' := by
  have hval : ∀ t', (t' = ArgTy.value ∨ t' = ArgTy.valueRef) → t = t' → ∃ a', accepts env t v' = some a' ∧ ArgAlike R a a' := by
    rintro t' (rfl | rfl) rfl <;>
      (have ha : some (ArgVal.value v) = some a := by cases v <;> exact ha) <;> cases ha <;>
      exact ⟨.value v', by cases v' <;> rfl, .value h⟩
  by_cases h1 : t = .value
  · exact hval _ (.inl rfl) h1
  by_cases h2 : t = .valueRef
  · exact hval _ (.inr rfl) h2
  cases v with
  | none => rw [hR.none h]; exact ⟨a, ha, .same⟩
  | bool b => rw [hR.bool h]; exact ⟨a, ha, .same⟩
  | integer b => rw [hR.integer h]; exact ⟨a, ha, .same⟩
  | float b => rw [hR.float h]; exact ⟨a, ha, .same⟩
  | string s =>
    obtain ⟨s', rfl⟩ := hR.string h
    cases t <;> simp [accepts] at ha h1 h2 <;> subst ha <;> exact ⟨_, rfl, .str h⟩
  | list s =>
    obtain ⟨s', rfl, _⟩ := hR.list h
    cases t <;> simp [accepts] at ha h1 h2 <;> subst ha <;> exact ⟨_, rfl, .list h⟩
  | map s =>
    obtain ⟨s', rfl, _⟩ := hR.map h
    cases t <;> simp [accepts] at ha h1 h2 <;> subst ha <;> exact ⟨_, rfl, .map h⟩

theorem offer_fol (hR : Matching R opt pairs) {env : Env} {role : Role} {lent : Bool} {t : ArgTy} {v v' : Value} (h : R v v') {a : ArgVal}
    (ha : offer env role lent t v = .ok a) : ∃ a', offer env role lent t v' = .ok a' ∧ ArgAlike R a a' := by
  rw [offer] at ha ⊢
  cases hx : accepts env t v with
  | none => rw [hx] at ha; cases ha
  | some b =>
    rw [hx] at ha
    obtain ⟨b', hb', hbb⟩ := accepts_fol hR h hx
    rw [hb']
    dsimp only at ha ⊢
    split at ha
    · cases ha
    · rename_i hn
      cases ha
      exact ⟨b', by rw [if_neg hn], hbb⟩

theorem evalArg_fol (hR : Matching R opt pairs) {q : Quirks} {env : Env} {src : Str} {ρ ρ' : Scope} (h : Scoped R opt q env ρ ρ') {t : ArgTy}
    {a : BaseExpr} (ha : ∀ v ∈ baseVars a, VOk opt src v) : Fol (ArgAlike R) (evalArg q env src ρ t a) (evalArg q env src ρ' t a) := by
  cases a with
  | lit l => exact .refl (fun _ => .same) _
  | var v =>
    rw [evalArg, evalArg]
    refine (resolve_fol hR h (ha v (by simp [baseVars]))).bind fun c c' _ hc => ?_
    cases c with
    | borrowed x =>
      cases c' with
      | owned x' => cases hc.2
      | borrowed x' =>
        dsimp only
        cases ho : offer env .argument true t x with
        | error m => exact .fault
        | ok a => obtain ⟨a', ha', haa⟩ := offer_fol hR hc.1 ho; rw [show offer env .argument true t x' = .ok a' from ha']; exact .ok haa
    | owned x =>
      cases c' with
      | borrowed x' => cases hc.2
      | owned x' =>
        dsimp only
        cases ho : offer env .argument false t x with
        | error m => exact .fault
        | ok a => obtain ⟨a', ha', haa⟩ := offer_fol hR hc.1 ho; rw [show offer env .argument false t x' = .ok a' from ha']; exact .ok haa

theorem evalArgs_fol (hR : Matching R opt pairs) {q : Quirks} {env : Env} {src : Str} {ρ ρ' : Scope} (h : Scoped R opt q env ρ ρ')
    {ts : List ArgTy} {as : List BaseExpr} (ha : ∀ v ∈ as.flatMap baseVars, VOk opt src v) :
    Fol (List.Forall₂ (ArgAlike R)) (evalArgs q env src ρ ts as) (evalArgs q env src ρ' ts as) := by
  induction as generalizing ts with
  | nil => cases ts <;> exact .ok .nil
  | cons a as ih =>
    cases ts with
    | nil => exact .ok .nil
    | cons t ts =>
      rw [evalArgs, evalArgs]
      refine (evalArg_fol hR h fun v hv => ha v (by simp [hv])).bind fun x x' _ hx => ?_
      exact (ih fun v hv => ha v (by rw [List.flatMap_cons]; exact List.mem_append_right _ hv)).bind fun y y' _ hy => .ok (.cons hx hy)

theorem applyFilter_fol (hR : Matching R opt pairs) {q : Quirks} {env : Env} {src : Str} {ρ ρ' : Scope} (h : Scoped R opt q env ρ ρ')
    {fs : BMap EngFn} (hfs : FiltersFollow R fs) {n : Str} {f : Filter} (hf : BMap.get fs n = some (.filter f)) {name : Ident}
    {c c' : Cow} (hc : CR R c c') {as : List BaseExpr} (ha : ∀ v ∈ as.flatMap baseVars, VOk opt src v) :
    Fol R (applyFilter q env src ρ f name c as) (applyFilter q env src ρ' f name c' as) := by
  rw [applyFilter, applyFilter]
  split
  · exact .fault
  · cases ho : offer env .value true f.val c.val with
    | error m => exact .fault
    | ok a =>
      obtain ⟨a', ha', haa⟩ := offer_fol hR hc.1 ho
      rw [ha']
      dsimp only
      refine (evalArgs_fol hR h ha).bind fun x x' _ hx => ?_
      cases hcall : f.call a x with
      | error m => exact .bad fun _ => filterFault_ok
      | ok r =>
        obtain ⟨r', hr', hrr⟩ := hfs n f hf a a' x x' r haa hx hcall
        rw [hr']
        exact .ok hrr

theorem evalExpr_fol (hR : Matching R opt pairs) {q : Quirks} {cfg : RenderCfg σ} (hfs : FiltersFollow R cfg.functions) {src : Str}
    {ρ ρ' : Scope} (h : Scoped R opt q cfg.env ρ ρ') {e : Expr} (he : ∀ v ∈ exprVars e, VOk opt src v) :
    Fol (CR R) (evalExpr q cfg src ρ e) (evalExpr q cfg src ρ' e) := by
  induction e with
  | base b =>
    rw [evalExpr, evalExpr]
    cases b with
    | var v => exact resolve_fol hR h (he v (by simp [exprVars, baseVars]))
    | lit l => exact .ok (.refl hR.refl _)
  | call name args recv sp ih =>
    rw [evalExpr, evalExpr]
    refine (ih fun v hv => he v (by rw [exprVars]; exact List.mem_append_left _ hv)).bind fun c c' _ hc => ?_
    refine (Fol.refl (R := Eq) (fun _ => rfl) _).bind fun n _ _ e => ?_
    subst e
    cases hf : BMap.get cfg.functions n with
    | none => exact .fault
    | some g =>
      cases g with
      | formatter _ => exact .fault
      | filter f =>
        refine (applyFilter_fol hR h hfs hf hc fun v hv => he v (by rw [exprVars]; exact List.mem_append_right _ hv)).bind fun x x' _ hx => ?_
        exact .ok ⟨hx, rfl⟩

/-- What is needed of a correspondence between outputs. -/
structure OutMatch (R : Value → Value → Prop) (cfg : RenderCfg σ) (Q : σ → σ → Prop) : Prop where
  raw : ∀ o o' t, Q o o' → (cfg.sink.write o t).2 = true → (cfg.sink.write o' t).2 = true ∧ Q (cfg.sink.write o t).1 (cfg.sink.write o' t).1
  shown : ∀ o o' v v' o₁, Q o o' → R v v' → (cfg.defaultFormatter v).run cfg.sink o = (o₁, .ok ()) →
    ∃ o₁', (cfg.defaultFormatter v').run cfg.sink o' = (o₁', .ok ()) ∧ Q o₁ o₁'
  named : ∀ n f, BMap.get cfg.functions n = some (.formatter f) → ∀ o o' v v' o₁, Q o o' → R v v' → (f v).run cfg.sink o = (o₁, .ok ()) →
    ∃ o₁', (f v').run cfg.sink o' = (o₁', .ok ()) ∧ Q o₁ o₁'

/-- Corresponding worlds. -/
def WQ (Q : σ → σ → Prop) (w w' : World σ) : Prop := Q w.out w'.out ∧ w.asked = w'.asked

variable {Q : σ → σ → Prop}

theorem write_fol {cfg : RenderCfg σ} {f : Formatter}
    (hf : ∀ o o' v v' o₁, Q o o' → R v v' → (f v).run cfg.sink o = (o₁, .ok ()) → ∃ o₁', (f v').run cfg.sink o' = (o₁', .ok ()) ∧ Q o₁ o₁')
    {name : Option Str} {v v' : Value} (h : R v v') {src : Str} {sp : Span} {w w' : World σ} (hw : WQ Q w w') :
    FolR (WQ Q) (write cfg name f v src sp w) (write cfg name f v' src sp w') := by
  intro x hx
  rw [write] at hx ⊢
  cases hr : (f v).run cfg.sink w.out with
  | mk o r =>
    rw [hr] at hx
    cases r with
    | error m =>
      dsimp only at hx
      rw [formatFault] at hx
      split at hx <;> cases hx
    | ok u =>
      cases hx
      obtain ⟨o', ho', hoo⟩ := hf _ _ _ _ _ hw.1 h hr
      rw [ho']
      exact ⟨_, rfl, hoo, hw.2⟩

theorem emitExpr_fol (hR : Matching R opt pairs) {q : Quirks} {cfg : RenderCfg σ} (hfs : FiltersFollow R cfg.functions) (hQ : OutMatch R cfg Q)
    {src : Str} {ρ ρ' : Scope} (h : Scoped R opt q cfg.env ρ ρ') (name : Option Str) {e : Expr} (he : ∀ v ∈ exprVars e, VOk opt src v)
    {w w' : World σ} (hw : WQ Q w w') : FolR (WQ Q) (emitExpr q cfg name src ρ e w) (emitExpr q cfg name src ρ' e w') := by
  match e with
  | .base b => simp only [emitExpr]; exact .andThen (evalExpr_fol hR hfs h he) fun c c' _ hc => write_fol hQ.shown hc.1 hw
  | .call fn (some as) recv sp => simp only [emitExpr]; exact .andThen (evalExpr_fol hR hfs h he) fun c c' _ hc => write_fol hQ.shown hc.1 hw
  | .call fn none recv sp =>
    rw [emitExpr, emitExpr]
    refine .andThen (evalExpr_fol hR hfs h fun v hv => he v (by rw [exprVars]; exact List.mem_append_left _ hv)) fun c c' _ hc => ?_
    refine .andThen (Fol.refl (R := Eq) (fun _ => rfl) _) fun n _ _ e => ?_
    subst e
    cases hf : BMap.get cfg.functions n with
    | none => exact .andThen (R := fun _ _ => True) .fault fun _ _ _ _ => by intro w hw; cases hw
    | some g =>
      cases g with
      | formatter f => exact write_fol (hQ.named n f hf) hc.1 hw
      | filter f => exact .andThen (applyFilter_fol hR h hfs hf hc (as := []) (by simp)) fun x x' _ hx => write_fol hQ.shown hx hw

/-! Statements -/

theorem forall₂_length {α β : Type} {R : α → β → Prop} {l : List α} {l' : List β} (h : List.Forall₂ R l l') : l.length = l'.length := by
  induction h with
  | nil => rfl
  | cons _ _ ih => simp [ih]

theorem listRounds_fol (o : Bool) (n : Str) {l l' : List Value} (h : List.Forall₂ R l l') : ∀ i : Nat,
    List.Forall₂ (Bound R) (listRounds n o i l) (listRounds n o i l') := by
  induction h with
  | nil => intro i; exact .nil
  | cons h hl ih =>
    intro i
    rw [listRounds, listRounds, forall₂_length hl]
    exact .cons (.item ⟨by cases o <;> exact h, by cases o <;> rfl⟩) (ih _)

theorem mapRounds_fol (o : Bool) (k v : Str) {l l' : List (Str × Value)} (h : List.Forall₂ (fun p p' => p.1 = p'.1 ∧ R p.2 p'.2) l l') : ∀ i : Nat,
    List.Forall₂ (Bound R) (mapRounds k v o i l) (mapRounds k v o i l') := by
  induction h with
  | nil => intro i; exact .nil
  | @cons p p' l l' h hl ih =>
    intro i
    obtain ⟨k1, v1⟩ := p
    obtain ⟨k2, v2⟩ := p'
    obtain ⟨rfl, h⟩ : k1 = k2 ∧ R v1 v2 := h
    rw [mapRounds, mapRounds, forall₂_length hl]
    exact .cons (.entry ⟨by cases o <;> exact h, by cases o <;> rfl⟩) (ih _)

/-- Loops over the entries of a map occur only if `pairs`. -/
def LOk (pairs : Prop) : LoopVars → Prop
  | .item _ => True
  | .keyValue _ _ _ => pairs

theorem rounds_fol (hR : Matching R opt pairs) {env : Env} {src : Str} {vars : LoopVars} (hp : LOk pairs vars) {c c' : Cow} (hc : CR R c c')
    (sp : Span) : Fol (List.Forall₂ (Bound R)) (rounds env src vars c sp) (rounds env src vars c' sp) := by
  rw [rounds.eq_def, rounds.eq_def, ← hc.2]
  have hv := hc.1
  revert hv
  generalize c.val = v
  generalize c'.val = v'
  intro hv
  cases v with
  | list l =>
    obtain ⟨l', rfl, hl⟩ := hR.list hv
    cases vars with
    | keyValue _ _ _ => exact .fault
    | item i =>
      refine (Fol.refl (R := Eq) (fun _ => rfl) _).bind fun n _ _ e => ?_
      subst e
      exact .ok (listRounds_fol _ _ hl _)
  | map m =>
    obtain ⟨m', rfl, _, _, hm⟩ := hR.map hv
    cases vars with
    | item i => exact .fault
    | keyValue _ _ _ =>
      refine (Fol.refl (R := Eq) (fun _ => rfl) _).bind fun n _ _ e => ?_
      subst e
      refine (Fol.refl (R := Eq) (fun _ => rfl) _).bind fun n' _ _ e => ?_
      subst e
      exact .ok (mapRounds_fol _ _ _ (hm hp) _)
  | _ => cases vars <;> exact .fault

mutual
/-- Accesses and loops in a statement are as `opt` and `pairs` say. -/
def SOk (opt : Str → Prop) (pairs : Prop) (src : Str) : Stmt → Prop
  | .raw _ => True
  | .inlineExpr e _ => ∀ v ∈ exprVars e, VOk opt src v
  | .include_ _ none => True
  | .include_ _ (some e) => ∀ v ∈ exprVars e, VOk opt src v
  | .ifElse _ e t none => (∀ v ∈ exprVars e, VOk opt src v) ∧ SsOk opt pairs src t
  | .ifElse _ e t (some f) => (∀ v ∈ exprVars e, VOk opt src v) ∧ SsOk opt pairs src t ∧ SsOk opt pairs src f
  | .forLoop vars e b => LOk pairs vars ∧ (∀ v ∈ exprVars e, VOk opt src v) ∧ SsOk opt pairs src b
  | .with_ e _ b => (∀ v ∈ exprVars e, VOk opt src v) ∧ SsOk opt pairs src b
def SsOk (opt : Str → Prop) (pairs : Prop) (src : Str) : List Stmt → Prop
  | [] => True
  | s :: ss => SOk opt pairs src s ∧ SsOk opt pairs src ss
end

def Inc (R : Value → Value → Prop) (opt : Str → Prop) (Q : σ → σ → Prop) (q : Quirks) (env : Env) (inc : Include σ) : Prop :=
  ∀ a src name (ρ ρ' : Scope) w w', Scoped R opt q env ρ ρ' → WQ Q w w' → FolR (WQ Q) (inc a src name ρ w) (inc a src name ρ' w')

mutual
theorem evalStmt_fol (hR : Matching R opt pairs) {q : Quirks} {cfg : RenderCfg σ} (hfs : FiltersFollow R cfg.functions) (hQ : OutMatch R cfg Q)
    {inc : Include σ} (hi : Inc R opt Q q cfg.env inc) {src : Str} (name : Option Str) : ∀ (s : Stmt) (ρ ρ' : Scope) (w w' : World σ),
    Scoped R opt q cfg.env ρ ρ' → WQ Q w w' → SOk opt pairs src s →
    FolR (WQ Q) (evalStmt q cfg inc name src ρ s w) (evalStmt q cfg inc name src ρ' s w')
  | .raw sp, ρ, ρ', w, w', _, hw, _ => by
    rw [evalStmt, evalStmt]
    refine .andThen (Fol.refl (R := Eq) (fun _ => rfl) _) fun t _ _ e => ?_
    subst e
    intro x hx
    have hr := hQ.raw _ _ t hw.1
    revert hx hr
    cases cfg.sink.write w.out t with
    | mk o b =>
      cases b with
      | false => intro hx; cases hx
      | true =>
        intro hx hr
        cases hx
        obtain ⟨h1, h2⟩ := hr rfl
        revert h1 h2
        cases cfg.sink.write w'.out t with
        | mk o' b' => intro h1 h2; cases h1; exact ⟨_, rfl, h2, hw.2⟩
  | .inlineExpr e sp, ρ, ρ', w, w', h, hw, hs => by
    rw [evalStmt, evalStmt]; rw [SOk] at hs; exact emitExpr_fol hR hfs hQ h name hs hw
  | .include_ n none, ρ, ρ', w, w', h, hw, _ => by rw [evalStmt, evalStmt]; exact hi n src name ρ ρ' w w' h hw
  | .include_ n (some e), ρ, ρ', w, w', h, hw, hs => by
    rw [evalStmt, evalStmt]; rw [SOk] at hs
    exact .andThen (evalExpr_fol hR hfs h hs) fun c c' _ hc => hi n src name _ _ w w' (.walled hc) hw
  | .ifElse neg e t none, ρ, ρ', w, w', h, hw, hs => by
    rw [evalStmt, evalStmt]; rw [SOk] at hs
    refine .andThen (evalExpr_fol hR hfs h hs.1) fun c c' _ hc => ?_
    rw [hR.truthy hc.1]
    split
    · exact evalStmts_fol hR hfs hQ hi name t ρ ρ' w w' h hw hs.2
    · exact .ok hw
  | .ifElse neg e t (some f), ρ, ρ', w, w', h, hw, hs => by
    rw [evalStmt, evalStmt]; rw [SOk] at hs
    refine .andThen (evalExpr_fol hR hfs h hs.1) fun c c' _ hc => ?_
    rw [hR.truthy hc.1]
    split
    · exact evalStmts_fol hR hfs hQ hi name t ρ ρ' w w' h hw hs.2.1
    · exact evalStmts_fol hR hfs hQ hi name f ρ ρ' w w' h hw hs.2.2
  | .forLoop vars e body, ρ, ρ', w, w', h, hw, hs => by
    rw [evalStmt, evalStmt]; rw [SOk] at hs
    refine .andThen (evalExpr_fol hR hfs h hs.2.1) fun c c' _ hc => ?_
    refine .andThen (rounds_fol hR hs.1 hc _) fun bs bs' _ hb => ?_
    exact FolR.each (R := Bound R) (fun b b' hb w w' hw => evalStmts_fol hR hfs hQ hi name body _ _ w w' (.cons hb h) hw hs.2.2) hb w w' hw
  | .with_ e n body, ρ, ρ', w, w', h, hw, hs => by
    rw [evalStmt, evalStmt]; rw [SOk] at hs
    refine .andThen (evalExpr_fol hR hfs h hs.1) fun c c' _ hc => ?_
    exact evalStmts_fol hR hfs hQ hi name body _ _ w w' (.cons (.name hc) h) hw hs.2
theorem evalStmts_fol (hR : Matching R opt pairs) {q : Quirks} {cfg : RenderCfg σ} (hfs : FiltersFollow R cfg.functions) (hQ : OutMatch R cfg Q)
    {inc : Include σ} (hi : Inc R opt Q q cfg.env inc) {src : Str} (name : Option Str) : ∀ (ss : List Stmt) (ρ ρ' : Scope) (w w' : World σ),
    Scoped R opt q cfg.env ρ ρ' → WQ Q w w' → SsOk opt pairs src ss →
    FolR (WQ Q) (evalStmts q cfg inc name src ρ ss w) (evalStmts q cfg inc name src ρ' ss w')
  | [], ρ, ρ', w, w', _, hw, _ => by rw [evalStmts, evalStmts]; exact .ok hw
  | s :: ss, ρ, ρ', w, w', h, hw, hs => by
    rw [evalStmts, evalStmts]; rw [SsOk] at hs
    exact (evalStmt_fol hR hfs hQ hi name s ρ ρ' w w' h hw hs.1).seq fun w w' hw => evalStmts_fol hR hfs hQ hi name ss ρ ρ' w w' h hw hs.2
end

theorem include_fol (hR : Matching R opt pairs) {q : Quirks} {cfg : RenderCfg σ} (hfs : FiltersFollow R cfg.functions) (hQ : OutMatch R cfg Q)
    {tree : Template → Tree} (ht : ∀ t, Includable cfg t → SsOk opt pairs (tree t).source (tree t).body) (left : Nat) :
    Inc R opt Q q cfg.env (include_ q cfg tree left) := by
  have hfind : ∀ (src : Str) (a : AstString) {w w' : World σ}, WQ Q w w' →
      (find cfg src a w).2 = (find cfg src a w').2 ∧ WQ Q (find cfg src a w).1 (find cfg src a w').1 := by
    intro src a w w' hw
    rw [find, find]
    cases cfg.templateFn with
    | none => exact ⟨rfl, hw⟩
    | some f => exact ⟨by dsimp only; rw [hw.2], hw.1, by dsimp only; rw [hw.2]⟩
  induction left with
  | zero =>
    intro a src name ρ ρ' w w' _ hw x hx
    rw [include_] at hx
    cases hf : find cfg src a w with
    | mk w1 r => rw [hf] at hx; cases r <;> cases hx
  | succ n ih =>
    intro a src name ρ ρ' w w' h hw
    rw [include_, include_]
    have hff := hfind src a hw
    cases hf : find cfg src a w with
    | mk w1 r =>
      cases hf' : find cfg src a w' with
      | mk w1' r' =>
        rw [hf, hf'] at hff
        obtain ⟨rfl, hw1⟩ : r = r' ∧ WQ Q w1 w1' := hff
        cases r with
        | err e => intro x hx; cases hx
        | crash => intro x hx; cases hx
        | ok t => exact evalStmts_fol hR hfs hQ ih (some a.name) _ ρ ρ' w1 w1' h hw1 (ht t (find_includable hf))

theorem render_fol (hR : Matching R opt pairs) {q : Quirks} {cfg : RenderCfg σ} (hfs : FiltersFollow R cfg.functions) (hQ : OutMatch R cfg Q)
    {tree : Template → Tree} (ht : ∀ t, Includable cfg t → SsOk opt pairs (tree t).source (tree t).body) {T : Tree}
    (hT : SsOk opt pairs T.source T.body) (name : Option Str) {b b' : Binding} (hb : Scoped R opt q cfg.env [b] [b']) {w w' : World σ}
    (hw : WQ Q w w') : FolR (WQ Q) (Spec.render q cfg tree T name [b] w) (Spec.render q cfg tree T name [b'] w') :=
  evalStmts_fol hR hfs hQ (include_fol hR hfs hQ ht _) name _ _ _ w w' hb hw hT

end Rel
end Upon
