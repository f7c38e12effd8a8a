import Verif.Spec.Shapes
import Verif.Proofs.Plain
import Verif.Props.Filters
/-
C65: templates that fit their data do not fail.
-/
namespace Upon.Plain
open Spec

/-- A value of the shape, borrowed if so marked. -/
def Fit1 (l : Bool) (s : Shape) (c : Cow) : Prop := s c.val ∧ (l = true → ∃ x, c = .borrowed x)

/-- The scope is as is known of it. -/
def Fit : Binding → Slot → Prop
  | .globals c, .globals l s => Fit1 l s c
  | .provider f, .answers A => ∀ p s, A p = some s → ∃ x, f p = .ok x ∧ s x
  | .name nf c, .name n l s => nf [] = some n ∧ Fit1 l s c
  | .item n' c _ _, .item n l s => n' = n ∧ Fit1 l s c
  | .entry k' v' _ c _ _, .entry k v l s => k' = k ∧ v' = v ∧ Fit1 l s c
  | .wall, .wall => True
  | _, _ => False

theorem like_val (c : Cow) (v : Value) : (like c v).val = v := by cases c <;> rfl

theorem like_lent {c : Cow} {l : Bool} (h : l = true → ∃ x, c = .borrowed x) (v : Value) : l = true → ∃ x, like c v = .borrowed x := by
  intro hl
  obtain ⟨x, rfl⟩ := h hl
  exact ⟨v, rfl⟩

/-- How `follow` and `walk` agree. -/
def Concur (r : Res (Option Value)) (o : Option Value) (direct : Prop) : Prop :=
  match r with
  | .ok (some w) => o = some w
  | .ok none => o = some .none ∧ ¬ direct
  | _ => o = none

theorem follow_walk : ∀ (ms : List ValueMember) (v : Value), Concur (follow v ms) (walk v ms) (∀ m ∈ ms, m.op = .direct)
  | [], v => by simp [follow, walk, Concur]
  | ⟨op, .key k⟩ :: ms, v => by
    cases v with
    | map m =>
      rw [follow, walk]
      simp only [lookup]
      cases h : BMap.get m k with
      | some x =>
        have ih := follow_walk ms x
        dsimp only
        cases hf : follow x ms with
        | ok o =>
          rw [hf] at ih
          cases o with
          | some w => exact ih
          | none => exact ⟨ih.1, fun hd => ih.2 fun m hm => hd m (by simp [hm])⟩
        | err e => rw [hf] at ih; exact ih
        | crash => rw [hf] at ih; exact ih
      | none =>
        cases op with
        | direct => rfl
        | optional => exact ⟨rfl, fun hd => by have := hd _ List.mem_cons_self; cases this⟩
    | _ => rfl
  | ⟨op, .index i⟩ :: ms, v => by
    cases v with
    | list l =>
      rw [follow, walk]
      simp only [lookup]
      cases h : l[i]? with
      | some x =>
        have ih := follow_walk ms x
        dsimp only
        cases hf : follow x ms with
        | ok o =>
          rw [hf] at ih
          cases o with
          | some w => exact ih
          | none => exact ⟨ih.1, fun hd => ih.2 fun m hm => hd m (by simp [hm])⟩
        | err e => rw [hf] at ih; exact ih
        | crash => rw [hf] at ih; exact ih
      | none =>
        cases op with
        | direct => rfl
        | optional => exact ⟨rfl, fun hd => by have := hd _ List.mem_cons_self; cases this⟩
    | _ => rfl

theorem follow_cow {c : Cow} {ms : List ValueMember} {w : Value} (h : walk c.val ms = some w) :
    ∃ d, followCow c ms = .ok d ∧ d.val = w ∧ ∀ {l : Bool}, (l = true → ∃ x, c = .borrowed x) → l = true → ∃ x, d = .borrowed x := by
  have ha := follow_walk ms c.val
  rw [followCow]
  cases hf : follow c.val ms with
  | ok o =>
    rw [hf] at ha
    cases o with
    | some v =>
      have e : walk c.val ms = some v := ha
      rw [h] at e; cases e
      exact ⟨_, rfl, like_val _ _, fun hl => like_lent hl _⟩
    | none =>
      have e : walk c.val ms = some .none := ha.1
      rw [h] at e; cases e
      exact ⟨_, rfl, rfl, fun _ _ => ⟨_, rfl⟩⟩
  | err e => rw [hf] at ha; have e : walk c.val ms = none := ha; rw [h] at e; cases e
  | crash => rw [hf] at ha; have e : walk c.val ms = none := ha; rw [h] at e; cases e

theorem follow_cow_walk {c d : Cow} {ms : List ValueMember} (h : followCow c ms = .ok d) : walk c.val ms = some d.val := by
  have ha := follow_walk ms c.val
  rw [followCow] at h
  cases hf : follow c.val ms with
  | ok o =>
    rw [hf] at ha h
    cases o with
    | some v =>
      have e : walk c.val ms = some v := ha
      cases h
      rw [e, like_val]
    | none =>
      have e : walk c.val ms = some .none := ha.1
      cases h
      exact e
  | err e => rw [hf] at h; cases h
  | crash => rw [hf] at h; cases h

theorem follow_item {c : Cow} {ms : List ValueMember} (hd : ∀ m ∈ ms, m.op = .direct) {w : Value} (h : walk c.val ms = some w) :
    followItem c ms = .ok (some (like c w)) := by
  have ha := follow_walk ms c.val
  rw [followItem]
  cases hf : follow c.val ms with
  | ok o =>
    rw [hf] at ha
    cases o with
    | some v =>
      have e : walk c.val ms = some v := ha
      rw [h] at e; cases e
      rfl
    | none => exact absurd hd ha.2
  | err e => rw [hf] at ha; have e : walk c.val ms = none := ha; rw [h] at e; cases e
  | crash => rw [hf] at ha; have e : walk c.val ms = none := ha; rw [h] at e; cases e

theorem follow_item_walk {c d : Cow} {ms : List ValueMember} (h : followItem c ms = .ok (some d)) : walk c.val ms = some d.val := by
  have ha := follow_walk ms c.val
  rw [followItem] at h
  cases hf : follow c.val ms with
  | ok o =>
    rw [hf] at ha h
    cases o with
    | some v =>
      have e : walk c.val ms = some v := ha
      cases h
      rw [e, like_val]
    | none => cases h
  | err e => rw [hf] at h; cases h
  | crash => rw [hf] at h; cases h

theorem loop_walk {ms : List ValueMember} (hm : ms = [] ∨ ∃ k, ms = [⟨.direct, .key k⟩]) {i r : Nat} {w : Value} (h : walk (loopMap i r) ms = some w) :
    ∃ c, loopInfo i r ms = .ok (some c) ∧ c.val = w := by
  rcases hm with rfl | ⟨k, rfl⟩
  · rw [walk] at h
    cases h
    exact ⟨_, rfl, by rw [loopMap_eq]; rfl⟩
  · rw [loopMap_eq, walk] at h
    by_cases h1 : k = "index".toList
    · subst h1
      exact ⟨_, rfl, by cases h; rfl⟩
    · by_cases h2 : k = "first".toList
      · subst h2
        exact ⟨_, rfl, by cases h; rfl⟩
      · by_cases h3 : k = "last".toList
        · subst h3
          exact ⟨_, rfl, by cases h; rfl⟩
        · have e : BMap.get [("first".toList, Value.bool (i == 0)), ("index".toList, .integer i), ("last".toList, .bool (r == 0))] k = none := by
            simp only [BMap.get, Ne.symm h1, Ne.symm h2, Ne.symm h3, if_false]
          rw [e] at h
          cases h

theorem get_silent {b : Binding} {x : Slot} (h : Fit b x) {a : Str} (hs : x.Silent a) (ms : List ValueMember) :
    get b a ⟨.direct, .key a⟩ ms = .ok none := by
  cases x with
  | name n l s =>
    cases b <;> simp only [Fit] at h
    have : ¬ (some n = some a) := fun e => hs (by cases e; rfl)
    rw [get, h.1, if_neg this]
  | item n l s =>
    cases b <;> simp only [Fit] at h
    obtain ⟨rfl, _⟩ := h
    rw [get]
    dsimp only
    rw [if_neg hs.1, if_neg hs.2]
  | entry k v l s =>
    cases b <;> simp only [Fit] at h
    obtain ⟨rfl, rfl, _⟩ := h
    rw [get.eq_def]
    dsimp only
    rw [if_neg hs.1, if_neg hs.2.1, if_neg hs.2.2]
  | _ => exact hs.elim

theorem resolve_of {b : Binding} {ρ : Scope} {a : Str} {f : ValueMember} {ms : List ValueMember} {c : Cow} (h : get b a f ms = .ok (some c)) :
    resolve (b :: ρ) a f ms = .ok c := by rw [resolve, h]; rfl

theorem resolve_outer {b : Binding} {ρ : Scope} {a : Str} {f : ValueMember} {ms : List ValueMember} (h : get b a f ms = .ok none) :
    resolve (b :: ρ) a f ms = resolve ρ a f ms := by rw [resolve, h]; rfl

theorem walk_first {v : Value} {a : Str} {ms : List ValueMember} {w : Value} (h : walk v (⟨.direct, .key a⟩ :: ms) = some w) :
    ∃ x, lookup v ⟨.direct, .key a⟩ = .ok (some x) ∧ walk x ms = some w := by
  cases v with
  | map m =>
    rw [walk] at h
    cases hg : BMap.get m a with
    | some x => rw [hg] at h; exact ⟨x, by simp [lookup, hg], h⟩
    | none => rw [hg] at h; cases h
  | _ => simp [walk] at h

theorem first_walk {v x : Value} {a : Str} (h : lookup v ⟨.direct, .key a⟩ = .ok (some x)) (ms : List ValueMember) :
    walk v (⟨.direct, .key a⟩ :: ms) = walk x ms := by
  cases v with
  | map m =>
    rw [walk]
    simp only [lookup] at h
    cases hg : BMap.get m a with
    | some y => rw [hg] at h; cases h; rfl
    | none => rw [hg] at h; cases h
  | _ => simp [lookup, fail] at h

theorem sees {Γ : List Slot} {a : Str} {ms : List ValueMember} {l : Bool} {u : Shape} (h : Sees Γ a ms l u) :
    ∀ {ρ : Scope}, List.Forall₂ Fit ρ Γ → ∃ c, resolve ρ a ⟨.direct, .key a⟩ ms = .ok c ∧ Fit1 l u c := by
  induction h with
  | globals h =>
    intro ρ hρ
    cases hρ with
    | @cons b _ ρ _ hb _ =>
    cases b <;> simp only [Fit] at hb
    rename_i c
    obtain ⟨w, hw, hu⟩ := h _ hb.1
    obtain ⟨x, h1, h2⟩ := walk_first hw
    obtain ⟨d, h3, h4, h5⟩ := follow_cow (c := like c x) (by rw [like_val]; exact h2)
    refine ⟨d, resolve_of ?_, by rw [h4]; exact hu, h5 (like_lent hb.2 _)⟩
    simp only [get, h1, h3, Res.ok_bind]
  | answers h =>
    intro ρ hρ
    cases hρ with
    | @cons b _ ρ _ hb _ =>
    cases b <;> simp only [Fit] at hb
    obtain ⟨x, h1, h2⟩ := hb _ _ h
    exact ⟨.owned x, resolve_of (by simp only [get, h1]), h2, fun h => by cases h⟩
  | name h =>
    intro ρ hρ
    cases hρ with
    | @cons b _ ρ _ hb _ =>
    cases b <;> simp only [Fit] at hb
    obtain ⟨w, hw, hu⟩ := h _ hb.2.1
    obtain ⟨d, h3, h4, h5⟩ := follow_cow hw
    refine ⟨d, resolve_of ?_, by rw [h4]; exact hu, h5 hb.2.2⟩
    rw [get, hb.1, if_pos rfl, h3]; rfl
  | item hl hd h =>
    intro ρ hρ
    cases hρ with
    | @cons b _ ρ _ hb _ =>
    cases b <;> simp only [Fit] at hb
    obtain ⟨rfl, hb⟩ := hb
    obtain ⟨w, hw, hu⟩ := h _ hb.1
    refine ⟨_, resolve_of ?_, by rw [like_val]; exact hu, like_lent hb.2 _⟩
    rw [get]
    dsimp only
    rw [if_neg hl, if_pos rfl, follow_item hd hw]
  | key hl =>
    intro ρ hρ
    cases hρ with
    | @cons b _ ρ _ hb _ =>
    cases b <;> simp only [Fit] at hb
    obtain ⟨rfl, rfl, hb⟩ := hb
    rename_i key c _ _
    refine ⟨.owned (.string key), resolve_of ?_, ⟨key, rfl⟩, fun h => by cases h⟩
    rw [get]
    dsimp only
    rw [if_neg hl, if_pos rfl]
  | value hl hk hd h =>
    intro ρ hρ
    cases hρ with
    | @cons b _ ρ _ hb _ =>
    cases b <;> simp only [Fit] at hb
    obtain ⟨rfl, rfl, hb⟩ := hb
    obtain ⟨w, hw, hu⟩ := h _ hb.1
    refine ⟨_, resolve_of ?_, by rw [like_val]; exact hu, like_lent hb.2 _⟩
    rw [get.eq_def]
    dsimp only
    rw [if_neg hl, if_neg hk, if_pos rfl, follow_item hd hw]
  | loopItem hm h =>
    intro ρ hρ
    cases hρ with
    | @cons b _ ρ _ hb _ =>
    cases b <;> simp only [Fit] at hb
    rename_i i r
    obtain ⟨w, hw, hu⟩ := h i r
    obtain ⟨c, h1, rfl⟩ := loop_walk hm hw
    refine ⟨c, resolve_of ?_, hu, fun h => by cases h⟩
    rw [get.eq_def]
    dsimp only
    rw [if_pos rfl, h1]
  | loopEntry hm h =>
    intro ρ hρ
    cases hρ with
    | @cons b _ ρ _ hb _ =>
    cases b <;> simp only [Fit] at hb
    rename_i i r
    obtain ⟨w, hw, hu⟩ := h i r
    obtain ⟨c, h1, rfl⟩ := loop_walk hm hw
    refine ⟨c, resolve_of ?_, hu, fun h => by cases h⟩
    rw [get.eq_def]
    dsimp only
    rw [if_pos rfl, h1]
  | outer hs _ ih =>
    intro ρ hρ
    cases hρ with
    | @cons b _ ρ _ hb hρ =>
    obtain ⟨c, h1, h2⟩ := ih hρ
    exact ⟨c, by rw [resolve_outer (get_silent hb hs _)]; exact h1, h2⟩

theorem learns {b : Bool} {Γ : List Slot} {a : Str} {ms : List ValueMember} {Γ' : List Slot} (h : Learns b Γ a ms Γ') :
    ∀ {ρ : Scope} {c : Cow}, List.Forall₂ Fit ρ Γ → resolve ρ a ⟨.direct, .key a⟩ ms = .ok c → truthy c.val = b → List.Forall₂ Fit ρ Γ' := by
  induction h with
  | globals =>
    intro ρ c hρ hr ht
    cases hρ with
    | @cons x _ ρ _ hb hρ =>
    cases x <;> simp only [Fit] at hb
    rename_i d
    refine .cons ⟨⟨hb.1, fun w hw => ?_⟩, hb.2⟩ hρ
    obtain ⟨y, h1, h2⟩ := walk_first hw
    obtain ⟨e, h3, h4, _⟩ := follow_cow (c := like d y) (by rw [like_val]; exact h2)
    rw [resolve_of (c := e) (by simp only [get, h1, h3, Res.ok_bind])] at hr
    cases hr
    rw [← h4]; exact ht
  | name =>
    intro ρ c hρ hr ht
    cases hρ with
    | @cons x _ ρ _ hb hρ =>
    cases x <;> simp only [Fit] at hb
    rename_i nf d
    refine .cons ⟨hb.1, ⟨hb.2.1, fun w hw => ?_⟩, hb.2.2⟩ hρ
    obtain ⟨e, h3, h4, _⟩ := follow_cow hw
    rw [resolve_of (c := e) (by rw [get, hb.1, if_pos rfl, h3]; rfl)] at hr
    cases hr
    rw [← h4]; exact ht
  | item hl hd =>
    intro ρ c hρ hr ht
    cases hρ with
    | @cons x _ ρ _ hb hρ =>
    cases x <;> simp only [Fit] at hb
    obtain ⟨rfl, hb⟩ := hb
    rename_i d i r
    refine .cons ⟨rfl, ⟨hb.1, fun w hw => ?_⟩, hb.2⟩ hρ
    rw [resolve_of (c := like d w) (by rw [get]; dsimp only; rw [if_neg hl, if_pos rfl, follow_item hd hw])] at hr
    cases hr
    rw [like_val] at ht; exact ht
  | value hl hk hd =>
    intro ρ c hρ hr ht
    cases hρ with
    | @cons x _ ρ _ hb hρ =>
    cases x <;> simp only [Fit] at hb
    obtain ⟨rfl, rfl, hb⟩ := hb
    rename_i d i r
    refine .cons ⟨rfl, rfl, ⟨hb.1, fun w hw => ?_⟩, hb.2⟩ hρ
    rw [resolve_of (c := like d w) (by rw [get.eq_def]; dsimp only; rw [if_neg hl, if_neg hk, if_pos rfl, follow_item hd hw])] at hr
    cases hr
    rw [like_val] at ht; exact ht
  | outer hs _ ih =>
    intro ρ c hρ hr ht
    cases hρ with
    | @cons x _ ρ _ hb hρ =>
    rw [resolve_outer (get_silent hb hs _)] at hr
    exact .cons hb (ih hρ hr ht)

theorem knows {b : Bool} {Γ Γ' : List Slot} {e : Expr} (h : Knows b Γ e Γ') {cfg : Cfg} {ρ : Scope} {c : Cow} (hρ : List.Forall₂ Fit ρ Γ)
    (hr : evalExpr cfg ρ e = .ok c) (ht : truthy c.val = b) : List.Forall₂ Fit ρ Γ' := by
  cases h with
  | nothing => exact hρ
  | var h => exact learns h hρ hr ht

/-- What the configuration has to do with the surroundings. -/
structure Around (G : Surroundings) (cfg : Cfg) : Prop where
  env : G.env = cfg.env
  function : ∀ n, G.function n = BMap.get cfg.functions n
  default : G.default = cfg.defaultFormatter
  template : ∀ n body, G.template n body → ∀ asked, cfg.find asked n = .ok body

theorem offer_lent {env : Env} {w : Role} {l : Bool} {t : ArgTy} {v : Value} {a : ArgVal} (h : Converts env t v a) (hl : ByRef t → l = true) :
    offer env w l t v = .ok a := by
  rw [offer, (accepts_iff t v a).mpr h]
  dsimp only
  rw [if_neg (fun ⟨h1, h2⟩ => by rw [hl h1] at h2; cases h2)]

theorem arg_shapes {Γ : List Slot} {ts : List ArgTy} {bs : List Base} {ss : List Shape} (h : ArgShapes Γ ts bs ss) {ρ : Scope} (hρ : List.Forall₂ Fit ρ Γ) :
    bs.length = ts.length ∧ ∃ vs, List.Forall₂ (fun (s : Shape) v => s v) ss vs ∧ ∀ (env : Env) as,
      List.Forall₂ (fun (p : ArgTy × Value) x => Converts env p.1 p.2 x) (ts.zip vs) as → evalArgs env ρ ts bs = .ok as := by
  induction h with
  | nil => exact ⟨rfl, [], .nil, fun env as h => by cases h; rfl⟩
  | @var t ts a ms l s bs ss hs hl _ ih =>
    obtain ⟨h1, vs, h2, h3⟩ := ih
    obtain ⟨c, hc, hu, hb⟩ := sees hs hρ
    refine ⟨by simp [h1], c.val :: vs, .cons hu h2, fun env as h => ?_⟩
    cases h with
    | @cons _ x _ as hx hxs =>
    have e : evalArg env ρ t (.var a ⟨.direct, .key a⟩ ms) = .ok x := by
      rw [evalArg, hc, Res.ok_bind]
      cases c with
      | borrowed y =>
        dsimp only
        rw [offer_lent (t := t) (v := y) (a := x) hx (fun _ => rfl)]
      | owned y =>
        have : ¬ ByRef t := fun hr => by obtain ⟨z, hz⟩ := hb (hl hr); cases hz
        dsimp only
        rw [offer_lent (t := t) (v := y) (a := x) hx (fun h => absurd h this)]
    rw [evalArgs, e, h3 env as hxs]
    rfl
  | @lit t ts v s bs ss hs _ ih =>
    obtain ⟨h1, vs, h2, h3⟩ := ih
    refine ⟨by simp [h1], v :: vs, .cons hs h2, fun env as h => ?_⟩
    cases h with
    | @cons _ x _ as hx hxs =>
    have e : evalArg env ρ t (.lit v) = .ok x := by
      rw [evalArg, offer_lent (t := t) (v := v) (a := x) hx (fun _ => rfl)]
    rw [evalArgs, e, h3 env as hxs]
    rfl

theorem apply_total {Γ : List Slot} {f : Filter} {bs : List Base} {s t : Shape} {ss : List Shape} (h : ArgShapes Γ f.args bs ss) {env : Env}
    (hf : Total env f s ss t) {ρ : Scope} (hρ : List.Forall₂ Fit ρ Γ) {c : Cow} (hc : s c.val) : ∃ r, applyFilter env ρ f c bs = .ok r ∧ t r := by
  obtain ⟨h1, vs, h2, h3⟩ := arg_shapes h hρ
  obtain ⟨a, as, r, k1, k2, k3, k4⟩ := hf _ _ hc h2
  refine ⟨r, ?_, k4⟩
  rw [applyFilter, if_neg (not_not.mpr h1), offer_lent k1 (fun _ => rfl)]
  dsimp only
  rw [h3 env as k2, Res.ok_bind, k3]

theorem has_shape {G : Surroundings} {cfg : Cfg} (hG : Around G cfg) {Γ : List Slot} {e : Expr} {l : Bool} {s : Shape} (h : HasShape G Γ e l s) {ρ : Scope}
    (hρ : List.Forall₂ Fit ρ Γ) : ∃ c, evalExpr cfg ρ e = .ok c ∧ Fit1 l s c := by
  induction h with
  | var h => exact sees h hρ
  | @lit v s h => exact ⟨.owned v, rfl, h, fun h => by cases h⟩
  | @call n args e l f s ss t _ hf ha ht ih =>
    obtain ⟨c, h1, h2, _⟩ := ih
    rw [hG.env] at ht
    obtain ⟨r, h3, h4⟩ := apply_total ha ht hρ h2
    refine ⟨.owned r, ?_, h4, fun h => by cases h⟩
    rw [evalExpr, h1, Res.ok_bind, ← hG.function, hf]
    dsimp only
    rw [h3, Res.ok_bind]

/-- It succeeds. -/
def Succeeds (r : RunRes Str) : Prop := ∃ w, r = .ok w

theorem write_shows {f : Formatter} {v : Value} (h : Shows f v) (name : Option Str) (w : World Str) : Succeeds (write name f v w) := by
  obtain ⟨o, ho⟩ := h w.out
  exact ⟨{ w with out := o }, by rw [write, ho]⟩

theorem seq_ok {r : RunRes Str} {k : World Str → RunRes Str} (h : Succeeds r) (hk : ∀ w, Succeeds (k w)) : Succeeds (seq r k) := by
  obtain ⟨w, rfl⟩ := h
  exact hk w

theorem each_ok {α : Type} {f : α → World Str → RunRes Str} : ∀ {l : List α}, (∀ a ∈ l, ∀ w, Succeeds (f a w)) → ∀ w, Succeeds (forEach f l w)
  | [], _, w => ⟨w, rfl⟩
  | a :: l, h, w => by
    rw [forEach]
    exact seq_ok (h a (by simp) w) fun w => each_ok (fun b hb => h b (by simp [hb])) w

theorem list_fit {n : Str} {c : Cow} {l : Bool} {s : Shape} (hb : l = true → ∃ x, c = .borrowed x) : ∀ (xs : List Value) (i : Nat), (∀ x ∈ xs, s x) →
    ∀ b ∈ listRounds n (isOwned c) i xs, Fit b (.item n l s)
  | [], i, _, b, h => by simp [listRounds] at h
  | x :: xs, i, hx, b, h => by
    rw [listRounds, List.mem_cons] at h
    rcases h with rfl | h
    · refine ⟨rfl, ?_, fun hl => ?_⟩
      · cases c <;> exact hx x (by simp)
      · obtain ⟨y, rfl⟩ := hb hl
        exact ⟨x, rfl⟩
    · exact list_fit hb xs (i + 1) (fun y hy => hx y (by simp [hy])) b h

theorem map_fit {k v : Str} {c : Cow} {l : Bool} {s : Shape} (hb : l = true → ∃ x, c = .borrowed x) : ∀ (m : List (Str × Value)) (i : Nat),
    (∀ k x, (k, x) ∈ m → s x) → ∀ b ∈ mapRounds k v (isOwned c) i m, Fit b (.entry k v l s)
  | [], i, _, b, h => by simp [mapRounds] at h
  | (y, x) :: m, i, hx, b, h => by
    rw [mapRounds, List.mem_cons] at h
    rcases h with rfl | h
    · refine ⟨rfl, rfl, ?_, fun hl => ?_⟩
      · cases c <;> exact hx y x (by simp)
      · obtain ⟨z, rfl⟩ := hb hl
        exact ⟨x, rfl⟩
    · exact map_fit hb m (i + 1) (fun y z hy => hx y z (by simp [hy])) b h

theorem emit_ok {G : Surroundings} {cfg : Cfg} (hG : Around G cfg) {Γ : List Slot} {e : Expr} {l : Bool} {s : Shape} (h : HasShape G Γ e l s)
    (hs : ∀ v, s v → Shows G.default v) {ρ : Scope} (hρ : List.Forall₂ Fit ρ Γ) (name : Option Str) (w : World Str) : Succeeds (emitExpr cfg name ρ e w) := by
  obtain ⟨c, h1, h2, _⟩ := has_shape hG h hρ
  have hw : Succeeds (write name cfg.defaultFormatter c.val w) := write_shows (by rw [← hG.default]; exact hs _ h2) name w
  cases e with
  | base b => rw [emitExpr, h1]; exact hw; intros; contradiction
  | call n args recv =>
    cases args with
    | some as => rw [emitExpr, h1]; exact hw; intros; simp_all
    | none =>
      cases h with
      | @call _ _ _ l' f s' ss _ hr hf ha ht =>
      obtain ⟨d, k1, k2, _⟩ := has_shape hG hr hρ
      rw [hG.env] at ht
      obtain ⟨r, k3, k4⟩ := apply_total ha ht hρ k2
      rw [emitExpr, k1]
      simp only [andThen]
      rw [← hG.function, hf]
      have k3 : applyFilter cfg.env ρ f d [] = .ok r := k3
      simp only [k3]
      exact write_shows (by rw [← hG.default]; exact hs _ k4) name w

theorem works {G : Surroundings} {cfg : Cfg} (hG : Around G cfg) {k : Nat} {Γ : List Slot} {ss : List Stmt} (h : Works G k Γ ss) :
    ∀ {left : Nat} {ρ : Scope} (name : Option Str), k ≤ left → List.Forall₂ Fit ρ Γ → ∀ w, Succeeds (evalStmts cfg (include_ cfg left) name ρ ss w) := by
  induction h with
  | nil => intro left ρ name _ _ w; exact ⟨w, by rw [evalStmts]⟩
  | char _ ih =>
    intro left ρ name hk hρ w
    rw [evalStmts]
    exact seq_ok ⟨_, by rw [evalStmt]⟩ fun w => ih name hk hρ w
  | expr he hs _ ih =>
    intro left ρ name hk hρ w
    rw [evalStmts]
    refine seq_ok ?_ fun w => ih name hk hρ w
    rw [evalStmt]
    exact emit_ok hG he hs hρ name w
  | formatted he hf hs _ ih =>
    intro left ρ name hk hρ w
    rw [evalStmts]
    refine seq_ok ?_ fun w => ih name hk hρ w
    obtain ⟨c, h1, h2, _⟩ := has_shape hG he hρ
    rw [evalStmt, emitExpr, h1]
    simp only [andThen]
    rw [← hG.function, hf]
    exact write_shows (hs _ h2) name w
  | include_ hb _ _ ih ih' =>
    intro left ρ name hk hρ w
    rw [evalStmts]
    refine seq_ok ?_ fun w => ih' name hk hρ w
    rw [evalStmt, include_, hG.template _ _ hb]
    match left, hk with
    | left + 1, hk => exact ih _ (by omega) hρ _
  | includeWith he hb _ _ ih ih' =>
    intro left ρ name hk hρ w
    rw [evalStmts]
    refine seq_ok ?_ fun w => ih' name hk hρ w
    obtain ⟨c, h1, h2⟩ := has_shape hG he hρ
    rw [evalStmt, h1]
    simp only [andThen]
    rw [include_, hG.template _ _ hb]
    match left, hk with
    | left + 1, hk => exact ih (ρ := .globals c :: .wall :: ρ) _ (by omega) (.cons h2 (.cons trivial hρ)) _
  | @if_ _ _ _ neg _ _ _ _ _ he hn _ _ ih ih' =>
    intro left ρ name hk hρ w
    rw [evalStmts]
    refine seq_ok ?_ fun w => ih' name hk hρ w
    obtain ⟨c, h1, h2, _⟩ := has_shape hG he hρ
    rw [evalStmt, h1]
    simp only [andThen]
    by_cases ht : truthy c.val = neg
    · rw [if_neg (not_not.mpr ht)]; exact ⟨w, rfl⟩
    · rw [if_pos ht]
      exact ih name hk (knows hn hρ h1 (by revert ht; cases truthy c.val <;> cases neg <;> simp)) w
  | @ifElse _ _ _ _ neg _ _ _ _ _ _ he hn _ hn' _ _ ih ih2 ih' =>
    intro left ρ name hk hρ w
    rw [evalStmts]
    refine seq_ok ?_ fun w => ih' name hk hρ w
    obtain ⟨c, h1, h2, _⟩ := has_shape hG he hρ
    rw [evalStmt, h1]
    simp only [andThen]
    by_cases ht : truthy c.val = neg
    · rw [if_neg (not_not.mpr ht)]
      exact ih2 name hk (knows hn' hρ h1 ht) w
    · rw [if_pos ht]
      exact ih name hk (knows hn hρ h1 (by revert ht; cases truthy c.val <;> cases neg <;> simp)) w
  | for_ he _ _ ih ih' =>
    intro left ρ name hk hρ w
    rw [evalStmts]
    refine seq_ok ?_ fun w => ih' name hk hρ w
    obtain ⟨c, h1, ⟨xs, h2, h3⟩, h4⟩ := has_shape hG he hρ
    rw [evalStmt, h1]
    simp only [andThen, rounds, h2]
    exact each_ok (fun b hb w => ih name hk (.cons (list_fit h4 xs 0 h3 b hb) hρ) w) w
  | forMap he _ _ ih ih' =>
    intro left ρ name hk hρ w
    rw [evalStmts]
    refine seq_ok ?_ fun w => ih' name hk hρ w
    obtain ⟨c, h1, ⟨xs, h2, h3⟩, h4⟩ := has_shape hG he hρ
    rw [evalStmt, h1]
    simp only [andThen, rounds, h2]
    exact each_ok (fun b hb w => ih name hk (.cons (map_fit h4 xs 0 h3 b hb) hρ) w) w
  | with_ he _ _ ih ih' =>
    intro left ρ name hk hρ w
    rw [evalStmts]
    refine seq_ok ?_ fun w => ih' name hk hρ w
    obtain ⟨c, h1, h2⟩ := has_shape hG he hρ
    rw [evalStmt, h1]
    simp only [andThen]
    exact ih (ρ := .name (fun _ => some _) c :: ρ) name hk (.cons ⟨rfl, h2⟩ hρ) w

end Upon.Plain
