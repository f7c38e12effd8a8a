import Verif.Spec.Loops
import Verif.Proofs.Compose
/-
What does not ask for `loop` does not depend on it (for C68).
-/
namespace Upon
open Spec
namespace Plain

/-- All variables have the same values, except maybe those that start with `loop`. -/
def Unlooped (l : Bool) (ρ ρ' : Scope) : Prop :=
  ∀ n f r, (l = true → f.access ≠ .key "loop".toList) → resolve ρ n f r = resolve ρ' n f r

theorem Unlooped.cons {l : Bool} {ρ ρ' : Scope} (h : Unlooped l ρ ρ') (b : Binding) : Unlooped l (b :: ρ) (b :: ρ') := by
  intro n f r hf
  rw [resolve, resolve, h n f r hf]

theorem Unlooped.wall {l : Bool} (ρ ρ' : Scope) (c : Cow) : Unlooped l (.globals c :: .wall :: ρ) (.globals c :: .wall :: ρ') :=
  Unlooped.cons (fun _ _ _ _ => rfl) _

theorem loopInfo_some {i a : Nat} {ms : List ValueMember} : loopInfo i a ms ≠ .ok none := by
  cases ms with
  | nil => simp [loopInfo]
  | cons m ms =>
    rw [loopInfo]
    cases m.access with
    | index => simp [fail]
    | key k =>
      dsimp only
      generalize (if k = "index".toList then Res.ok (Value.integer ↑i)
        else if k = "first".toList then Res.ok (Value.bool (i == 0))
        else if k = "last".toList then Res.ok (Value.bool (a == 0))
        else if m.op = AccessOp.optional then Res.ok Value.none
        else fail "not found in map") = x
      cases x with
      | ok v => cases ms <;> simp [fail]
      | err => simp [Res.bind, bind]
      | crash => simp [Res.bind, bind]

/-- Inside a loop, `loop` is that of the loop. -/
theorem Unlooped.item {l : Bool} {ρ ρ' : Scope} (h : Unlooped l ρ ρ') (x : Str) (c : Cow) (i a : Nat) : Unlooped false (.item x c i a :: ρ) (.item x c i a :: ρ') := by
  intro n f r _
  by_cases hf : f.access = .key "loop".toList
  · rw [resolve, resolve]
    have : get (.item x c i a) n f r = loopInfo i a r := by simp only [get, hf, if_true]
    rw [this]
    have hn := loopInfo_some (i := i) (a := a) (ms := r)
    generalize loopInfo i a r = q at hn
    cases q with
    | ok o => cases o with
      | some c => rfl
      | none => exact absurd rfl hn
    | err => rfl
    | crash => rfl
  · exact h.cons _ n f r (fun _ => hf)

theorem Unlooped.entry {l : Bool} {ρ ρ' : Scope} (h : Unlooped l ρ ρ') (x y k : Str) (c : Cow) (i a : Nat) :
    Unlooped false (.entry x y k c i a :: ρ) (.entry x y k c i a :: ρ') := by
  intro n f r _
  by_cases hf : f.access = .key "loop".toList
  · rw [resolve, resolve]
    have : get (.entry x y k c i a) n f r = loopInfo i a r := by simp only [get, hf, if_true]
    rw [this]
    have hn := loopInfo_some (i := i) (a := a) (ms := r)
    generalize loopInfo i a r = q at hn
    cases q with
    | ok o => cases o with
      | some c => rfl
      | none => exact absurd rfl hn
    | err => rfl
    | crash => rfl
  · exact h.cons _ n f r (fun _ => hf)

/-- Two rounds with the same item. -/
theorem unlooped_item (ρ : Scope) (x : Str) (c : Cow) (i a i' a' : Nat) : Unlooped true (.item x c i a :: ρ) (.item x c i' a' :: ρ) := by
  intro n f r hf
  rw [resolve, resolve]
  have : get (.item x c i a) n f r = get (.item x c i' a') n f r := by
    simp only [get]
    cases hk : f.access with
    | index => rfl
    | key k =>
      have : k ≠ "loop".toList := fun e => hf rfl (by rw [hk, e])
      simp only [if_neg this]
  rw [this]

/-- Two rounds with the same entry. -/
theorem unlooped_entry (ρ : Scope) (x y k : Str) (c : Cow) (i a i' a' : Nat) : Unlooped true (.entry x y k c i a :: ρ) (.entry x y k c i' a' :: ρ) := by
  intro n f r hf
  rw [resolve, resolve]
  have : get (.entry x y k c i a) n f r = get (.entry x y k c i' a') n f r := by
    simp only [get]
    cases hk : f.access with
    | index => rfl
    | key k =>
      have : k ≠ "loop".toList := fun e => hf rfl (by rw [hk, e])
      simp only [if_neg this]
  rw [this]

variable {cfg : Cfg} {l : Bool} {ρ ρ' : Scope}

theorem base_unlooped (h : Unlooped l ρ ρ') {b : Base} (hb : l = true → b.AsksNoLoop) : evalBase ρ b = evalBase ρ' b := by
  cases b with
  | lit => rfl
  | var n f r => exact h n f r hb

theorem args_unlooped (env : Env) (h : Unlooped l ρ ρ') (ts : List ArgTy) {as : List Base} (ha : l = true → ∀ b ∈ as, b.AsksNoLoop) :
    evalArgs env ρ ts as = evalArgs env ρ' ts as := by
  induction as generalizing ts with
  | nil => cases ts <;> rfl
  | cons a as ih =>
    cases ts with
    | nil => rfl
    | cons t ts =>
      have : evalArg env ρ t a = evalArg env ρ' t a := by
        cases a with
        | lit => rfl
        | var n f r => rw [evalArg, evalArg, h n f r (fun e => ha e (.var n f r) (by simp))]
      rw [evalArgs, evalArgs, this, ih ts (fun e b hb => ha e b (by simp [hb]))]

theorem filter_unlooped (env : Env) (h : Unlooped l ρ ρ') (f : Filter) (v : Cow) {as : List Base} (ha : l = true → ∀ b ∈ as, b.AsksNoLoop) :
    applyFilter env ρ f v as = applyFilter env ρ' f v as := by
  rw [applyFilter, applyFilter, args_unlooped env h f.args ha]

theorem expr_unlooped (h : Unlooped l ρ ρ') {e : Expr} (he : l = true → e.AsksNoLoop) : evalExpr cfg ρ e = evalExpr cfg ρ' e := by
  match e with
  | .base b => rw [evalExpr, evalExpr]; exact base_unlooped h he
  | .call n args recv =>
    rw [evalExpr, evalExpr, expr_unlooped (e := recv) h (fun k => (he k).2)]
    congr 1
    funext v
    cases BMap.get cfg.functions n with
    | none => rfl
    | some f =>
      cases f with
      | formatter => rfl
      | filter f => dsimp only; rw [filter_unlooped cfg.env h f v (fun k => (he k).1)]

theorem emit_unlooped (h : Unlooped l ρ ρ') (name : Option Str) {e : Expr} (he : l = true → e.AsksNoLoop) (w : World Str) :
    emitExpr cfg name ρ e w = emitExpr cfg name ρ' e w := by
  rw [emitExpr.eq_def, emitExpr.eq_def]
  split
  · rename_i n recv
    rw [expr_unlooped (e := recv) h (fun k => (he k).2)]
    congr 1
    funext v
    cases BMap.get cfg.functions n with
    | none => rfl
    | some f =>
      cases f with
      | formatter => rfl
      | filter f => dsimp only; rw [filter_unlooped cfg.env h f v (as := []) (fun _ b hb => by simp at hb)]
  · rw [expr_unlooped h he]

theorem forEach_congr {α : Type} {f g : α → World Str → RunRes Str} {as : List α} (h : ∀ a ∈ as, ∀ w, f a w = g a w) (w : World Str) :
    forEach f as w = forEach g as w := by
  induction as generalizing w with
  | nil => rfl
  | cons a as ih =>
    rw [forEach, forEach, h a (by simp)]
    congr 1
    funext w
    exact ih (fun a ha => h a (by simp [ha])) w

theorem rounds_loops {vs : Vars} {c : Cow} {bs : List Binding} (h : rounds vs c = .ok bs) :
    ∀ b ∈ bs, (∃ n x i a, b = .item n x i a) ∨ ∃ k v key x i a, b = .entry k v key x i a := by
  have hl : ∀ n o i (xs : List Value), ∀ b ∈ listRounds n o i xs, ∃ n x i a, b = .item n x i a := by
    intro n o i xs
    induction xs generalizing i with
    | nil => simp [listRounds]
    | cons x xs ih =>
      intro b hb
      rw [listRounds, List.mem_cons] at hb
      rcases hb with rfl | hb
      · exact ⟨_, _, _, _, rfl⟩
      · exact ih _ b hb
  have hm : ∀ k v o i (xs : List (Str × Value)), ∀ b ∈ mapRounds k v o i xs, ∃ k v key x i a, b = .entry k v key x i a := by
    intro k v o i xs
    induction xs generalizing i with
    | nil => simp [mapRounds]
    | cons x xs ih =>
      intro b hb
      obtain ⟨key, x⟩ := x
      rw [mapRounds, List.mem_cons] at hb
      rcases hb with rfl | hb
      · exact ⟨_, _, _, _, _, _, rfl⟩
      · exact ih _ b hb
  unfold rounds at h
  split at h
  · cases h; intro b hb; exact .inl (hl _ _ _ _ b hb)
  · cases h
  · cases h; intro b hb; exact .inr (hm _ _ _ _ _ b hb)
  · cases h
  · cases h

section
variable {S : Str → Prop} {inc : Include}
  (hinc : ∀ l n name ρ ρ' w, Unlooped l ρ ρ' → (l = true → S n) → inc n name ρ w = inc n name ρ' w)
include hinc

mutual
theorem stmt_unlooped {l : Bool} {ρ ρ' : Scope} (name : Option Str) (h : Unlooped l ρ ρ') (s : Stmt) (hs : l = true → s.AsksNoLoop S) (w : World Str) :
    evalStmt cfg inc name ρ s w = evalStmt cfg inc name ρ' s w := by
  match s with
  | .char c => rw [evalStmt, evalStmt]
  | .expr e => rw [evalStmt, evalStmt]; exact emit_unlooped h name hs w
  | .include_ n none => rw [evalStmt, evalStmt]; exact hinc _ _ _ _ _ _ h hs
  | .include_ n (some e) =>
    rw [evalStmt, evalStmt, expr_unlooped (e := e) h hs]
    congr 1
    funext v
    exact hinc false _ _ _ _ _ (Unlooped.wall ρ ρ' v) nofun
  | .ifElse neg c t none =>
    rw [evalStmt, evalStmt, expr_unlooped (e := c) h (fun k => (hs k).1)]
    congr 1
    funext v
    rw [stmts_unlooped name h t (fun k => (hs k).2) w]
  | .ifElse neg c t (some e) =>
    rw [evalStmt, evalStmt, expr_unlooped (e := c) h (fun k => (hs k).1)]
    congr 1
    funext v
    rw [stmts_unlooped name h t (fun k => (hs k).2.1) w]
    rw [stmts_unlooped name h e (fun k => (hs k).2.2) w]
  | .forLoop vs e b =>
    rw [evalStmt, evalStmt, expr_unlooped (e := e) h hs]
    congr 1
    funext v
    cases hr : rounds vs v with
    | err => rfl
    | crash => rfl
    | ok bs =>
      refine forEach_congr (fun x hx w => ?_) w
      rcases rounds_loops hr x hx with ⟨n, y, i, a, rfl⟩ | ⟨k, u, key, y, i, a, rfl⟩
      · exact stmts_unlooped name (h.item n y i a) b nofun w
      · exact stmts_unlooped name (h.entry k u key y i a) b nofun w
  | .with_ e n b =>
    rw [evalStmt, evalStmt, expr_unlooped (e := e) h (fun k => (hs k).1)]
    congr 1
    funext v
    exact stmts_unlooped name (h.cons _) b (fun k => (hs k).2) w
theorem stmts_unlooped {l : Bool} {ρ ρ' : Scope} (name : Option Str) (h : Unlooped l ρ ρ') (ss : List Stmt) (hs : l = true → AllAskNoLoop S ss) (w : World Str) :
    evalStmts cfg inc name ρ ss w = evalStmts cfg inc name ρ' ss w := by
  match ss with
  | [] => rw [evalStmts, evalStmts]
  | s :: ss =>
    rw [evalStmts, evalStmts, stmt_unlooped name h s (fun k => (hs k).1) w]
    congr 1
    funext w
    exact stmts_unlooped name h ss (fun k => (hs k).2) w
end
end

/-- The templates in `S` do not ask for `loop`. -/
def LoopClosed (cfg : Cfg) (S : Str → Prop) : Prop := ∀ n, S n → ∀ a ss, cfg.find a n = .ok ss → AllAskNoLoop S ss

theorem include_unlooped {S : Str → Prop} (hS : LoopClosed cfg S) (left : Nat) : ∀ l n name ρ ρ' w, Unlooped l ρ ρ' → (l = true → S n) →
    include_ cfg left n name ρ w = include_ cfg left n name ρ' w := by
  induction left with
  | zero =>
    intro l n name ρ ρ' w h hs
    rw [include_, include_]
  | succ left ih =>
    intro l n name ρ ρ' w h hs
    rw [include_, include_]
    cases hf : cfg.find w.asked n with
    | error e => rfl
    | ok ss => exact stmts_unlooped ih (some n) h ss (fun k => hS n (hs k) _ ss hf) _

theorem forEach_append {α : Type} (f : α → World Str → RunRes Str) (a b : List α) (w : World Str) :
    forEach f (a ++ b) w = seq (forEach f a w) (forEach f b) := by
  induction a generalizing w with
  | nil => rfl
  | cons x a ih =>
    rw [List.cons_append, forEach, forEach]
    cases f x w with
    | ok w => exact ih w
    | err => rfl
    | crash => rfl

/-- A body that does not ask for `loop` does the same in each round, wherever the round is. -/
theorem forEach_list {f : Binding → World Str → RunRes Str} {n : Str} {o : Bool}
    (hf : ∀ c i a i' a' w, f (.item n c i a) w = f (.item n c i' a') w) (i : Nat) (xs : List Value) (w : World Str) :
    forEach f (listRounds n o i xs) w = forEach (fun x => f (.item n (if o then .owned x else .borrowed x) 0 0)) xs w := by
  induction xs generalizing i w with
  | nil => rfl
  | cons x xs ih =>
    rw [listRounds, forEach, forEach, hf _ _ _ 0 0]
    congr 1
    funext w
    exact ih _ w

theorem forEach_map {f : Binding → World Str → RunRes Str} {k v : Str} {o : Bool}
    (hf : ∀ key c i a i' a' w, f (.entry k v key c i a) w = f (.entry k v key c i' a') w) (i : Nat) (xs : List (Str × Value)) (w : World Str) :
    forEach f (mapRounds k v o i xs) w = forEach (fun x => f (.entry k v x.1 (if o then .owned x.2 else .borrowed x.2) 0 0)) xs w := by
  induction xs generalizing i w with
  | nil => rfl
  | cons x xs ih =>
    obtain ⟨key, x⟩ := x
    rw [mapRounds, forEach, forEach, hf _ _ _ _ 0 0]
    congr 1
    funext w
    exact ih _ w

/-- A loop over the whole is a loop over the first part and then one over the second. -/
theorem render_joined {S : Str → Prop} (hS : LoopClosed cfg S) {vs : Vars} {ea eb ec : Expr} {body : List Stmt} (hb : AllAskNoLoop S body) (name : Option Str) {ρ : Scope}
    {ca cb cc : Cow} (ha : evalExpr cfg ρ ea = .ok ca) (hb' : evalExpr cfg ρ eb = .ok cb) (hc : evalExpr cfg ρ ec = .ok cc)
    (oa : isOwned ca = isOwned cc) (ob : isOwned cb = isOwned cc) (hj : Joined vs ca.val cb.val cc.val) (w : World Str) :
    render cfg [.forLoop vs ec body] name ρ w = render cfg ([.forLoop vs ea body] ++ [.forLoop vs eb body]) name ρ w := by
  have hl := fun {ρ ρ' : Scope} (h : Unlooped true ρ ρ') => stmts_unlooped (cfg := cfg) (include_unlooped hS (cfg.maxIncludeDepth - 1)) name h body (fun _ => hb)
  rw [render, render, evalStmts_append, evalStmts_single, evalStmts_single]
  rw [evalStmt, evalStmt, ha, hc]
  generalize hva : ca.val = va at hj
  generalize hvb : cb.val = vb at hj
  generalize hvc : cc.val = vc at hj
  have hB : ∀ w, evalStmts cfg (include_ cfg (cfg.maxIncludeDepth - 1)) name ρ [.forLoop vs eb body] w =
      andThen name w (rounds vs cb) fun bs => forEach (fun b => evalStmts cfg (include_ cfg (cfg.maxIncludeDepth - 1)) name (b :: ρ) body) bs w := by
    intro w
    rw [evalStmts_single, evalStmt, hb']; rfl
  have hB' := funext hB
  rw [hB']
  simp only [andThen]
  cases hj with
  | list =>
    simp only [rounds, hva, hvb, hvc, oa, ob]
    rw [forEach_list (fun c i a i' a' w => hl (unlooped_item ρ _ c i a i' a') w), forEach_append,
      forEach_list (fun c i a i' a' w => hl (unlooped_item ρ _ c i a i' a') w)]
    congr 1
    funext w
    rw [forEach_list (fun c i a i' a' w => hl (unlooped_item ρ _ c i a i' a') w)]
  | map =>
    simp only [rounds, hva, hvb, hvc, oa, ob]
    rw [forEach_map (fun key c i a i' a' w => hl (unlooped_entry ρ _ _ key c i a i' a') w), forEach_append,
      forEach_map (fun key c i a i' a' w => hl (unlooped_entry ρ _ _ key c i a i' a') w)]
    congr 1
    funext w
    rw [forEach_map (fun key c i a i' a' w => hl (unlooped_entry ρ _ _ key c i a i' a') w)]

end Plain
end Upon
