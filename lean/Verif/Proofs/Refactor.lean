import Verif.Spec.Refactor
import Verif.Proofs.Plain
/-
For C49 and C50: the meaning of trees (without byte ranges) that are rewritten by the laws, or in which bound variables are renamed.
-/
namespace Upon
open Spec

namespace Plain

/-! Scopes that bind the same values under the old and the new names -/

/-- The scopes on both sides of a renaming. They may differ behind a wall. -/
inductive Under : List Bound → Scope → Scope → Prop
  | refl (ρ) : Under [] ρ ρ
  | wall (ρ ρ') : Under [] (.wall :: ρ) (.wall :: ρ')
  | globals {ρ ρ'} (c) : Under [] ρ ρ' → Under [] (.globals c :: ρ) (.globals c :: ρ')
  | name {Γ ρ ρ'} (n n' c) : Under Γ ρ ρ' →
      Under (⟨false, some n, some n'⟩ :: Γ) (.name (fun _ => some n) c :: ρ) (.name (fun _ => some n') c :: ρ')
  | extra {Γ ρ ρ'} (n' c) : Under Γ ρ ρ' → Under (⟨false, none, some n'⟩ :: Γ) ρ (.name (fun _ => some n') c :: ρ')
  | item {Γ ρ ρ'} (n n' c i j) : Under Γ ρ ρ' →
      Under (⟨false, some "loop".toList, some "loop".toList⟩ :: ⟨true, some n, some n'⟩ :: Γ) (.item n c i j :: ρ) (.item n' c i j :: ρ')
  | entry {Γ ρ ρ'} (k k' v v' key c i j) : Under Γ ρ ρ' →
      Under (⟨false, some "loop".toList, some "loop".toList⟩ :: ⟨false, some k, some k'⟩ :: ⟨true, some v, some v'⟩ :: Γ)
        (.entry k v key c i j :: ρ) (.entry k' v' key c i j :: ρ')

/-- The same scopes except behind walls. -/
def Agree (ρ ρ' : Scope) : Prop := ∃ Γ, (∀ x ∈ Γ, x.old = x.new) ∧ Under Γ ρ ρ'

theorem Agree.refl (ρ : Scope) : Agree ρ ρ := ⟨[], by simp, .refl ρ⟩

theorem follow_direct {p : List ValueMember} (h : ∀ m ∈ p, m.op = .direct) (v : Value) : follow v p ≠ .ok none := by
  induction p generalizing v with
  | nil => intro h'; cases h'
  | cons m p ih =>
    intro h'
    rw [follow] at h'
    obtain ⟨op, acc⟩ := m
    have hop : op = .direct := h _ List.mem_cons_self
    subst hop
    cases hl : lookup v ⟨.direct, acc⟩ with
    | ok o =>
      cases o with
      | some x => rw [hl] at h'; exact ih (fun m hm => h m (List.mem_cons_of_mem _ hm)) x h'
      | none =>
        unfold lookup at hl
        cases v <;> cases acc <;> simp only [fail] at hl <;> try cases hl
        all_goals (split at hl <;> simp_all)
    | err e => rw [hl] at h'; cases h'
    | crash => rw [hl] at h'; cases h'

theorem item_direct {p : List ValueMember} (h : ∀ m ∈ p, m.op = .direct) (c : Cow) : followItem c p ≠ .ok none := by
  intro h'
  unfold followItem at h'
  have := follow_direct h c.val
  split at h' <;> simp_all

theorem resolve_cons (b : Binding) (ρ : Scope) (a : Str) (f : ValueMember) (p : List ValueMember) :
    resolve (b :: ρ) a f p = (get b a f p >>= fun
      | some c => .ok c
      | none => resolve ρ a f p) := rfl

theorem bind_some {b b' : Binding} {ρ ρ' : Scope} {a a' : Str} {f f' : ValueMember} {p : List ValueMember} (h : get b a f p = get b' a' f' p)
    (hn : get b a f p ≠ .ok none) : resolve (b :: ρ) a f p = resolve (b' :: ρ') a' f' p := by
  rw [resolve_cons, resolve_cons, ← h]
  cases hg : get b a f p with
  | ok o => cases o with
    | some c => rfl
    | none => exact (hn hg).elim
  | err e => rfl
  | crash => rfl

theorem bind_both {b b' : Binding} {ρ ρ' : Scope} {a a' : Str} {f f' : ValueMember} {p : List ValueMember} (h : get b a f p = get b' a' f' p)
    (hn : resolve ρ a f p = resolve ρ' a' f' p) : resolve (b :: ρ) a f p = resolve (b' :: ρ') a' f' p := by
  rw [resolve_cons, resolve_cons, ← h, hn]

theorem loopInfo_some (i j : Nat) (p : List ValueMember) : loopInfo i j p ≠ .ok none := by
  intro h
  cases p with
  | nil => cases h
  | cons m p =>
    unfold loopInfo at h
    cases ha : m.access with
    | index i => rw [ha] at h; cases h
    | key n =>
      rw [ha] at h
      dsimp only at h
      generalize (if n = "index".toList then Res.ok (Value.integer i) else if n = "first".toList then .ok (.bool (i == 0))
        else if n = "last".toList then .ok (.bool (j == 0)) else if m.op = .optional then .ok .none else fail "not found in map") = r at h
      cases r with
      | ok v => cases p <;> cases h
      | err e => cases h
      | crash => cases h

theorem resolve_under {Γ : List Bound} {ρ ρ' : Scope} (h : Under Γ ρ ρ') {a a' : Str} {op : AccessOp} {p : List ValueMember}
    (hr : Refers Γ a a' p) : resolve ρ a ⟨op, .key a⟩ p = resolve ρ' a' ⟨op, .key a'⟩ p := by
  induction h with
  | refl ρ => cases hr; rfl
  | wall ρ ρ' => cases hr; rw [resolve_cons, resolve_cons]; rfl
  | globals c _ ih => cases hr; exact bind_both rfl (ih .free)
  | name n n' c _ ih =>
    cases hr with
    | bound h1 h2 _ => cases h1; cases h2; exact bind_some (by simp [get]) (by simp only [get]; cases followCow c p <;> simp [bind, Res.bind])
    | twice h1 h2 _ => cases h1; cases h2; exact bind_some (by simp [get]) (by simp only [get]; cases followCow c p <;> simp [bind, Res.bind])
    | outer h1 h2 h3 => exact bind_both (by simp only [get]; rw [if_neg h1, if_neg h2]) (ih h3)
  | extra n' c _ ih =>
    cases hr with
    | bound h1 h2 _ => cases h1
    | twice h1 h2 _ => cases h1
    | outer h1 h2 h3 =>
      rw [ih h3, resolve_cons]
      simp only [get]
      rw [if_neg h2]
      rfl
  | item n n' c i j _ ih =>
    cases hr with
    | bound h1 h2 _ => cases h1; cases h2; exact bind_some (by simp [get]) (by simp only [get, if_true]; exact loopInfo_some _ _ _)
    | twice h1 h2 _ => cases h1; cases h2; exact bind_some (by simp [get]) (by simp only [get, if_true]; exact loopInfo_some _ _ _)
    | outer h1 h2 h3 =>
      have e1 : a ≠ "loop".toList := fun e => h1 (congrArg some e.symm)
      have e2 : a' ≠ "loop".toList := fun e => h2 (congrArg some e.symm)
      cases h3 with
      | bound h1 h2 h3 =>
        cases h1; cases h2
        refine bind_some ?_ ?_
        · simp only [get, if_neg e1, if_neg e2, if_true]
        · simp only [get, if_neg e1, if_true]; exact item_direct (h3 rfl) c
      | twice h1 h2 h3 =>
        cases h1; cases h2
        refine bind_both ?_ (ih h3)
        simp only [get, if_neg e1, if_neg e2, if_true]
      | outer h1 h2 h3 =>
        have f1 : a ≠ n := fun e => h1 (congrArg some e.symm)
        have f2 : a' ≠ n' := fun e => h2 (congrArg some e.symm)
        refine bind_both ?_ (ih h3)
        simp only [get, if_neg e1, if_neg e2, if_neg f1, if_neg f2]
  | entry k k' v v' key c i j _ ih =>
    cases hr with
    | bound h1 h2 _ => cases h1; cases h2; exact bind_some (by simp [get]) (by simp only [get, if_true]; exact loopInfo_some _ _ _)
    | twice h1 h2 _ => cases h1; cases h2; exact bind_some (by simp [get]) (by simp only [get, if_true]; exact loopInfo_some _ _ _)
    | outer h1 h2 h3 =>
      have e1 : a ≠ "loop".toList := fun e => h1 (congrArg some e.symm)
      have e2 : a' ≠ "loop".toList := fun e => h2 (congrArg some e.symm)
      have hk : ∀ {q : List ValueMember} {x : Str}, (match q with
          | [] => (.ok (some (.owned (.string x))) : Res (Option Cow))
          | _ :: _ => fail "cannot index into string") ≠ .ok none := by
        intro q x h; cases q <;> cases h
      cases h3 with
      | bound h1 h2 h3 =>
        cases h1; cases h2
        refine bind_some ?_ ?_
        · simp only [get, if_neg e1, if_neg e2, if_true]
        · simp only [get, if_neg e1, if_true]; exact hk
      | twice h1 h2 h3 =>
        cases h1; cases h2
        refine bind_some ?_ ?_
        · simp only [get, if_neg e1, if_neg e2, if_true]
        · simp only [get, if_neg e1, if_true]; exact hk
      | outer h1 h2 h3 =>
        have f1 : a ≠ k := fun e => h1 (congrArg some e.symm)
        have f2 : a' ≠ k' := fun e => h2 (congrArg some e.symm)
        cases h3 with
        | bound h1 h2 h3 =>
          cases h1; cases h2
          refine bind_some ?_ ?_
          · simp only [get, if_neg e1, if_neg e2, if_neg f1, if_neg f2, if_true]
          · simp only [get, if_neg e1, if_neg f1, if_true]; exact item_direct (h3 rfl) c
        | twice h1 h2 h3 =>
          cases h1; cases h2
          refine bind_both ?_ (ih h3)
          simp only [get, if_neg e1, if_neg e2, if_neg f1, if_neg f2, if_true]
        | outer h1 h2 h3 =>
          have g1 : a ≠ v := fun e => h1 (congrArg some e.symm)
          have g2 : a' ≠ v' := fun e => h2 (congrArg some e.symm)
          refine bind_both ?_ (ih h3)
          simp only [get, if_neg e1, if_neg e2, if_neg f1, if_neg f2, if_neg g1, if_neg g2]

theorem resolve_same {Γ : List Bound} {ρ ρ' : Scope} (h : Under Γ ρ ρ') {a : Str} {f : ValueMember} {p : List ValueMember}
    (hx : ∀ x ∈ Γ, x.old = x.new ∨ (x.old = none ∧ x.new ≠ some a)) : resolve ρ a f p = resolve ρ' a f p := by
  induction h with
  | refl ρ => rfl
  | wall ρ ρ' => rw [resolve_cons, resolve_cons]; rfl
  | globals c _ ih => exact bind_both rfl (ih hx)
  | name n n' c _ ih =>
    have e : n = n' := by simpa using hx _ List.mem_cons_self
    subst e
    exact bind_both rfl (ih fun x h => hx x (List.mem_cons_of_mem _ h))
  | extra n' c _ ih =>
    have e : n' ≠ a := by simpa using hx _ List.mem_cons_self
    rw [ih fun x h => hx x (List.mem_cons_of_mem _ h), resolve_cons]
    simp only [get]
    rw [if_neg (by simpa using e)]
    rfl
  | item n n' c i j _ ih =>
    have e : n = n' := by simpa using hx ⟨true, some n, some n'⟩ (by simp)
    subst e
    exact bind_both rfl (ih fun x h => hx x (by simp [h]))
  | entry k k' v v' key c i j _ ih =>
    have e1 : k = k' := by simpa using hx ⟨false, some k, some k'⟩ (by simp)
    have e2 : v = v' := by simpa using hx ⟨true, some v, some v'⟩ (by simp)
    subst e1 e2
    exact bind_both rfl (ih fun x h => hx x (by simp [h]))

/-! Expressions -/

section
variable {Γ : List Bound} {ρ ρ' : Scope} (h : Under Γ ρ ρ')
include h

theorem base_under {b b' : Base} (hb : RenamedBase Γ b b') : evalBase ρ b = evalBase ρ' b' := by
  cases hb with
  | var hr => exact resolve_under h hr
  | same hx => exact resolve_same h hx
  | lit => rfl

theorem arg_under (env : Env) (t : ArgTy) {b b' : Base} (hb : RenamedBase Γ b b') : evalArg env ρ t b = evalArg env ρ' t b' := by
  cases hb with
  | var hr => rw [evalArg, evalArg, resolve_under h hr]
  | same hx => rw [evalArg, evalArg, resolve_same h hx]
  | lit => rfl

theorem args_under (env : Env) (ts : List ArgTy) {as as' : List Base} (ha : RenamedArgs Γ as as') :
    evalArgs env ρ ts as = evalArgs env ρ' ts as' := by
  induction ha generalizing ts with
  | nil => cases ts <;> rfl
  | cons hb _ ih =>
    cases ts with
    | nil => rfl
    | cons t ts => rw [evalArgs, evalArgs, arg_under h env t hb, ih ts]

omit h in
theorem args_length {as as' : List Base} (ha : RenamedArgs Γ as as') : as.length = as'.length := by
  induction ha with
  | nil => rfl
  | cons _ _ ih => simp [ih]

theorem filter_under (env : Env) (f : Filter) (v : Cow) {as as' : List Base} (ha : RenamedArgs Γ as as') :
    applyFilter env ρ f v as = applyFilter env ρ' f v as' := by
  simp only [applyFilter, args_length ha, args_under h env f.args ha]

theorem expr_under (cfg : Cfg) {e e' : Expr} (he : RenamedExpr Γ e e') : evalExpr cfg ρ e = evalExpr cfg ρ' e' := by
  induction he with
  | base hb => exact base_under h hb
  | call _ ih =>
    rw [evalExpr, evalExpr, ih]
    simp only [Option.getD_none, filter_under h cfg.env _ _ RenamedArgs.nil]
  | callArgs ha _ ih =>
    rw [evalExpr, evalExpr, ih]
    simp only [Option.getD_some, filter_under h cfg.env _ _ ha]

theorem emit_under (cfg : Cfg) (name : Option Str) {e e' : Expr} (he : RenamedExpr Γ e e') (w : World Str) :
    emitExpr cfg name ρ e w = emitExpr cfg name ρ' e' w := by
  cases he with
  | base hb => simp only [emitExpr, expr_under h cfg (.base hb)]
  | call he => simp only [emitExpr, expr_under h cfg he, filter_under h cfg.env _ _ RenamedArgs.nil]
  | callArgs ha he => simp only [emitExpr, expr_under h cfg (.callArgs ha he)]

end

/-- The same but for the templates. -/
structure Kin (cfg cfg' : Cfg) : Prop where
  env : cfg.env = cfg'.env
  formatter : cfg.defaultFormatter = cfg'.defaultFormatter
  functions : cfg.functions = cfg'.functions

theorem Kin.expr {cfg cfg' : Cfg} (k : Kin cfg cfg') (ρ : Scope) (e : Expr) : evalExpr cfg ρ e = evalExpr cfg' ρ e := by
  induction e with
  | base b => rfl
  | call n as r ih => rw [evalExpr, evalExpr, ih, k.env, k.functions]

theorem Kin.emit {cfg cfg' : Cfg} (k : Kin cfg cfg') (name : Option Str) (ρ : Scope) (e : Expr) (w : World Str) :
    emitExpr cfg name ρ e w = emitExpr cfg' name ρ e w := by
  cases e with
  | base b => simp only [emitExpr, k.expr, k.formatter]
  | call n as r => cases as <;> simp only [emitExpr, k.expr, k.formatter, k.env, k.functions]

/-- Includes that do the same in scopes that are the same except behind walls. -/
def Respects (inc inc' : Include) : Prop := ∀ n name ρ ρ' w, Agree ρ ρ' → inc n name ρ w = inc' n name ρ' w

theorem Under.walled (v : Cow) (ρ ρ' : Scope) : Agree (.globals v :: .wall :: ρ) (.globals v :: .wall :: ρ') :=
  ⟨[], by simp, .globals v (.wall ρ ρ')⟩

theorem list_under {Γ : List Bound} {ρ ρ' : Scope} (n n' : Str) {f f' : Scope → World Str → RunRes Str} (o : Bool)
    (hf : ∀ c i j w, f (.item n c i j :: ρ) w = f' (.item n' c i j :: ρ') w) (i : Nat) (l : List Value) (w : World Str) :
    forEach (fun b => f (b :: ρ)) (listRounds n o i l) w = forEach (fun b => f' (b :: ρ')) (listRounds n' o i l) w := by
  induction l generalizing i w with
  | nil => rfl
  | cons x l ih =>
    simp only [listRounds, forEach, hf]
    congr 1
    funext w
    exact ih (i + 1) w

theorem map_under {Γ : List Bound} {ρ ρ' : Scope} (k k' v v' : Str) {f f' : Scope → World Str → RunRes Str} (o : Bool)
    (hf : ∀ key c i j w, f (.entry k v key c i j :: ρ) w = f' (.entry k' v' key c i j :: ρ') w) (i : Nat) (l : List (Str × Value)) (w : World Str) :
    forEach (fun b => f (b :: ρ)) (mapRounds k v o i l) w = forEach (fun b => f' (b :: ρ')) (mapRounds k' v' o i l) w := by
  induction l generalizing i w with
  | nil => rfl
  | cons x l ih =>
    obtain ⟨key, x⟩ := x
    simp only [mapRounds, forEach, hf]
    congr 1
    funext w
    exact ih (i + 1) w

/-! Statements -/

section
variable {cfg cfg' : Cfg} (k : Kin cfg cfg') {inc inc' : Include} (hi : Respects inc inc')
include k hi

mutual
theorem stmt_under (name : Option Str) {Γ : List Bound} {ρ ρ' : Scope} (h : Under Γ ρ ρ') {s s' : Stmt} (hs : RenamedStmt Γ s s') (w : World Str) :
    evalStmt cfg inc name ρ s w = evalStmt cfg' inc' name ρ' s' w := by
  match hs with
  | .char => rw [evalStmt, evalStmt]
  | .expr he => rw [evalStmt, evalStmt, ← k.emit, emit_under h cfg name he]
  | .include_ hn => rw [evalStmt, evalStmt]; exact hi _ _ _ _ _ ⟨_, hn, h⟩
  | .includeWith he =>
    rw [evalStmt, evalStmt, ← k.expr, expr_under h cfg he]
    congr 1
    funext v
    exact hi _ _ _ _ _ (Under.walled v ρ ρ')
  | .if_ hc ha =>
    rw [evalStmt, evalStmt, ← k.expr, expr_under h cfg hc]
    simp only [stmts_under name h ha]
  | .ifElse hc ha hb =>
    rw [evalStmt, evalStmt, ← k.expr, expr_under h cfg hc]
    simp only [stmts_under name h ha, stmts_under name h hb]
  | .for_ (Δ := Δ) (vs := vs) (vs' := vs') hv he hb =>
    rw [evalStmt, evalStmt, ← k.expr, expr_under h cfg he]
    congr 1
    funext v
    match hv with
    | .item (n := n) (n' := n') =>
      cases hv : v.val with
      | list l =>
        simp only [rounds, hv, andThen]
        exact list_under (Γ := Γ) n n' (f := fun r => evalStmts cfg inc name r _) (f' := fun r => evalStmts cfg' inc' name r _) _
          (fun c i j w => stmts_under name (.item n n' c i j h) hb w) 0 l w
      | _ => simp only [rounds, hv, fail, andThen]
    | .keyValue (k := kn) (k' := kn') (v := vn) (v' := vn') =>
      cases hv : v.val with
      | map l =>
        simp only [rounds, hv, andThen]
        exact map_under (Γ := Γ) kn kn' vn vn' (f := fun r => evalStmts cfg inc name r _) (f' := fun r => evalStmts cfg' inc' name r _) _
          (fun key c i j w => stmts_under name (.entry kn kn' vn vn' key c i j h) hb w) 0 l w
      | _ => simp only [rounds, hv, fail, andThen]
  | .with_ (n := n) (n' := n') he hb =>
    rw [evalStmt, evalStmt, ← k.expr, expr_under h cfg he]
    congr 1
    funext v
    exact stmts_under name (.name n n' v h) hb w
theorem stmts_under (name : Option Str) {Γ : List Bound} {ρ ρ' : Scope} (h : Under Γ ρ ρ') {ss ss' : List Stmt} (hs : Renamed Γ ss ss') (w : World Str) :
    evalStmts cfg inc name ρ ss w = evalStmts cfg' inc' name ρ' ss' w := by
  match hs with
  | .nil => rw [evalStmts, evalStmts]
  | .cons h1 h2 =>
    rw [evalStmts, evalStmts, stmt_under name h h1]
    congr 1
    funext w
    exact stmts_under name h h2 w
end

end

/-! Trees are renamings of themselves -/

theorem self_base {Γ : List Bound} (b : Base) (h : ∀ x ∈ Γ, x.old = x.new ∨ (x.old = none ∧ ∀ m, x.new = some m → ¬ b.Uses m)) :
    RenamedBase Γ b b := by
  cases b with
  | lit v => exact .lit
  | var a f p => exact .same fun x hx => (h x hx).imp id fun ⟨h1, h2⟩ => ⟨h1, fun e => h2 a e rfl⟩

theorem self_args {Γ : List Bound} (bs : List Base)
    (h : ∀ x ∈ Γ, x.old = x.new ∨ (x.old = none ∧ ∀ m, x.new = some m → ∀ b ∈ bs, ¬ b.Uses m)) : RenamedArgs Γ bs bs := by
  induction bs with
  | nil => exact .nil
  | cons b bs ih =>
    exact .cons (self_base b fun x hx => (h x hx).imp id fun ⟨h1, h2⟩ => ⟨h1, fun m e => h2 m e b (by simp)⟩)
      (ih fun x hx => (h x hx).imp id fun ⟨h1, h2⟩ => ⟨h1, fun m e b hb => h2 m e b (by simp [hb])⟩)

/-- What is needed of the names in scope for a tree to be a renaming of itself. -/
def Apart (Γ : List Bound) (u : Str → Prop) : Prop := ∀ x ∈ Γ, x.old = x.new ∨ (x.old = none ∧ ∀ m, x.new = some m → ¬ u m)

theorem Apart.mono {Γ : List Bound} {u u' : Str → Prop} (h : Apart Γ u) (hu : ∀ m, u' m → u m) : Apart Γ u' :=
  fun x hx => (h x hx).imp id fun ⟨h1, h2⟩ => ⟨h1, fun m e h' => h2 m e (hu m h')⟩

theorem self_expr {Γ : List Bound} (e : Expr) (h : Apart Γ fun m => e.Uses m) : RenamedExpr Γ e e := by
  induction e with
  | base b => exact .base (self_base b h)
  | call n as e ih =>
    cases as with
    | none => exact .call (ih (h.mono fun m hm => .inr hm))
    | some as =>
      refine .callArgs (self_args as fun x hx => (h x hx).imp id fun ⟨h1, h2⟩ => ⟨h1, fun m e b hb hu => h2 m e ?_⟩) (ih (h.mono fun m hm => .inr hm))
      exact .inl ⟨as, rfl, b, hb, hu⟩

theorem Apart.cons {Γ : List Bound} {u : Str → Prop} (h : Apart Γ u) (x : Bound) (hx : x.old = x.new) : Apart (x :: Γ) u := by
  intro y hy
  rcases List.mem_cons.mp hy with rfl | hy
  · exact .inl hx
  · exact h y hy

theorem Apart.loop {Γ : List Bound} {u : Str → Prop} (h : Apart Γ u) (vs : Vars) : ∃ Δ, LoopBinds vs vs Δ ∧ Apart (Δ ++ Γ) u := by
  cases vs with
  | item n => exact ⟨_, .item, (h.cons ⟨true, some n, some n⟩ rfl).cons ⟨false, _, _⟩ rfl⟩
  | keyValue k v => exact ⟨_, .keyValue, ((h.cons ⟨true, some v, some v⟩ rfl).cons ⟨false, some k, some k⟩ rfl).cons ⟨false, _, _⟩ rfl⟩

mutual
theorem self_stmt {Γ : List Bound} (s : Stmt) (h : Apart Γ fun m => s.Uses m) (hn : ∀ x ∈ Γ, x.old = none → x.new ≠ none) : RenamedStmt Γ s s := by
  match s with
  | .char c => exact .char
  | .expr e => exact .expr (self_expr e (h.mono fun m hm => by rw [Stmt.Uses]; exact hm))
  | .include_ n none =>
    refine .include_ fun x hx => ?_
    rcases h x hx with h1 | ⟨h1, h2⟩
    · exact h1
    · cases hm : x.new with
      | none => exact (hn x hx h1 hm).elim
      | some m => exact (h2 m hm (by simp [Stmt.Uses])).elim
  | .include_ n (some e) => exact .includeWith (self_expr e (h.mono fun m hm => by rw [Stmt.Uses]; exact hm))
  | .ifElse neg c a none =>
    exact .if_ (self_expr c (h.mono fun m hm => by rw [Stmt.Uses]; exact .inl hm)) (self_stmts a (h.mono fun m hm => by rw [Stmt.Uses]; exact .inr hm) hn)
  | .ifElse neg c a (some b) =>
    exact .ifElse (self_expr c (h.mono fun m hm => by rw [Stmt.Uses]; exact .inl hm))
      (self_stmts a (h.mono fun m hm => by rw [Stmt.Uses]; exact .inr (.inl hm)) hn)
      (self_stmts b (h.mono fun m hm => by rw [Stmt.Uses]; exact .inr (.inr hm)) hn)
  | .forLoop vs e b =>
    have hb : Apart Γ fun m => UsesAny m b := h.mono fun m hm => by rw [Stmt.Uses]; exact .inr hm
    cases vs with
    | item n =>
      refine .for_ .item (self_expr e (h.mono fun m hm => by rw [Stmt.Uses]; exact .inl hm))
        (self_stmts b ((hb.cons ⟨true, some n, some n⟩ rfl).cons ⟨false, _, _⟩ rfl) ?_)
      intro x hx
      simp only [List.cons_append, List.nil_append, List.mem_cons] at hx
      rcases hx with rfl | rfl | hx
      · simp
      · simp
      · exact hn x hx
    | keyValue k v =>
      refine .for_ .keyValue (self_expr e (h.mono fun m hm => by rw [Stmt.Uses]; exact .inl hm))
        (self_stmts b (((hb.cons ⟨true, some v, some v⟩ rfl).cons ⟨false, some k, some k⟩ rfl).cons ⟨false, _, _⟩ rfl) ?_)
      intro x hx
      simp only [List.cons_append, List.nil_append, List.mem_cons] at hx
      rcases hx with rfl | rfl | rfl | hx
      · simp
      · simp
      · simp
      · exact hn x hx
  | .with_ e n b =>
    have hb : Apart Γ fun m => UsesAny m b := h.mono fun m hm => by rw [Stmt.Uses]; exact .inr hm
    refine .with_ (self_expr e (h.mono fun m hm => by rw [Stmt.Uses]; exact .inl hm)) (self_stmts b (hb.cons ⟨false, some n, some n⟩ rfl) ?_)
    intro x hx
    rcases List.mem_cons.mp hx with rfl | hx
    · simp
    · exact hn x hx
theorem self_stmts {Γ : List Bound} (ss : List Stmt) (h : Apart Γ fun m => UsesAny m ss) (hn : ∀ x ∈ Γ, x.old = none → x.new ≠ none) :
    Renamed Γ ss ss := by
  match ss with
  | [] => exact .nil
  | s :: ss =>
    exact .cons (self_stmt s (h.mono fun m hm => by rw [UsesAny]; exact .inl hm) hn)
      (self_stmts ss (h.mono fun m hm => by rw [UsesAny]; exact .inr hm) hn)
end

theorem agree_stmts {cfg cfg' : Cfg} (k : Kin cfg cfg') {inc inc' : Include} (hi : Respects inc inc') (name : Option Str) {ρ ρ' : Scope}
    (h : Agree ρ ρ') (ss : List Stmt) (w : World Str) : evalStmts cfg inc name ρ ss w = evalStmts cfg' inc' name ρ' ss w := by
  obtain ⟨Γ, h1, h2⟩ := h
  have hΓ : ∀ {Γ ρ ρ'}, Under Γ ρ ρ' → ∀ x ∈ Γ, x.old = none → x.new ≠ none := by
    intro Γ ρ ρ' h
    induction h with
    | refl => simp
    | wall => simp
    | globals => simp
    | name _ _ _ _ ih => simpa using ih
    | extra _ _ _ ih => simpa using ih
    | item _ _ _ _ _ _ ih => simpa using ih
    | entry _ _ _ _ _ _ _ _ _ ih => simpa using ih
  exact stmts_under k hi name h2 (self_stmts ss (fun x hx => .inl (h1 x hx)) (hΓ h2)) w

theorem extra_ok (n : Str) {u : Str → Prop} (hn : ¬ u n) : Apart [⟨false, none, some n⟩] u ∧ ∀ x ∈ [(⟨false, none, some n⟩ : Bound)], x.old = none → x.new ≠ none := by
  constructor
  · intro x hx
    rcases List.mem_cons.mp hx with rfl | hx
    · exact .inr ⟨rfl, fun m e => by cases e; exact hn⟩
    · cases hx
  · intro x hx
    rcases List.mem_cons.mp hx with rfl | hx
    · simp
    · cases hx

section
variable {cfg : Cfg} {inc : Include} (hi : Respects inc inc) (name : Option Str) (ρ : Scope)
include hi

/-- A binding that is not used makes no difference. -/
theorem unused_stmts (n : Str) (c : Cow) {ss : List Stmt} (hn : ¬ UsesAny n ss) (w : World Str) :
    evalStmts cfg inc name ρ ss w = evalStmts cfg inc name (.name (fun _ => some n) c :: ρ) ss w :=
  stmts_under ⟨rfl, rfl, rfl⟩ hi name (.extra n c (.refl ρ)) (self_stmts ss (extra_ok n (u := fun m => UsesAny m ss) hn).1 (extra_ok n (u := fun m => UsesAny m ss) hn).2) w

/-- The same outside a loop. -/
theorem unused_loop (n : Str) (c : Cow) {b : List Stmt} (hn : ¬ UsesAny n b) (vs : Vars) (v : Cow) (w : World Str) :
    (andThen name w (rounds vs v) fun bs => forEach (fun x => evalStmts cfg inc name (x :: ρ) b) bs w) =
    andThen name w (rounds vs v) fun bs => forEach (fun x => evalStmts cfg inc name (x :: .name (fun _ => some n) c :: ρ) b) bs w := by
  have hs := extra_ok n (u := fun m => UsesAny m b) hn
  cases vs with
  | item m =>
    cases hv : v.val with
    | list l =>
      simp only [rounds, hv, andThen]
      refine list_under (Γ := []) m m (f := fun r => evalStmts cfg inc name r b) (f' := fun r => evalStmts cfg inc name r b) _ (fun x i j w => ?_) 0 l w
      refine stmts_under ⟨rfl, rfl, rfl⟩ hi name (.item m m x i j (.extra n c (.refl ρ)))
        (self_stmts b ((hs.1.cons ⟨true, some m, some m⟩ rfl).cons ⟨false, _, _⟩ rfl) ?_) w
      simp
    | _ => simp only [rounds, hv, fail, andThen]
  | keyValue k m =>
    cases hv : v.val with
    | map l =>
      simp only [rounds, hv, andThen]
      refine map_under (Γ := []) k k m m (f := fun r => evalStmts cfg inc name r b) (f' := fun r => evalStmts cfg inc name r b) _ (fun key x i j w => ?_) 0 l w
      refine stmts_under ⟨rfl, rfl, rfl⟩ hi name (.entry k k m m key x i j (.extra n c (.refl ρ)))
        (self_stmts b (((hs.1.cons ⟨true, some m, some m⟩ rfl).cons ⟨false, some k, some k⟩ rfl).cons ⟨false, _, _⟩ rfl) ?_) w
      simp
    | _ => simp only [rounds, hv, fail, andThen]

end

/-! The laws -/

theorem justName_eval (cfg : Cfg) (ρ : Scope) (n : Str) (v : Cow) : evalExpr cfg (.name (fun _ => some n) v :: ρ) (justName n) = .ok v := by
  rw [justName, evalExpr, evalBase, resolve_cons]
  simp only [get, if_true, followCow, follow]
  cases v <;> rfl

theorem seq_assoc (r : RunRes Str) (k l : World Str → RunRes Str) : seq (seq r k) l = seq r fun w => seq (k w) l := by cases r <;> rfl

section
variable {cfg : Cfg} {inc : Include} (hi : Respects inc inc) (name : Option Str) (ρ : Scope) (w : World Str)
include hi

theorem law_same {a b : List Stmt} (h : Law a b) : evalStmts cfg inc name ρ a w = evalStmts cfg inc name ρ b w := by
  cases h with
  | @notIf c a b =>
    rw [evalStmts_single, evalStmts_single, evalStmt, evalStmt]
    congr 1
    funext v
    cases truthy v.val <;> simp
  | @noElse neg c a =>
    rw [evalStmts_single, evalStmts_single, evalStmt, evalStmt]
    simp only [evalStmts]
  | @holds neg v a e hv =>
    cases e <;> rw [evalStmts_single, evalStmt] <;>
    exact if_pos (show truthy (Cow.owned v).val ≠ neg from hv)
  | @fails neg v a b hv =>
    rw [evalStmts_single, evalStmt]
    simp only [evalExpr, evalBase, andThen, Cow.val, hv, ne_eq, not_true_eq_false, if_false]
  | @join neg c a b a' b' =>
    rw [evalStmts, evalStmts_single, evalStmt, evalStmt]
    cases hc : evalExpr cfg ρ c with
    | ok v =>
      simp only [andThen, evalStmts_append]
      split
      · congr 1; funext w; rw [evalStmts_single, evalStmt, hc]; simp only [andThen]; rw [if_pos (by assumption)]
      · congr 1; funext w; rw [evalStmts_single, evalStmt, hc]; simp only [andThen]; rw [if_neg (by assumption)]
    | err e => rfl
    | crash => rfl
  | @tail neg c a b x =>
    rw [evalStmts_single, evalStmts, evalStmt, evalStmt]
    cases hc : evalExpr cfg ρ c with
    | ok v => simp only [andThen, evalStmts_append]; split <;> rfl
    | err e => rfl
    | crash => rfl
  | @again neg c a b x e =>
    have key : ∀ a e w, evalStmt cfg inc name ρ (.ifElse neg c a e) w = andThen name w (evalExpr cfg ρ c) fun v =>
        if truthy v.val ≠ neg then evalStmts cfg inc name ρ a w else match e with
          | some ss => evalStmts cfg inc name ρ ss w
          | none => .ok w := by
      intro a e w; cases e <;> rw [evalStmt]
    rw [evalStmts_single, evalStmts_single, key, key]
    cases hc : evalExpr cfg ρ c with
    | ok v =>
      simp only [andThen]
      by_cases hv : truthy v.val ≠ neg
      · rw [if_pos hv, if_pos hv, evalStmts, key, hc, evalStmts_append]
        simp only [andThen]
        rw [if_pos hv]
      · rw [if_neg hv, if_neg hv]
    | err e => rfl
    | crash => rfl
  | @named e n g args hn =>
    rw [evalStmts_single, evalStmts_single, evalStmt, evalStmt]
    have hf : ∀ v f as, args = some as → applyFilter cfg.env ρ f v as = applyFilter cfg.env (.name (fun _ => some n) v :: ρ) f v as := by
      intro v f as ha
      exact filter_under (.extra n v (.refl ρ)) cfg.env f v (self_args as fun x hx => by
        rcases List.mem_cons.mp hx with rfl | hx
        · exact .inr ⟨rfl, fun m e b hb => by cases e; exact hn as ha b hb⟩
        · cases hx)
    have h0 : ∀ v f, applyFilter cfg.env ρ f v [] = applyFilter cfg.env (.name (fun _ => some n) v :: ρ) f v [] :=
      fun v f => filter_under (.extra n v (.refl ρ)) cfg.env f v .nil
    cases args with
    | none =>
      rw [emitExpr]
      cases he : evalExpr cfg ρ e with
      | ok v => simp only [andThen, evalStmts_single, evalStmt, emitExpr, justName_eval, h0 v]
      | err e => rfl
      | crash => rfl
    | some as =>
      rw [emitExpr, evalExpr]
      · cases he : evalExpr cfg ρ e with
        | ok v =>
          simp only [andThen, evalStmts_single, evalStmt, emitExpr, evalExpr, justName_eval, Res.ok_bind, Option.getD_some, hf v _ as rfl]
        | err e => rfl
        | crash => rfl
      · intro _ _ h; cases h
  | @sequence vs e b n hn =>
    rw [evalStmts_single, evalStmts_single, evalStmt, evalStmt]
    cases he : evalExpr cfg ρ e with
    | ok v =>
      simp only [andThen, evalStmts_single, evalStmt, justName_eval]
      exact unused_loop hi name ρ n v hn vs v w
    | err e => rfl
    | crash => rfl
  | @condition neg e a b n ha hb =>
    rw [evalStmts_single, evalStmts_single, evalStmt, evalStmt]
    cases he : evalExpr cfg ρ e with
    | ok v =>
      simp only [andThen, evalStmts_single, evalStmt, justName_eval]
      rw [unused_stmts hi name ρ n v ha, unused_stmts hi name ρ n v hb]
    | err e => rfl
    | crash => rfl
  | @passed m e n =>
    rw [evalStmts_single, evalStmts_single, evalStmt, evalStmt]
    cases he : evalExpr cfg ρ e with
    | ok v =>
      simp only [andThen, evalStmts_single, evalStmt, justName_eval]
      exact hi _ _ _ _ _ (Under.walled v _ _)
    | err e => rfl
    | crash => rfl
  | @unused v n b hn =>
    rw [evalStmts_single, evalStmt]
    simp only [evalExpr, evalBase, andThen]
    rw [← unused_stmts hi name ρ n _ hn]

end

theorem refactored_same {a b : List Stmt} (h : Refactored a b) {cfg : Cfg} {inc : Include} (hi : Respects inc inc) (name : Option Str) (ρ : Scope)
    (w : World Str) : evalStmts cfg inc name ρ a w = evalStmts cfg inc name ρ b w := by
  induction h generalizing ρ w with
  | law h => exact law_same hi name ρ w h
  | refl => rfl
  | symm _ ih => exact (ih ρ w).symm
  | trans _ _ ih1 ih2 => exact (ih1 ρ w).trans (ih2 ρ w)
  | append _ _ ih1 ih2 =>
    rw [evalStmts_append, evalStmts_append, ih1]
    congr 1
    funext w
    exact ih2 ρ w
  | @then_ neg c a a' e _ ih => cases e <;> simp only [evalStmts_single, evalStmt, ih]
  | else_ _ ih => simp only [evalStmts_single, evalStmt, ih]
  | @for_ vs e b b' _ ih =>
    have hb : ∀ ρ, evalStmts cfg inc name ρ b = evalStmts cfg inc name ρ b' := fun ρ => funext (ih ρ)
    simp only [evalStmts_single, evalStmt, hb]
  | with_ _ ih => simp only [evalStmts_single, evalStmt, ih]

/-! Includes -/

/-- A relation between trees that preserves the meaning in some settings. -/
def SoundFor (P : Cfg → Prop) (E : List Stmt → List Stmt → Prop) : Prop :=
  ∀ {a b}, E a b → ∀ {cfg cfg' : Cfg}, P cfg → Kin cfg cfg' → ∀ {inc inc' : Include}, Respects inc inc' → ∀ (name : Option Str) {ρ ρ' : Scope},
    Agree ρ ρ' → ∀ w, evalStmts cfg inc name ρ a w = evalStmts cfg' inc' name ρ' b w

/-- A relation between trees that preserves the meaning. -/
abbrev Sound (E : List Stmt → List Stmt → Prop) : Prop := SoundFor (fun _ => True) E

theorem Respects.left {inc inc' : Include} (h : Respects inc inc') : Respects inc inc :=
  fun n name ρ ρ' w hρ => (h n name ρ ρ' w hρ).trans (h n name ρ' ρ' w (.refl ρ')).symm

/-- Equal answers. -/
inductive Answers (E : List Stmt → List Stmt → Prop) : Except String (List Stmt) → Except String (List Stmt) → Prop
  | found {a b} : E a b → Answers E (.ok a) (.ok b)
  | refused (e) : Answers E (.error e) (.error e)

theorem respects_include {P : Cfg → Prop} {E : List Stmt → List Stmt → Prop} (hE : SoundFor P E) {cfg cfg' : Cfg} (hP : P cfg) (k : Kin cfg cfg') (hr : cfg.record = cfg'.record)
    (hd : cfg.maxIncludeDepth = cfg'.maxIncludeDepth) (hf : ∀ a n, Answers E (cfg.find a n) (cfg'.find a n)) (left : Nat) :
    Respects (include_ cfg left) (include_ cfg' left) := by
  induction left with
  | zero =>
    intro n name ρ ρ' w h
    have := hf w.asked n
    rw [include_, include_]
    generalize cfg.find w.asked n = p, cfg'.find w.asked n = q at this
    cases this with
    | found => simp only [asked, hr, hd]
    | refused => simp only [asked, hr]
  | succ left ih =>
    intro n name ρ ρ' w h
    have := hf w.asked n
    rw [include_, include_]
    generalize cfg.find w.asked n = p, cfg'.find w.asked n = q at this
    cases this with
    | found he => simp only [asked, hr]; exact hE he hP k ih (some n) h _
    | refused => simp only [asked, hr]

theorem render_sound {P : Cfg → Prop} {E : List Stmt → List Stmt → Prop} (hE : SoundFor P E) {cfg cfg' : Cfg} (hP : P cfg) (k : Kin cfg cfg') (hr : cfg.record = cfg'.record)
    (hd : cfg.maxIncludeDepth = cfg'.maxIncludeDepth) (hf : ∀ a n, Answers E (cfg.find a n) (cfg'.find a n)) {a b : List Stmt} (h : E a b)
    (name : Option Str) (ρ : Scope) (w : World Str) : render cfg a name ρ w = render cfg' b name ρ w := by
  rw [render, render, hd]
  exact hE h hP k (respects_include hE hP k hr hd hf _) name (.refl ρ) w

theorem sound_renamed : Sound (Renamed []) := by
  intro a b h cfg cfg' _ k inc inc' hi name ρ ρ' hρ w
  rw [stmts_under (cfg := cfg) ⟨rfl, rfl, rfl⟩ hi.left name (.refl ρ) h w]
  exact agree_stmts k hi name hρ b w

theorem sound_refactored : Sound Refactored := by
  intro a b h cfg cfg' _ k inc inc' hi name ρ ρ' hρ w
  rw [refactored_same h hi.left name ρ w]
  exact agree_stmts k hi name hρ b w

end Plain
end Upon
