import Verif.Spec.Known
import Verif.Proofs.Fill
/-
Specialised templates mean the same (for C81).
-/
namespace Upon
open Spec

namespace Plain
section
variable {g : Value} {bound : List Str}

theorem follow_known {v : Value} {p : List ValueMember} {x : Value} (h : GoesTo v p x) : follow v p = .ok (some x) ∨ follow v p = .ok none ∧ x = .none := by
  induction h with
  | here => exact .inl rfl
  | @key m k op x p y hk _ ih =>
    rw [follow, show lookup (.map m) ⟨op, .key k⟩ = .ok (some x) by cases op <;> simp only [lookup, hk]]
    exact ih
  | @index l i op x p y hk _ ih =>
    rw [follow, show lookup (.list l) ⟨op, .index i⟩ = .ok (some x) by cases op <;> simp only [lookup, hk]]
    exact ih
  | noKey h => refine .inr ⟨?_, rfl⟩; simp [follow, lookup, h]
  | noIndex h => refine .inr ⟨?_, rfl⟩; simp [follow, lookup, h]

/-- The names that are not bound have the values of the globals, whatever they are. -/
def Rests (g : Value) (bound : List Str) (ρ : Scope) : Prop :=
  ∀ n, n ∉ bound → ∀ p x, GoesTo g (⟨.direct, .key n⟩ :: p) x → resolve ρ n ⟨.direct, .key n⟩ p = .ok (.borrowed x)

theorem rests_globals (g : Value) : Rests g [] [.globals (.borrowed g)] := by
  intro n _ p x h
  rw [resolve, get]
  cases h with
  | @key m _ _ y _ _ hk h =>
    have e : lookup (.map m) ⟨.direct, .key n⟩ = .ok (some y) := by simp only [lookup, hk]
    rcases follow_known h with h' | ⟨h', rfl⟩
    · simp only [Cow.val, e, followCow, like, h', Res.ok_bind]
    · simp only [Cow.val, e, followCow, like, h', Res.ok_bind]

theorem rests_name {ρ : Scope} (h : Rests g bound ρ) (n : Str) (c : Cow) : Rests g (n :: bound) (.name (fun _ => some n) c :: ρ) := by
  intro m hm p x hp
  have hne : ¬ some n = some m := fun e => hm (by cases e; exact List.mem_cons_self)
  rw [resolve, get, if_neg hne]
  exact h m (fun k => hm (List.mem_cons_of_mem _ k)) p x hp

theorem rests_item {ρ : Scope} (h : Rests g bound ρ) (n : Str) (c : Cow) (i a : Nat) : Rests g ((Vars.item n).names ++ bound) (.item n c i a :: ρ) := by
  intro m hm p x hp
  simp only [Vars.names, List.cons_append, List.nil_append, List.mem_cons, not_or] at hm
  rw [resolve, get]
  dsimp only
  rw [if_neg hm.1, if_neg hm.2.1]
  exact h m hm.2.2 p x hp

theorem rests_entry {ρ : Scope} (h : Rests g bound ρ) (k v key : Str) (c : Cow) (i a : Nat) :
    Rests g ((Vars.keyValue k v).names ++ bound) (.entry k v key c i a :: ρ) := by
  intro m hm p x hp
  simp only [Vars.names, List.cons_append, List.nil_append, List.mem_cons, not_or] at hm
  rw [resolve, get.eq_def]
  dsimp only
  rw [if_neg hm.1, if_neg hm.2.1, if_neg hm.2.2.1]
  exact h m hm.2.2.2 p x hp

theorem list_rests {ρ : Scope} (h : Rests g bound ρ) (n : Str) (o : Bool) (l : List Value) (i : Nat) :
    ∀ b ∈ listRounds n o i l, Rests g ((Vars.item n).names ++ bound) (b :: ρ) := by
  induction l generalizing i with
  | nil => intro b hb; cases hb
  | cons x xs ih =>
    intro b hb
    rw [listRounds, List.mem_cons] at hb
    rcases hb with rfl | hb
    · exact rests_item h _ _ _ _
    · exact ih _ b hb

theorem map_rests {ρ : Scope} (h : Rests g bound ρ) (k v : Str) (o : Bool) (l : List (Str × Value)) (i : Nat) :
    ∀ b ∈ mapRounds k v o i l, Rests g ((Vars.keyValue k v).names ++ bound) (b :: ρ) := by
  induction l generalizing i with
  | nil => intro b hb; cases hb
  | cons x xs ih =>
    intro b hb
    obtain ⟨key, x⟩ := x
    rw [mapRounds, List.mem_cons] at hb
    rcases hb with rfl | hb
    · exact rests_entry h _ _ _ _ _ _
    · exact ih _ b hb

theorem rounds_rests {ρ : Scope} (h : Rests g bound ρ) {vs : Vars} {c : Cow} {bs : List Binding} (hr : rounds vs c = .ok bs) :
    ∀ b ∈ bs, Rests g (vs.names ++ bound) (b :: ρ) := by
  unfold rounds at hr
  split at hr
  · cases hr; exact list_rests h _ _ _ _
  · cases hr
  · cases hr; exact map_rests h _ _ _ _ _
  · cases hr
  · cases hr

theorem base_known {ρ : Scope} (hρ : Rests g bound ρ) {b : Base} {x : Value} (h : KnownBase g bound b x) : ∃ c, evalBase ρ b = .ok c ∧ c.val = x := by
  cases h with
  | var hn hp => exact ⟨_, by rw [evalBase]; exact hρ _ hn _ _ hp, rfl⟩
  | lit => exact ⟨_, rfl, rfl⟩

theorem arg_known {ρ : Scope} (hρ : Rests g bound ρ) (env : Env) (t : ArgTy) {b : Base} {x : Value} (h : KnownBase g bound b x) :
    evalArg env ρ t b = match offer env .argument true t x with | .ok a => .ok a | .error msg => fail msg := by
  cases h with
  | var hn hp => rw [evalArg, hρ _ hn _ _ hp]; rfl
  | lit => rw [evalArg]; rfl

theorem args_known {ρ : Scope} (hρ : Rests g bound ρ) (env : Env) {ts : List ArgTy} {bs : List Base} {xs : List Value} (h : KnownArgs g bound bs xs) {as : List ArgVal}
    (ha : given env ts xs = .ok as) : evalArgs env ρ ts bs = .ok as := by
  induction h generalizing ts as with
  | nil => cases ts <;> simp_all [given, evalArgs]
  | @cons b x bs xs hb _ ih =>
    cases ts with
    | nil => simp_all [given, evalArgs]
    | cons t ts =>
      rw [given] at ha
      rw [evalArgs, arg_known hρ env t hb]
      cases ho : offer env .argument true t x with
      | error m => rw [ho] at ha; cases ha
      | ok a =>
        rw [ho] at ha
        dsimp only at ha
        cases hg : given env ts xs with
        | error m => rw [hg] at ha; cases ha
        | ok as' =>
          rw [hg] at ha
          cases ha
          dsimp only
          rw [Res.ok_bind, ih hg, Res.ok_bind]

theorem KnownArgs.length {bs : List Base} {xs : List Value} (h : KnownArgs g bound bs xs) : bs.length = xs.length := by
  induction h with
  | nil => rfl
  | cons _ _ ih => rw [List.length_cons, List.length_cons, ih]

theorem apply_known {ρ : Scope} (hρ : Rests g bound ρ) {env : Env} {f : Filter} {c : Cow} {bs : List Base} {xs : List Value} {x : Value}
    (h : KnownArgs g bound bs xs) (ha : answers env f xs c.val = .value x) : applyFilter env ρ f c bs = .ok x := by
  rw [answers] at ha
  rw [applyFilter, h.length]
  split at ha
  · cases ha
  · rename_i hl
    rw [if_neg hl]
    cases ho : offer env .value true f.val c.val with
    | error m => rw [ho] at ha; cases ha
    | ok a =>
      rw [ho] at ha
      dsimp only at ha ⊢
      cases hg : given env f.args xs with
      | error m => rw [hg] at ha; cases ha
      | ok as =>
        rw [hg] at ha
        rw [args_known hρ env h hg, Res.ok_bind]
        dsimp only at ha ⊢
        cases hc : f.call a as with
        | ok r => rw [hc] at ha; cases ha; rfl
        | error m => rw [hc] at ha; cases ha

variable {cfg : Cfg}

theorem expr_known {ρ : Scope} (hρ : Rests g bound ρ) {e : Expr} {x : Value} (h : KnownExpr cfg.env cfg.functions g bound e x) :
    ∃ c, evalExpr cfg ρ e = .ok c ∧ c.val = x := by
  induction h with
  | base hb => rw [evalExpr]; exact base_known hρ hb
  | call _ hf ha hx ih =>
    obtain ⟨c, hc, rfl⟩ := ih
    rw [evalExpr, hc, Res.ok_bind, hf]
    dsimp only
    rw [apply_known hρ ha hx]
    exact ⟨_, rfl, rfl⟩

theorem tag_known {ρ : Scope} (hρ : Rests g bound ρ) (name : Option Str) {e : Expr} {t : Str} (h : KnownTag cfg.env cfg.functions cfg.defaultFormatter g bound e t) (w : World Str) :
    emitExpr cfg name ρ e w = .ok { w with out := w.out ++ t } := by
  cases h with
  | @value _ y _ he ht =>
    cases he with
    | base hb =>
      obtain ⟨c, hc, rfl⟩ := base_known hρ hb
      simp only [emitExpr, evalExpr, hc, andThen, write, ht w.out]
    | @call n args e v f xs x he hf ha hx =>
      obtain ⟨c, hc, rfl⟩ := expr_known hρ he
      have hf : BMap.get cfg.functions n = some (.filter f) := hf
      have k := apply_known hρ (c := c) ha hx
      cases args with
      | none =>
        have k : applyFilter cfg.env ρ f c [] = .ok y := k
        simp only [emitExpr, hc, andThen, hf, k, write, ht w.out]
      | some as =>
        have k : applyFilter cfg.env ρ f c as = .ok y := k
        simp only [emitExpr, evalExpr, hc, Res.ok_bind, andThen, hf, Option.getD_some, k, Cow.val, write, ht w.out]
  | formatter he hf ht =>
    obtain ⟨c, hc, rfl⟩ := expr_known hρ he
    simp only [emitExpr, hc, andThen, hf, write, ht w.out]

theorem seq_known (w : World Str) (k : World Str → RunRes Str) : seq (.ok w) k = k w := rfl

theorem stmts_known (inc : Include) (name : Option Str) {ρ : Scope} {ss ss' : List Stmt} (h : Specialised cfg.env cfg.functions cfg.defaultFormatter g bound ss ss') (hρ : Rests g bound ρ) (w : World Str) :
    evalStmts cfg inc name ρ ss w = evalStmts cfg inc name ρ ss' w := by
  induction h generalizing ρ w with
  | nil => rfl
  | shown ht _ ih =>
    rw [evalStmts_append, evalStmts_chars, evalStmts, evalStmt, tag_known hρ name ht, seq_known, seq_known]
    exact ih hρ _
  | @holds bound neg c x a a' e ss ss' hb ht _ _ iha ih =>
    obtain ⟨c, hc, rfl⟩ := expr_known hρ hb
    rw [evalStmts_append, evalStmts, evalStmt.eq_def]
    simp only [hc, andThen, if_pos ht, iha hρ]
    congr 1
    funext w
    exact ih hρ w
  | fails hb ht _ _ iha ih =>
    obtain ⟨c, hc, rfl⟩ := expr_known hρ hb
    rw [evalStmts_append, evalStmts, evalStmt]
    simp only [hc, andThen, ht, ne_eq, not_true_eq_false, if_false, iha hρ]
    congr 1
    funext w
    exact ih hρ w
  | skipped hb ht _ ih =>
    obtain ⟨c, hc, rfl⟩ := expr_known hρ hb
    rw [evalStmts, evalStmt]
    simp only [hc, andThen, ht, ne_eq, not_true_eq_false, if_false, seq_known]
    exact ih hρ w
  | noItems hb _ ih =>
    obtain ⟨c, hc, hv⟩ := expr_known hρ hb
    rw [evalStmts, evalStmt]
    simp only [hc, andThen, rounds, hv, listRounds, forEach, seq_known]
    exact ih hρ w
  | noEntries hb _ ih =>
    obtain ⟨c, hc, hv⟩ := expr_known hρ hb
    rw [evalStmts, evalStmt]
    simp only [hc, andThen, rounds, hv, mapRounds, forEach, seq_known]
    exact ih hρ w
  | char _ ih => rw [evalStmts, evalStmts]; congr 1; funext w; exact ih hρ w
  | expr _ ih => rw [evalStmts, evalStmts]; congr 1; funext w; exact ih hρ w
  | include_ _ ih => rw [evalStmts, evalStmts]; congr 1; funext w; exact ih hρ w
  | ifThen _ _ iha ih =>
    rw [evalStmts, evalStmts, evalStmt, evalStmt]
    simp only [iha hρ]
    congr 1
    funext w
    exact ih hρ w
  | ifElse _ _ _ iha ihb ih =>
    rw [evalStmts, evalStmts, evalStmt, evalStmt]
    simp only [iha hρ, ihb hρ]
    congr 1
    funext w
    exact ih hρ w
  | @for_ bound vs e b b' ss ss' _ _ ihb ih =>
    rw [evalStmts, evalStmts, evalStmt, evalStmt]
    congr 1
    · congr 1
      funext v
      cases hr : rounds vs v with
      | ok bs => exact forEach_fill (fun b hb w => ihb (rounds_rests hρ hr b hb) w) w
      | err e => rfl
      | crash => rfl
    · funext w
      exact ih hρ w
  | with_ _ _ ihb ih =>
    rw [evalStmts, evalStmts, evalStmt, evalStmt]
    congr 1
    · congr 1
      funext v
      exact ihb (rests_name hρ _ v) w
    · funext w
      exact ih hρ w

theorem render_known {ss ss' : List Stmt} (h : Specialised cfg.env cfg.functions cfg.defaultFormatter g [] ss ss') (name : Option Str) (w : World Str) :
    render cfg ss name [.globals (.borrowed g)] w = render cfg ss' name [.globals (.borrowed g)] w :=
  stmts_known _ name h (rests_globals g) w

end
end Plain
end Upon
