import Verif.Spec.Fill
import Verif.Proofs.Refactor
/-
Replacing variables by literals keeps the meaning (for C79).
-/
namespace Upon
open Spec

namespace Plain
section
variable {g : Value} {bound : List Str}

theorem follow_goes {v : Value} {p : List ValueMember} {x : Value} (h : GoesTo v p x) (hx : x ≠ .none) : follow v p = .ok (some x) := by
  induction h with
  | here => rfl
  | @key m k op x p y hk _ ih =>
    rw [follow, show lookup (.map m) ⟨op, .key k⟩ = .ok (some x) by cases op <;> simp only [lookup, hk]]
    exact ih hx
  | @index l i op x p y hk _ ih =>
    rw [follow, show lookup (.list l) ⟨op, .index i⟩ = .ok (some x) by cases op <;> simp only [lookup, hk]]
    exact ih hx
  | noKey => exact absurd rfl hx
  | noIndex => exact absurd rfl hx

theorem Writable.ne {x : Value} (h : Writable x) : x ≠ .none := by cases h <;> nofun

/-- The names that are not bound have the values of the globals. -/
def Sits (g : Value) (bound : List Str) (ρ : Scope) : Prop :=
  ∀ n, n ∉ bound → ∀ p x, GoesTo g (⟨.direct, .key n⟩ :: p) x → Writable x → resolve ρ n ⟨.direct, .key n⟩ p = .ok (.borrowed x)

theorem sits_globals (g : Value) : Sits g [] [.globals (.borrowed g)] := by
  intro n _ p x h hx
  rw [resolve, get]
  cases h with
  | @key m _ _ y _ _ hk h =>
    have e : lookup (.map m) ⟨.direct, .key n⟩ = .ok (some y) := by simp only [lookup, hk]
    simp only [Cow.val, e, followCow, like, follow_goes h hx.ne, Res.ok_bind]

theorem sits_name {ρ : Scope} (h : Sits g bound ρ) (n : Str) (c : Cow) : Sits g (n :: bound) (.name (fun _ => some n) c :: ρ) := by
  intro m hm p x hp hx
  have hne : ¬ some n = some m := fun e => hm (by cases e; exact List.mem_cons_self)
  rw [resolve, get, if_neg hne]
  exact h m (fun k => hm (List.mem_cons_of_mem _ k)) p x hp hx

theorem sits_item {ρ : Scope} (h : Sits g bound ρ) (n : Str) (c : Cow) (i a : Nat) : Sits g ((Vars.item n).names ++ bound) (.item n c i a :: ρ) := by
  intro m hm p x hp hx
  simp only [Vars.names, List.cons_append, List.nil_append, List.mem_cons, not_or] at hm
  rw [resolve, get]
  dsimp only
  rw [if_neg hm.1, if_neg hm.2.1]
  exact h m hm.2.2 p x hp hx

theorem sits_entry {ρ : Scope} (h : Sits g bound ρ) (k v key : Str) (c : Cow) (i a : Nat) :
    Sits g ((Vars.keyValue k v).names ++ bound) (.entry k v key c i a :: ρ) := by
  intro m hm p x hp hx
  simp only [Vars.names, List.cons_append, List.nil_append, List.mem_cons, not_or] at hm
  rw [resolve, get.eq_def]
  dsimp only
  rw [if_neg hm.1, if_neg hm.2.1, if_neg hm.2.2.1]
  exact h m hm.2.2.2 p x hp hx

theorem list_sits {ρ : Scope} (h : Sits g bound ρ) (n : Str) (o : Bool) (l : List Value) (i : Nat) :
    ∀ b ∈ listRounds n o i l, Sits g ((Vars.item n).names ++ bound) (b :: ρ) := by
  induction l generalizing i with
  | nil => intro b hb; cases hb
  | cons x xs ih =>
    intro b hb
    rw [listRounds, List.mem_cons] at hb
    rcases hb with rfl | hb
    · exact sits_item h _ _ _ _
    · exact ih _ b hb

theorem map_sits {ρ : Scope} (h : Sits g bound ρ) (k v : Str) (o : Bool) (l : List (Str × Value)) (i : Nat) :
    ∀ b ∈ mapRounds k v o i l, Sits g ((Vars.keyValue k v).names ++ bound) (b :: ρ) := by
  induction l generalizing i with
  | nil => intro b hb; cases hb
  | cons x xs ih =>
    intro b hb
    obtain ⟨key, x⟩ := x
    rw [mapRounds, List.mem_cons] at hb
    rcases hb with rfl | hb
    · exact sits_entry h _ _ _ _ _ _
    · exact ih _ b hb

theorem rounds_sits {ρ : Scope} (h : Sits g bound ρ) {vs : Vars} {c : Cow} {bs : List Binding} (hr : rounds vs c = .ok bs) :
    ∀ b ∈ bs, Sits g (vs.names ++ bound) (b :: ρ) := by
  unfold rounds at hr
  split at hr
  · cases hr; exact list_sits h _ _ _ _
  · cases hr
  · cases hr; exact map_sits h _ _ _ _ _
  · cases hr
  · cases hr

/-- The same value; a literal may be owned. -/
inductive Alike : Res Cow → Res Cow → Prop
  | same {r} : Alike r r
  | literal {x} : Writable x → Alike (.ok (.borrowed x)) (.ok (.owned x))

theorem Alike.bind {α : Type} {r r' : Res Cow} (h : Alike r r') (k : Cow → Res α) (hk : ∀ x, Writable x → k (.borrowed x) = k (.owned x)) :
    r >>= k = r' >>= k := by
  cases h with
  | same => rfl
  | literal hx => exact hk _ hx

theorem Alike.then_ {r r' : Res Cow} (h : Alike r r') (name : Option Str) (w : World Str) (k : Cow → RunRes Str)
    (hk : ∀ x, Writable x → k (.borrowed x) = k (.owned x)) : andThen name w r k = andThen name w r' k := by
  cases h with
  | same => rfl
  | literal hx => exact hk _ hx

theorem base_fill {ρ : Scope} (hρ : Sits g bound ρ) {b b' : Base} (h : FilledBase g bound b b') : Alike (evalBase ρ b) (evalBase ρ b') := by
  cases h with
  | var hn hp hx => rw [evalBase, evalBase, hρ _ hn _ _ hp hx]; exact .literal hx
  | same => exact .same

theorem arg_fill {ρ : Scope} (hρ : Sits g bound ρ) (env : Env) (t : ArgTy) {b b' : Base} (h : FilledBase g bound b b') :
    evalArg env ρ t b = evalArg env ρ t b' := by
  cases h with
  | var hn hp hx => rw [evalArg, evalArg, hρ _ hn _ _ hp hx]; rfl
  | same => rfl

theorem args_fill {ρ : Scope} (hρ : Sits g bound ρ) (env : Env) (ts : List ArgTy) {as as' : List Base} (h : FilledArgs g bound as as') :
    evalArgs env ρ ts as = evalArgs env ρ ts as' := by
  induction h generalizing ts with
  | nil => rfl
  | cons ha _ ih =>
    cases ts with
    | nil => rfl
    | cons t ts => rw [evalArgs, evalArgs, arg_fill hρ env t ha, ih ts]

theorem FilledArgs.length {as as' : List Base} (h : FilledArgs g bound as as') : as.length = as'.length := by
  induction h with
  | nil => rfl
  | cons _ _ ih => rw [List.length_cons, List.length_cons, ih]

theorem apply_fill {ρ : Scope} (hρ : Sits g bound ρ) (env : Env) (f : Filter) (v : Cow) {as as' : List Base} (h : FilledArgs g bound as as') :
    applyFilter env ρ f v as = applyFilter env ρ f v as' := by
  unfold applyFilter
  rw [h.length]
  simp only [args_fill hρ env f.args h]

theorem FilledArgs.refl (as : List Base) : FilledArgs g bound as as := by
  induction as with
  | nil => exact .nil
  | cons a as ih => exact .cons .same ih

variable {cfg : Cfg}

theorem call_fill {ρ : Scope} (hρ : Sits g bound ρ) (n : Str) {as as' : Option (List Base)} (ha : FilledArgs g bound (as.getD []) (as'.getD []))
    {r r' : Expr} (hr : Alike (evalExpr cfg ρ r) (evalExpr cfg ρ r')) : evalExpr cfg ρ (.call n as r) = evalExpr cfg ρ (.call n as' r') := by
  rw [evalExpr, evalExpr]
  have e : ∀ v f, applyFilter cfg.env ρ f v (as.getD []) = applyFilter cfg.env ρ f v (as'.getD []) := fun v f => apply_fill hρ cfg.env f v ha
  simp only [e]
  exact hr.bind _ fun x _ => rfl

theorem expr_fill {ρ : Scope} (hρ : Sits g bound ρ) {e e' : Expr} (h : FilledExpr g bound e e') : Alike (evalExpr cfg ρ e) (evalExpr cfg ρ e') := by
  induction h with
  | base h => rw [evalExpr, evalExpr]; exact base_fill hρ h
  | call _ ih => rw [call_fill hρ _ (.refl _) ih]; exact .same
  | callWith ha _ ih => rw [call_fill (as := some _) (as' := some _) hρ _ ha ih]; exact .same

theorem handed_fill {ρ : Scope} (hρ : Sits g bound ρ) {e e' : Expr} (h : FilledHanded g bound e e') : evalExpr cfg ρ e = evalExpr cfg ρ e' := by
  cases h with
  | alone => rfl
  | call h =>
    cases h with
    | call h => exact call_fill hρ _ (.refl _) (expr_fill hρ h)
    | callWith ha h => exact call_fill (as := some _) (as' := some _) hρ _ ha (expr_fill hρ h)

theorem emit_fill {ρ : Scope} (hρ : Sits g bound ρ) (name : Option Str) {e e' : Expr} (h : FilledExpr g bound e e') (w : World Str) :
    emitExpr cfg name ρ e w = emitExpr cfg name ρ e' w := by
  cases h with
  | base h => simp only [emitExpr]; exact (expr_fill (cfg := cfg) hρ (.base h)).then_ _ _ _ fun x _ => rfl
  | call h => simp only [emitExpr]; exact (expr_fill (cfg := cfg) hρ h).then_ _ _ _ fun x _ => rfl
  | callWith ha h => simp only [emitExpr]; exact (expr_fill (cfg := cfg) hρ (.callWith ha h)).then_ _ _ _ fun x _ => rfl

theorem forEach_fill {α : Type} {f f' : α → World Str → RunRes Str} {as : List α} (h : ∀ a ∈ as, ∀ w, f a w = f' a w) (w : World Str) :
    forEach f as w = forEach f' as w := by
  induction as generalizing w with
  | nil => rfl
  | cons a as ih =>
    rw [forEach, forEach, h a List.mem_cons_self]
    congr 1
    funext w
    exact ih (fun b hb => h b (List.mem_cons_of_mem _ hb)) w

theorem stmts_fill (inc : Include) (name : Option Str) {ρ : Scope} {ss ss' : List Stmt} (h : Filled g bound ss ss') (hρ : Sits g bound ρ) (w : World Str) :
    evalStmts cfg inc name ρ ss w = evalStmts cfg inc name ρ ss' w := by
  induction h generalizing ρ w with
  | nil => rfl
  | char _ ih =>
    rw [evalStmts, evalStmts]
    congr 1
    funext w
    exact ih hρ w
  | expr he _ ih =>
    rw [evalStmts, evalStmts, evalStmt, evalStmt, emit_fill hρ name he]
    congr 1
    funext w
    exact ih hρ w
  | include_ _ ih =>
    rw [evalStmts, evalStmts]
    congr 1
    funext w
    exact ih hρ w
  | includeWith he _ ih =>
    rw [evalStmts, evalStmts, evalStmt, evalStmt, handed_fill hρ he]
    congr 1
    funext w
    exact ih hρ w
  | ifThen he _ _ iha ih =>
    rw [evalStmts, evalStmts, evalStmt, evalStmt, (expr_fill (cfg := cfg) hρ he).then_ _ _ _ fun x _ => rfl]
    simp only [iha hρ]
    congr 1
    funext w
    exact ih hρ w
  | ifElse he _ _ _ iha ihb ih =>
    rw [evalStmts, evalStmts, evalStmt, evalStmt, (expr_fill (cfg := cfg) hρ he).then_ _ _ _ fun x _ => rfl]
    simp only [iha hρ, ihb hρ]
    congr 1
    funext w
    exact ih hρ w
  | @for_ bound vs e e' b b' ss ss' he _ _ ihb ih =>
    rw [evalStmts, evalStmts, evalStmt, evalStmt,
      (expr_fill (cfg := cfg) hρ he).then_ _ _ _ fun x hx => by cases hx <;> cases vs <;> rfl]
    congr 1
    · congr 1
      funext v
      cases hr : rounds vs v with
      | ok bs => exact forEach_fill (fun b hb w => ihb (rounds_sits hρ hr b hb) w) w
      | err e => rfl
      | crash => rfl
    · funext w
      exact ih hρ w
  | with_ he _ _ ihb ih =>
    rw [evalStmts, evalStmts, evalStmt, evalStmt, handed_fill hρ he]
    congr 1
    · congr 1
      funext v
      exact ihb (sits_name hρ _ v) w
    · funext w
      exact ih hρ w

theorem render_fill {ss ss' : List Stmt} (h : Filled g [] ss ss') (name : Option Str) (w : World Str) :
    render cfg ss name [.globals (.borrowed g)] w = render cfg ss' name [.globals (.borrowed g)] w :=
  stmts_fill _ name h (sits_globals g) w

/-! Everywhere -/

variable {taken : List Str}

theorem Sits.more {ρ : Scope} (h : Sits g bound ρ) (hb : ∀ n ∈ bound, n ∈ taken) : Sits g taken ρ :=
  fun n hn => h n fun k => hn (hb n k)

theorem stmts_along {cfg' : Cfg} (k : Kin cfg cfg') {inc inc' : Include} (hi : ∀ n name ρ w, Sits g taken ρ → inc n name ρ w = inc' n name ρ w) (name : Option Str) {ρ : Scope}
    {ss ss' : List Stmt} (h : FilledAlong g taken ss ss') (hρ : Sits g taken ρ) (w : World Str) :
    evalStmts cfg inc name ρ ss w = evalStmts cfg' inc' name ρ ss' w := by
  induction h generalizing ρ w with
  | nil => rw [evalStmts, evalStmts]
  | char _ ih =>
    rw [evalStmts, evalStmts, evalStmt, evalStmt]
    congr 1
    funext w
    exact ih hρ w
  | expr he _ ih =>
    rw [evalStmts, evalStmts, evalStmt, evalStmt, emit_fill hρ name he, k.emit]
    congr 1
    funext w
    exact ih hρ w
  | include_ _ ih =>
    rw [evalStmts, evalStmts, evalStmt, evalStmt, hi _ _ _ _ hρ]
    congr 1
    funext w
    exact ih hρ w
  | ifThen he _ _ iha ih =>
    rw [evalStmts, evalStmts, evalStmt, evalStmt, (expr_fill (cfg := cfg) hρ he).then_ _ _ _ fun x _ => rfl, k.expr]
    simp only [iha hρ]
    congr 1
    funext w
    exact ih hρ w
  | ifElse he _ _ _ iha ihb ih =>
    rw [evalStmts, evalStmts, evalStmt, evalStmt, (expr_fill (cfg := cfg) hρ he).then_ _ _ _ fun x _ => rfl, k.expr]
    simp only [iha hρ, ihb hρ]
    congr 1
    funext w
    exact ih hρ w
  | @for_ vs e e' b b' ss ss' hv he _ _ ihb ih =>
    rw [evalStmts, evalStmts, evalStmt, evalStmt,
      (expr_fill (cfg := cfg) hρ he).then_ _ _ _ fun x hx => by cases hx <;> cases vs <;> rfl, k.expr]
    congr 1
    · congr 1
      funext v
      cases hr : rounds vs v with
      | ok bs =>
        refine forEach_fill (fun b hb w => ihb ((rounds_sits hρ hr b hb).more fun n hn => ?_) w) w
        rcases List.mem_append.mp hn with hn | hn
        · exact hv n hn
        · exact hn
      | err e => rfl
      | crash => rfl
    · funext w
      exact ih hρ w
  | with_ hn he _ _ ihb ih =>
    rw [evalStmts, evalStmts, evalStmt, evalStmt, handed_fill hρ he, k.expr]
    congr 1
    · congr 1
      funext v
      refine ihb ((sits_name hρ _ v).more fun n hm => ?_) w
      rcases List.mem_cons.mp hm with rfl | hm
      · exact hn
      · exact hm
    · funext w
      exact ih hρ w

theorem include_along {cfg' : Cfg} (k : Kin cfg cfg') (hr : cfg.record = cfg'.record) (hd : cfg.maxIncludeDepth = cfg'.maxIncludeDepth)
    (hf : ∀ a n, Answers (FilledAlong g taken) (cfg.find a n) (cfg'.find a n)) (left : Nat) :
    ∀ n name ρ w, Sits g taken ρ → include_ cfg left n name ρ w = include_ cfg' left n name ρ w := by
  have ha : ∀ n w, asked cfg n w = asked cfg' n w := fun n w => by unfold asked; rw [hr]
  induction left with
  | zero =>
    intro n name ρ w _
    have := hf w.asked n
    rw [include_, include_, ← hd, ha]
    generalize cfg.find w.asked n = p, cfg'.find w.asked n = q at this
    cases this <;> rfl
  | succ left ih =>
    intro n name ρ w hρ
    have := hf w.asked n
    rw [include_, include_, ha]
    generalize cfg.find w.asked n = p, cfg'.find w.asked n = q at this
    cases this with
    | found h => exact stmts_along k ih _ h hρ _
    | refused => rfl

theorem render_along {cfg' : Cfg} (k : Kin cfg cfg') (hr : cfg.record = cfg'.record) (hd : cfg.maxIncludeDepth = cfg'.maxIncludeDepth)
    (hf : ∀ a n, Answers (FilledAlong g taken) (cfg.find a n) (cfg'.find a n)) {ss ss' : List Stmt} (h : FilledAlong g taken ss ss')
    (name : Option Str) (w : World Str) : render cfg ss name [.globals (.borrowed g)] w = render cfg' ss' name [.globals (.borrowed g)] w := by
  rw [render, render, ← hd]
  exact stmts_along k (include_along k hr hd hf _) name h ((sits_globals g).more nofun) w

end
end Plain
end Upon
