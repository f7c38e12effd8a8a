import Verif.Spec.Labels
import Verif.Proofs.Compose
/-
The semantics without byte ranges does not depend on names (for C70).
-/
namespace Upon
open Spec

namespace Plain
section
variable {L : Labels}

/-! Errors of expressions name no template -/

/-- An error, if it is one, names no template. -/
def Nameless {α : Type} (r : Res α) : Prop := ∀ e, r = .err e → e.name = none

theorem nameless_ok {α : Type} (a : α) : Nameless (.ok a) := nofun
theorem nameless_crash {α : Type} : Nameless (.crash : Res α) := nofun
theorem nameless_fail {α : Type} (m : String) : Nameless (fail m : Res α) := by rintro e ⟨⟩; rfl
theorem nameless_bind {α β : Type} {r : Res α} {k : α → Res β} (h : Nameless r) (hk : ∀ a, Nameless (k a)) : Nameless (r >>= k) := by
  cases r with
  | ok a => exact hk a
  | err e => exact fun e' h' => by cases h'; exact h e rfl
  | crash => exact nofun

theorem nameless_lookup (v : Value) (m : ValueMember) : Nameless (lookup v m) := by
  unfold lookup
  split
  · split <;> first | exact nameless_ok _ | exact nameless_fail _
  · split <;> first | exact nameless_ok _ | exact nameless_fail _
  · exact nameless_fail _
  · exact nameless_fail _

theorem nameless_follow (v : Value) (ms : List ValueMember) : Nameless (follow v ms) := by
  induction ms generalizing v with
  | nil => exact nameless_ok _
  | cons m ms ih =>
    rw [follow]
    have := nameless_lookup v m
    split
    · exact ih _
    · exact nameless_ok _
    · rename_i e h; rw [h] at this; exact fun e' h' => by cases h'; exact this e rfl
    · exact nameless_crash

theorem nameless_followCow (c : Cow) (ms : List ValueMember) : Nameless (followCow c ms) := by
  unfold followCow
  have := nameless_follow c.val ms
  split
  · exact nameless_ok _
  · exact nameless_ok _
  · rename_i e h; rw [h] at this; exact fun e' h' => by cases h'; exact this e rfl
  · exact nameless_crash

theorem nameless_followItem (c : Cow) (ms : List ValueMember) : Nameless (followItem c ms) := by
  unfold followItem
  have := nameless_follow c.val ms
  split
  · exact nameless_ok _
  · exact nameless_ok _
  · rename_i e h; rw [h] at this; exact fun e' h' => by cases h'; exact this e rfl
  · exact nameless_crash

theorem nameless_loopInfo (i a : Nat) (ms : List ValueMember) : Nameless (loopInfo i a ms) := by
  unfold loopInfo
  split
  · exact nameless_ok _
  · split
    · exact nameless_fail _
    · refine nameless_bind ?_ fun v => ?_
      · by_cases h1 : (‹Str›) = "index".toList
        · rw [if_pos h1]; exact nameless_ok _
        rw [if_neg h1]
        by_cases h2 : (‹Str›) = "first".toList
        · rw [if_pos h2]; exact nameless_ok _
        rw [if_neg h2]
        by_cases h3 : (‹Str›) = "last".toList
        · rw [if_pos h3]; exact nameless_ok _
        rw [if_neg h3]
        split
        · exact nameless_ok _
        · exact nameless_fail _
      · split
        · exact nameless_ok _
        · exact nameless_fail _

theorem nameless_get (b : Binding) (n : Str) (f : ValueMember) (r : List ValueMember) : Nameless (get b n f r) := by
  unfold get
  cases b with
  | globals c =>
    dsimp only
    split
    · exact nameless_bind (nameless_followCow _ _) fun _ => nameless_ok _
    · exact nameless_ok _
    · exact nameless_ok _
    · exact nameless_crash
  | provider g => dsimp only; split <;> first | exact nameless_ok _ | exact nameless_fail _
  | name m c =>
    dsimp only
    split
    · exact nameless_bind (nameless_followCow _ _) fun _ => nameless_ok _
    · exact nameless_ok _
  | item m c i a =>
    dsimp only
    split
    · exact nameless_ok _
    · split
      · exact nameless_loopInfo _ _ _
      · split
        · exact nameless_followItem _ _
        · exact nameless_ok _
  | entry k v key c i a =>
    dsimp only
    split
    · exact nameless_ok _
    · split
      · exact nameless_loopInfo _ _ _
      · split
        · split <;> first | exact nameless_ok _ | exact nameless_fail _
        · split
          · exact nameless_followItem _ _
          · exact nameless_ok _
  | wall => exact nameless_fail _

theorem nameless_resolve (ρ : Scope) (n : Str) (f : ValueMember) (r : List ValueMember) : Nameless (resolve ρ n f r) := by
  induction ρ with
  | nil => exact nameless_fail _
  | cons b ρ ih =>
    rw [resolve]
    refine nameless_bind (nameless_get _ _ _ _) fun x => ?_
    cases x with
    | none => exact ih
    | some c => exact nameless_ok _

theorem nameless_base (ρ : Scope) (b : Base) : Nameless (evalBase ρ b) := by
  cases b with
  | var n f r => exact nameless_resolve _ _ _ _
  | lit v => exact nameless_ok _

theorem nameless_arg (env : Env) (ρ : Scope) (t : ArgTy) (b : Base) : Nameless (evalArg env ρ t b) := by
  cases b with
  | lit v => rw [evalArg]; split <;> first | exact nameless_ok _ | exact nameless_fail _
  | var n f r =>
    rw [evalArg]
    refine nameless_bind (nameless_resolve _ _ _ _) fun c => ?_
    split <;> first | exact nameless_ok _ | exact nameless_fail _

theorem nameless_args (env : Env) (ρ : Scope) (ts : List ArgTy) (as : List Base) : Nameless (evalArgs env ρ ts as) := by
  induction ts generalizing as with
  | nil => rw [evalArgs]; · exact nameless_ok _
           · exact nofun
  | cons t ts ih =>
    cases as with
    | nil => rw [evalArgs]; · exact nameless_ok _
             · exact nofun
    | cons a as =>
      rw [evalArgs]
      exact nameless_bind (nameless_arg _ _ _ _) fun _ => nameless_bind (ih as) fun _ => nameless_ok _

theorem nameless_filter (env : Env) (ρ : Scope) (f : Filter) (v : Cow) (args : List Base) : Nameless (applyFilter env ρ f v args) := by
  unfold applyFilter
  split
  · exact nameless_fail _
  · split
    · exact nameless_fail _
    · refine nameless_bind (nameless_args _ _ _ _) fun as => ?_
      split
      · exact nameless_ok _
      · rintro e ⟨⟩; rfl

theorem nameless_expr (cfg : Cfg) (ρ : Scope) (e : Expr) : Nameless (evalExpr cfg ρ e) := by
  induction e with
  | base b => exact nameless_base ρ b
  | call n args recv ih =>
    rw [evalExpr]
    refine nameless_bind ih fun v => ?_
    split
    · exact nameless_bind (nameless_filter _ _ _ _ _) fun _ => nameless_ok _
    · exact nameless_fail _
    · exact nameless_fail _

theorem nameless_rounds (vs : Vars) (c : Cow) : Nameless (rounds vs c) := by
  unfold rounds; split <;> first | exact nameless_ok _ | exact nameless_fail _

/-! Variables -/

/-- A binding and the one with the new names. -/
inductive Twin (L : Labels) : Binding → Binding → Prop
  | globals {c c' m m'} : c.val = .map m → c'.val = .map m' → isOwned c = isOwned c' → (∀ n, BMap.get m' (L.variable_ n) = BMap.get m n) →
      Twin L (.globals c) (.globals c')
  | same {c} : (∀ n, L.variable_ n = n) → Twin L (.globals c) (.globals c)
  | provider {f f' : ValueFn} : (∀ first rest, f' (newFirst L first :: rest) = f (first :: rest)) → Twin L (.provider f) (.provider f')
  | name {n c} : Twin L (.name (fun _ => some n) c) (.name (fun _ => some (L.variable_ n)) c)
  | item {n c i a} : Twin L (.item n c i a) (.item (L.variable_ n) c i a)
  | entry {k v key c i a} : Twin L (.entry k v key c i a) (.entry (L.variable_ k) (L.variable_ v) key c i a)
  | wall : Twin L .wall .wall

theorem first_same (h : ∀ n, L.variable_ n = n) (m : ValueMember) : newFirst L m = m := by
  obtain ⟨op, a⟩ := m
  cases a with
  | index i => rfl
  | key k => unfold newFirst; dsimp only; rw [h]

theorem like_same {c c' : Cow} (h : isOwned c = isOwned c') (x : Value) : like c' x = like c x := by
  cases c <;> cases c' <;> first | rfl | cases h

theorem new_iff (a b : Str) : L.variable_ a = L.variable_ b ↔ a = b := ⟨L.distinct a b, fun h => by rw [h]⟩

theorem new_loop (a : Str) : L.variable_ a = "loop".toList ↔ a = "loop".toList := by
  conv => lhs; rw [← L.loop]
  exact new_iff a _

theorem get_twin {b b' : Binding} (h : Twin L b b') (n : Str) (f : ValueMember) (r : List ValueMember) :
    get b' (L.variable_ n) (newFirst L f) r = get b n f r := by
  cases h with
  | @globals c c' m m' h1 h2 h3 h4 =>
    unfold get
    dsimp only
    rw [h1, h2]
    obtain ⟨op, a⟩ := f
    cases a with
    | index i => rfl
    | key k =>
      have e : lookup (.map m') (newFirst L ⟨op, .key k⟩) = lookup (.map m) ⟨op, .key k⟩ := by
        simp only [newFirst, lookup, h4]
      rw [e]
      split
      · rw [like_same h3]
      · rfl
      · rfl
      · rfl
  | same h => rw [first_same h, h]
  | provider h =>
    unfold get
    dsimp only
    rw [h]
  | @name m c =>
    unfold get
    dsimp only
    exact if_congr (by rw [Option.some.injEq, Option.some.injEq]; exact new_iff _ _) rfl rfl
  | item =>
    obtain ⟨op, a⟩ := f
    unfold get
    cases a with
    | index i => rfl
    | key k =>
      dsimp only [newFirst]
      exact if_congr (new_loop _) rfl (if_congr (new_iff _ _) rfl rfl)
  | entry =>
    obtain ⟨op, a⟩ := f
    unfold get
    cases a with
    | index i => rfl
    | key k =>
      dsimp only [newFirst]
      exact if_congr (new_loop _) rfl (if_congr (new_iff _ _) rfl (if_congr (new_iff _ _) rfl rfl))
  | wall => rfl

/-- Bindings in force. -/
inductive Twins (L : Labels) : Scope → Scope → Prop
  | nil : Twins L [] []
  | cons {b b' ρ ρ'} : Twin L b b' → Twins L ρ ρ' → Twins L (b :: ρ) (b' :: ρ')

theorem resolve_twin {ρ ρ' : Scope} (h : Twins L ρ ρ') (n : Str) (f : ValueMember) (r : List ValueMember) :
    resolve ρ' (L.variable_ n) (newFirst L f) r = resolve ρ n f r := by
  induction h with
  | nil => rfl
  | cons h _ ih => rw [resolve, resolve, get_twin h, ih]

theorem base_twin {ρ ρ' : Scope} (h : Twins L ρ ρ') (b : Base) : evalBase ρ' (newBase L b) = evalBase ρ b := by
  cases b with
  | var n f r => exact resolve_twin h n f r
  | lit v => rfl

theorem arg_twin {ρ ρ' : Scope} (h : Twins L ρ ρ') (env : Env) (t : ArgTy) (b : Base) : evalArg env ρ' t (newBase L b) = evalArg env ρ t b := by
  cases b with
  | var n f r => rw [newBase, evalArg, evalArg, resolve_twin h]
  | lit v => rfl

theorem args_twin {ρ ρ' : Scope} (h : Twins L ρ ρ') (env : Env) (ts : List ArgTy) (as : List Base) :
    evalArgs env ρ' ts (as.map (newBase L)) = evalArgs env ρ ts as := by
  induction ts generalizing as with
  | nil => cases as <;> simp only [List.map, evalArgs]
  | cons t ts ih =>
    cases as with
    | nil => simp only [List.map, evalArgs]
    | cons a as => rw [List.map, evalArgs, evalArgs, arg_twin h, ih]

theorem filter_twin {ρ ρ' : Scope} (h : Twins L ρ ρ') (env : Env) (f : Filter) (v : Cow) (args : List Base) :
    applyFilter env ρ' f v (args.map (newBase L)) = applyFilter env ρ f v args := by
  unfold applyFilter
  rw [List.length_map, args_twin h]

/-- The configuration with the new names. -/
structure TwinCfg (L : Labels) (cfg cfg' : Cfg) : Prop where
  env : cfg'.env = cfg.env
  formatter : cfg'.defaultFormatter = cfg.defaultFormatter
  functions : ∀ n, BMap.get cfg'.functions (L.function n) = BMap.get cfg.functions n
  depth : cfg'.maxIncludeDepth = cfg.maxIncludeDepth
  record : cfg'.record = cfg.record
  find : ∀ a n, cfg'.find (a.map L.template) (L.template n) = (cfg.find a n).map (newStmts L)

variable {cfg cfg' : Cfg}

theorem expr_twin (hc : TwinCfg L cfg cfg') {ρ ρ' : Scope} (h : Twins L ρ ρ') (e : Expr) : evalExpr cfg' ρ' (newExpr L e) = evalExpr cfg ρ e := by
  induction e with
  | base b => exact base_twin h b
  | call n args recv ih =>
    rw [newExpr, evalExpr, evalExpr, ih, hc.functions, hc.env]
    congr 1
    funext v
    split
    · cases args with
      | none => exact congrArg (· >>= _) (filter_twin h cfg.env _ v [])
      | some as => exact congrArg (· >>= _) (filter_twin h cfg.env _ v as)
    · rfl
    · rfl

/-! Runs -/

/-- The world, with the new names of the templates asked for. -/
def newWorld (L : Labels) (w : World Str) : World Str := { w with asked := w.asked.map L.template }

/-- The run, with the new names. -/
def newRun (L : Labels) : RunRes Str → RunRes Str
  | .ok w => .ok (newWorld L w)
  | .err e w => .err (newError L e) (newWorld L w)
  | .crash => .crash

theorem newError_attach {e : Err} (h : e.name = none) (name : Option Str) : newError L (e.attachName name) = e.attachName (name.map L.template) := by
  obtain ⟨k, n, m, p⟩ := e
  cases h
  cases name <;> rfl

theorem new_andThen {α : Type} {name : Option Str} {w : World Str} {r : Res α} (hr : Nameless r) {k k' : α → RunRes Str} (h : ∀ a, k' a = newRun L (k a)) :
    andThen (name.map L.template) (newWorld L w) r k' = newRun L (andThen name w r k) := by
  cases r with
  | ok a => exact h a
  | err e => rw [andThen, andThen, newRun, newError_attach (hr e rfl)]
  | crash => rfl

theorem new_seq {r : RunRes Str} {k k' : World Str → RunRes Str} (h : ∀ w, k' (newWorld L w) = newRun L (k w)) :
    seq (newRun L r) k' = newRun L (seq r k) := by
  cases r with
  | ok w => exact h w
  | err e w => rfl
  | crash => rfl

theorem write_twin (name : Option Str) (f : Formatter) (v : Value) (w : World Str) :
    write (name.map L.template) f v (newWorld L w) = newRun L (write name f v w) := by
  unfold write
  show (match (f v).run stringSink w.out with | (out, .ok ()) => _ | (out, .error reason) => _) = _
  split <;> rename_i h
  · rw [h]; rfl
  · rw [h]
    show RunRes.err _ _ = RunRes.err (newError L _) _
    rw [newError_attach rfl]
    rfl

theorem emit_twin (hc : TwinCfg L cfg cfg') {ρ ρ' : Scope} (h : Twins L ρ ρ') (name : Option Str) (e : Expr) (w : World Str) :
    emitExpr cfg' (name.map L.template) ρ' (newExpr L e) (newWorld L w) = newRun L (emitExpr cfg name ρ e w) := by
  match e with
  | .base b =>
    rw [newExpr, emitExpr, emitExpr, hc.formatter]
    · rw [← newExpr, expr_twin hc h]
      exact new_andThen (nameless_expr _ _ _) fun v => write_twin ..
    · exact nofun
    · exact nofun
  | .call n (some as) recv =>
    rw [newExpr, emitExpr, emitExpr, hc.formatter]
    · have := expr_twin hc h (.call n (some as) recv)
      rw [newExpr] at this
      rw [this]
      exact new_andThen (nameless_expr _ _ _) fun v => write_twin ..
    · exact nofun
    · exact nofun
  | .call n none recv =>
    rw [newExpr, Option.map_none, emitExpr, emitExpr, expr_twin hc h, hc.functions, hc.formatter, hc.env]
    refine new_andThen (nameless_expr _ _ _) fun v => ?_
    split
    · exact write_twin ..
    · have e := filter_twin h cfg.env ‹Filter› v []
      rw [List.map_nil] at e
      rw [e]
      exact new_andThen (nameless_filter _ _ _ _ _) fun v => write_twin ..
    · exact new_andThen (nameless_fail _) fun _ => rfl

theorem rounds_twin (vs : Vars) (c : Cow) : (∃ e, rounds (newVars L vs) c = .err e ∧ rounds vs c = .err e) ∨
    ∃ bs bs', rounds (newVars L vs) c = .ok bs' ∧ rounds vs c = .ok bs ∧ Twins L bs bs' := by
  have h1 : ∀ (n : Str) o i l, Twins L (listRounds n o i l) (listRounds (L.variable_ n) o i l) := by
    intro n o i l
    induction l generalizing i with
    | nil => exact .nil
    | cons x xs ih => exact .cons .item (ih _)
  have h2 : ∀ (k v : Str) o i l, Twins L (mapRounds k v o i l) (mapRounds (L.variable_ k) (L.variable_ v) o i l) := by
    intro k v o i l
    induction l generalizing i with
    | nil => exact .nil
    | cons x xs ih => obtain ⟨key, x⟩ := x; exact .cons .entry (ih _)
  cases vs with
  | item n =>
    unfold rounds newVars
    cases c.val <;> first
      | exact .inl ⟨_, rfl, rfl⟩
      | exact .inr ⟨_, _, rfl, rfl, h1 _ _ _ _⟩
  | keyValue k v =>
    unfold rounds newVars
    cases c.val <;> first
      | exact .inl ⟨_, rfl, rfl⟩
      | exact .inr ⟨_, _, rfl, rfl, h2 _ _ _ _ _⟩

theorem forEach_twin {f g : Binding → World Str → RunRes Str} (h : ∀ b b', Twin L b b' → ∀ w, g b' (newWorld L w) = newRun L (f b w)) {bs bs' : List Binding}
    (hb : Twins L bs bs') (w : World Str) : forEach g bs' (newWorld L w) = newRun L (forEach f bs w) := by
  induction hb generalizing w with
  | nil => rfl
  | cons h1 _ ih => rw [forEach, forEach, h _ _ h1]; exact new_seq ih

section
variable {inc inc' : Include} (hinc : ∀ n name ρ ρ' w, Twins L ρ ρ' → inc' (L.template n) (name.map L.template) ρ' (newWorld L w) = newRun L (inc n name ρ w))
include hinc

mutual
theorem stmt_twin (hc : TwinCfg L cfg cfg') (name : Option Str) {ρ ρ' : Scope} (h : Twins L ρ ρ') (s : Stmt) (hs : (∀ n, L.variable_ n = n) ∨ s.NoScope)
    (w : World Str) : evalStmt cfg' inc' (name.map L.template) ρ' (newStmt L s) (newWorld L w) = newRun L (evalStmt cfg inc name ρ s w) := by
  match s with
  | .char c => simp only [newStmt, evalStmt]; rfl
  | .expr e => simp only [newStmt, evalStmt]; exact emit_twin hc h name e w
  | .include_ n none => simp only [newStmt, evalStmt]; exact hinc n name ρ ρ' w h
  | .include_ n (some e) =>
    simp only [newStmt, evalStmt]
    rw [expr_twin hc h]
    rcases hs with hs | hs
    · exact new_andThen (nameless_expr _ _ _) fun v => hinc n name _ _ w (.cons (.same hs) (.cons .wall h))
    · exact hs.elim
  | .ifElse neg c t none =>
    simp only [newStmt, evalStmt]
    rw [expr_twin hc h]
    refine new_andThen (nameless_expr _ _ _) fun v => ?_
    split
    · exact stmts_twin hc name h t (hs.imp id id) w
    · rfl
  | .ifElse neg c t (some e) =>
    simp only [newStmt, evalStmt]
    rw [expr_twin hc h]
    refine new_andThen (nameless_expr _ _ _) fun v => ?_
    split
    · exact stmts_twin hc name h t (hs.imp id And.left) w
    · exact stmts_twin hc name h e (hs.imp id And.right) w
  | .forLoop vs e b =>
    simp only [newStmt, evalStmt]
    rw [expr_twin hc h]
    refine new_andThen (nameless_expr _ _ _) fun v => ?_
    rcases rounds_twin (L := L) vs v with ⟨er, h1, h2⟩ | ⟨bs, bs', h1, h2, h3⟩
    · have := nameless_rounds vs v
      rw [h1, h2]
      rw [h2] at this
      show RunRes.err _ _ = RunRes.err (newError L _) _
      rw [newError_attach (this er rfl)]
    · rw [h1, h2]
      exact forEach_twin (fun b1 b2 hb w => stmts_twin hc name (.cons hb h) b (hs.imp id id) w) h3 w
  | .with_ e n b =>
    simp only [newStmt, evalStmt]
    rw [expr_twin hc h]
    exact new_andThen (nameless_expr _ _ _) fun v => stmts_twin hc name (.cons .name h) b (hs.imp id id) w
theorem stmts_twin (hc : TwinCfg L cfg cfg') (name : Option Str) {ρ ρ' : Scope} (h : Twins L ρ ρ') (ss : List Stmt) (hs : (∀ n, L.variable_ n = n) ∨ NoScopes ss)
    (w : World Str) : evalStmts cfg' inc' (name.map L.template) ρ' (newStmts L ss) (newWorld L w) = newRun L (evalStmts cfg inc name ρ ss w) := by
  match ss with
  | [] => simp only [newStmts, evalStmts]; rfl
  | s :: ss =>
    simp only [newStmts, evalStmts]
    rw [stmt_twin hc name h s (hs.imp id And.left) w]
    exact new_seq fun w => stmts_twin hc name h ss (hs.imp id And.right) w
end
end

theorem asked_twin (hc : TwinCfg L cfg cfg') (n : Str) (w : World Str) : asked cfg' (L.template n) (newWorld L w) = newWorld L (asked cfg n w) := by
  unfold asked; rw [hc.record]; split <;> rfl

theorem include_twin (hc : TwinCfg L cfg cfg') (hs : (∀ n, L.variable_ n = n) ∨ ∀ a n ss, cfg.find a n = .ok ss → NoScopes ss) (left : Nat) :
    ∀ n name ρ ρ' w, Twins L ρ ρ' → include_ cfg' left (L.template n) (name.map L.template) ρ' (newWorld L w) = newRun L (include_ cfg left n name ρ w) := by
  induction left with
  | zero =>
    intro n name ρ ρ' w h
    rw [include_, include_, asked_twin hc, show (newWorld L w).asked = w.asked.map L.template from rfl, hc.find, hc.depth]
    cases cfg.find w.asked n with
    | error e => show RunRes.err _ _ = RunRes.err (newError L _) _; rw [newError_attach rfl]
    | ok ss => rfl
  | succ left ih =>
    intro n name ρ ρ' w h
    rw [include_, include_, asked_twin hc, show (newWorld L w).asked = w.asked.map L.template from rfl, hc.find]
    cases hf : cfg.find w.asked n with
    | error e => show RunRes.err _ _ = RunRes.err (newError L _) _; rw [newError_attach rfl]
    | ok ss => exact stmts_twin ih hc (some n) h ss (hs.imp id fun hs => hs _ _ _ hf) _

/-- **Rendering with the new names.** -/
theorem render_twin (hc : TwinCfg L cfg cfg') {ss : List Stmt} (hs : (∀ n, L.variable_ n = n) ∨ NoScopes ss ∧ ∀ a n ss, cfg.find a n = .ok ss → NoScopes ss)
    (name : Option Str) {ρ ρ' : Scope} (h : Twins L ρ ρ') (w : World Str) :
    render cfg' (newStmts L ss) (name.map L.template) ρ' (newWorld L w) = newRun L (render cfg ss name ρ w) := by
  unfold render
  rw [hc.depth]
  exact stmts_twin (include_twin hc (hs.imp id And.right) _) hc name h ss (hs.imp id And.left) w

end
end Plain
end Upon
