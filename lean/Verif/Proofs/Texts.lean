import Verif.Spec.Texts
import Verif.Proofs.Refactor
import Verif.Proofs.Compose
/-
The semantics without byte ranges passes the text between tags on as it is (for C76).
-/
namespace Upon
open Spec

namespace Plain
section
variable {R : Str → Str → Prop}

/-- The same requests, and outputs that are alike. -/
structure LikeWorld (R : Str → Str → Prop) (w w' : World Str) : Prop where
  asked : w.asked = w'.asked
  out : R w.out w'.out

/-- The same end, with outputs that are alike. -/
inductive LikeRun (R : Str → Str → Prop) : RunRes Str → RunRes Str → Prop
  | ok {w w'} : LikeWorld R w w' → LikeRun R (.ok w) (.ok w')
  | err {e w w'} : LikeWorld R w w' → LikeRun R (.err e w) (.err e w')
  | crash : LikeRun R .crash .crash

theorem like_andThen {α : Type} {name : Option Str} {w w' : World Str} (hw : LikeWorld R w w') (r : Res α) {k k' : α → RunRes Str}
    (h : ∀ a, LikeRun R (k a) (k' a)) : LikeRun R (andThen name w r k) (andThen name w' r k') := by
  cases r with
  | ok a => exact h a
  | err e => exact .err hw
  | crash => exact .crash

theorem like_seq {r r' : RunRes Str} (hr : LikeRun R r r') {k k' : World Str → RunRes Str} (h : ∀ w w', LikeWorld R w w' → LikeRun R (k w) (k' w')) :
    LikeRun R (seq r k) (seq r' k') := by
  cases hr with
  | ok hw => exact h _ _ hw
  | err hw => exact .err hw
  | crash => exact .crash

variable (hR : Likeness R)
include hR

theorem like_write (name : Option Str) (f : Formatter) (v : Value) {w w' : World Str} (hw : LikeWorld R w w') :
    LikeRun R (write name f v w) (write name f v w') := by
  obtain ⟨o, as⟩ := w
  obtain ⟨o', as'⟩ := w'
  obtain ⟨h1, h2⟩ := hw
  dsimp only at h1 h2
  subst h1
  unfold write
  dsimp only
  have e1 := run_shift (x := o) (f v) []
  have e2 := run_shift (x := o') (f v) []
  rw [List.append_nil] at e1 e2
  rw [e1, e2]
  rcases (f v).run stringSink [] with ⟨t, r⟩
  cases r with
  | ok => exact .ok ⟨rfl, hR.parts h2 (hR.same t)⟩
  | error => exact .err ⟨rfl, hR.parts h2 (hR.same t)⟩

theorem like_emit (cfg : Cfg) (name : Option Str) (ρ : Scope) (e : Expr) {w w' : World Str} (hw : LikeWorld R w w') :
    LikeRun R (emitExpr cfg name ρ e w) (emitExpr cfg name ρ e w') := by
  rw [emitExpr.eq_def, emitExpr.eq_def]
  split
  · refine like_andThen hw _ fun v => ?_
    split
    · exact like_write hR _ _ _ hw
    · exact like_andThen hw _ fun _ => like_write hR _ _ _ hw
    · exact like_andThen hw _ fun _ => .crash
  · exact like_andThen hw _ fun _ => like_write hR _ _ _ hw

omit hR in
theorem like_forEach {f g : Binding → World Str → RunRes Str} (h : ∀ b w w', LikeWorld R w w' → LikeRun R (f b w) (g b w')) (bs : List Binding)
    {w w' : World Str} (hw : LikeWorld R w w') : LikeRun R (forEach f bs w) (forEach g bs w') := by
  induction bs generalizing w w' with
  | nil => exact .ok hw
  | cons b bs ih => exact like_seq (h b _ _ hw) fun _ _ hw => ih hw

omit hR in
theorem evalStmts_text (cfg : Cfg) (inc : Include) (name : Option Str) (ρ : Scope) (s : Str) (ss : List Stmt) (w : World Str) :
    evalStmts cfg inc name ρ (s.map .char ++ ss) w = evalStmts cfg inc name ρ ss { w with out := w.out ++ s } := by
  induction s generalizing w with
  | nil => simp
  | cons c s ih =>
    rw [List.map_cons, List.cons_append, evalStmts, evalStmt]
    show evalStmts cfg inc name ρ _ { w with out := w.out ++ [c] } = _
    rw [ih]
    simp

/-- Includes that do alike. -/
def LikeInclude (R : Str → Str → Prop) (inc inc' : Include) : Prop := ∀ n name ρ w w', LikeWorld R w w' → LikeRun R (inc n name ρ w) (inc' n name ρ w')

theorem like_stmts {cfg cfg' : Cfg} (k : Kin cfg cfg') {inc inc' : Include} (hi : LikeInclude R inc inc') (name : Option Str) (ρ : Scope) {ss ss' : List Stmt}
    (h : Retexted R ss ss') {w w' : World Str} (hw : LikeWorld R w w') : LikeRun R (evalStmts cfg inc name ρ ss w) (evalStmts cfg' inc' name ρ ss' w') := by
  induction h generalizing ρ w w' with
  | nil => rw [evalStmts, evalStmts]; exact .ok hw
  | text hs _ ih => rw [evalStmts_text, evalStmts_text]; exact ih ρ ⟨hw.asked, hR.parts hw.out hs⟩
  | expr _ ih =>
    rw [evalStmts, evalStmts, evalStmt, evalStmt, k.emit]
    exact like_seq (like_emit hR _ _ _ _ hw) fun _ _ hw => ih ρ hw
  | @include_ n e _ _ _ ih =>
    rw [evalStmts, evalStmts]
    refine like_seq ?_ fun _ _ hw => ih ρ hw
    cases e with
    | none => rw [evalStmt, evalStmt]; exact hi _ _ _ _ _ hw
    | some e => rw [evalStmt, evalStmt, k.expr]; exact like_andThen hw _ fun v => hi _ _ _ _ _ hw
  | ifThen _ _ iha ih =>
    rw [evalStmts, evalStmts, evalStmt, evalStmt, k.expr]
    refine like_seq (like_andThen hw _ fun v => ?_) fun _ _ hw => ih ρ hw
    split
    · exact iha ρ hw
    · exact .ok hw
  | ifElse _ _ _ iha ihb ih =>
    rw [evalStmts, evalStmts, evalStmt, evalStmt, k.expr]
    refine like_seq (like_andThen hw _ fun v => ?_) fun _ _ hw => ih ρ hw
    split
    · exact iha ρ hw
    · exact ihb ρ hw
  | for_ _ _ ihb ih =>
    rw [evalStmts, evalStmts, evalStmt, evalStmt, k.expr]
    refine like_seq (like_andThen hw _ fun v => ?_) fun _ _ hw => ih ρ hw
    exact like_andThen hw _ fun bs => like_forEach (fun b _ _ hw => ihb (b :: ρ) hw) bs hw
  | with_ _ _ ihb ih =>
    rw [evalStmts, evalStmts, evalStmt, evalStmt, k.expr]
    refine like_seq (like_andThen hw _ fun v => ?_) fun _ _ hw => ih ρ hw
    exact ihb _ hw

omit hR in
theorem like_asked {cfg cfg' : Cfg} (hr : cfg.record = cfg'.record) (n : Str) {w w' : World Str} (hw : LikeWorld R w w') :
    LikeWorld R (asked cfg n w) (asked cfg' n w') := by
  unfold asked
  rw [hr]
  split
  · exact ⟨congrArg (n :: ·) hw.asked, hw.out⟩
  · exact hw

theorem like_include {cfg cfg' : Cfg} (k : Kin cfg cfg') (hr : cfg.record = cfg'.record) (hd : cfg.maxIncludeDepth = cfg'.maxIncludeDepth)
    (hf : ∀ a n, Answers (Retexted R) (cfg.find a n) (cfg'.find a n)) (left : Nat) : LikeInclude R (include_ cfg left) (include_ cfg' left) := by
  induction left with
  | zero =>
    intro n name ρ w w' hw
    have := hf w.asked n
    rw [include_, include_, ← hw.asked, ← hd]
    generalize cfg.find w.asked n = p, cfg'.find w.asked n = q at this
    cases this with
    | found => exact .err (like_asked hr n hw)
    | refused => exact .err (like_asked hr n hw)
  | succ left ih =>
    intro n name ρ w w' hw
    have := hf w.asked n
    rw [include_, include_, ← hw.asked]
    generalize cfg.find w.asked n = p, cfg'.find w.asked n = q at this
    cases this with
    | found h => exact like_stmts hR k ih _ _ h (like_asked hr n hw)
    | refused => exact .err (like_asked hr n hw)

/-- **Rendering with other text.** -/
theorem like_render {cfg cfg' : Cfg} (k : Kin cfg cfg') (hr : cfg.record = cfg'.record) (hd : cfg.maxIncludeDepth = cfg'.maxIncludeDepth)
    (hf : ∀ a n, Answers (Retexted R) (cfg.find a n) (cfg'.find a n)) {ss ss' : List Stmt} (h : Retexted R ss ss') (name : Option Str) (ρ : Scope) :
    LikeRun R (render cfg ss name ρ ⟨[], []⟩) (render cfg' ss' name ρ ⟨[], []⟩) := by
  rw [render, render, ← hd]
  exact like_stmts hR k (like_include hR k hr hd hf _) name ρ h ⟨rfl, hR.same _⟩

end
end Plain
end Upon
