import Verif.Proofs.Plain
import Verif.Proofs.Accept
/-
Laws of the meaning of trees without byte ranges (for C45, C46): what was written before and which templates were
asked for before make no difference, and an include is its template inlined.
-/
namespace Upon
open Spec

namespace Plain

/-- With output and requests before. -/
def shift (x : Str) (l : List Str) (w : World Str) : World Str := ⟨x ++ w.out, w.asked ++ l⟩

/-- With output and requests before. -/
def Shift (x : Str) (l : List Str) : RunRes Str → RunRes Str
  | .ok w => .ok (shift x l w)
  | .err e w => .err e (shift x l w)
  | .crash => .crash

variable {cfg : Cfg} {x : Str} {l : List Str}

theorem shift_seq (r : RunRes Str) (k : World Str → RunRes Str) (hk : ∀ w, k (shift x l w) = Shift x l (k w)) :
    seq (Shift x l r) k = Shift x l (seq r k) := by
  cases r with
  | ok w => exact hk w
  | err => rfl
  | crash => rfl

theorem shift_andThen {α : Type} (name : Option Str) (w : World Str) (r : Res α) (k k' : α → RunRes Str) (h : ∀ a, k' a = Shift x l (k a)) :
    andThen name (shift x l w) r k' = Shift x l (andThen name w r k) := by
  cases r with
  | ok a => exact h a
  | err => rfl
  | crash => rfl

theorem run_shift (p : FmtProg) (s : Str) : p.run stringSink (x ++ s) = (x ++ (p.run stringSink s).1, (p.run stringSink s).2) := by
  induction p generalizing s with
  | done r => rfl
  | write t k ih =>
    simp only [FmtProg.run, stringSink, List.append_assoc]
    exact ih true (s ++ t)

theorem write_shift (name : Option Str) (f : Formatter) (v : Value) (w : World Str) :
    write name f v (shift x l w) = Shift x l (write name f v w) := by
  simp only [write, shift, run_shift]
  rcases (f v).run stringSink w.out with ⟨out, r⟩
  cases r <;> rfl

theorem emit_shift (name : Option Str) (ρ : Scope) (e : Expr) (w : World Str) :
    emitExpr cfg name ρ e (shift x l w) = Shift x l (emitExpr cfg name ρ e w) := by
  rw [emitExpr.eq_def, emitExpr.eq_def]
  split
  · refine shift_andThen _ _ _ _ _ fun v => ?_
    split
    · exact write_shift ..
    · exact shift_andThen _ _ _ _ _ fun _ => write_shift ..
    · exact shift_andThen _ _ _ _ _ fun _ => rfl
  · exact shift_andThen _ _ _ _ _ fun _ => write_shift ..

theorem forEach_shift {α : Type} (f : α → World Str → RunRes Str) (hf : ∀ a w, f a (shift x l w) = Shift x l (f a w)) (as : List α)
    (w : World Str) : forEach f as (shift x l w) = Shift x l (forEach f as w) := by
  induction as generalizing w with
  | nil => rfl
  | cons a as ih => rw [forEach, forEach, hf, shift_seq _ _ ih]

section
variable {inc : Include} (hinc : ∀ n name ρ w, inc n name ρ (shift x l w) = Shift x l (inc n name ρ w))
include hinc

mutual
theorem evalStmt_shift (name : Option Str) (ρ : Scope) (s : Stmt) (w : World Str) :
    evalStmt cfg inc name ρ s (shift x l w) = Shift x l (evalStmt cfg inc name ρ s w) := by
  match s with
  | .char c => rw [evalStmt, evalStmt]; simp [shift, Shift]
  | .expr e => rw [evalStmt, evalStmt]; exact emit_shift ..
  | .include_ n none => rw [evalStmt, evalStmt]; exact hinc ..
  | .include_ n (some e) => rw [evalStmt, evalStmt]; exact shift_andThen _ _ _ _ _ fun v => hinc ..
  | .ifElse neg c t none =>
    rw [evalStmt, evalStmt]
    refine shift_andThen _ _ _ _ _ fun v => ?_
    split
    · exact evalStmts_shift name ρ t w
    · rfl
  | .ifElse neg c t (some e) =>
    rw [evalStmt, evalStmt]
    refine shift_andThen _ _ _ _ _ fun v => ?_
    split
    · exact evalStmts_shift name ρ t w
    · exact evalStmts_shift name ρ e w
  | .forLoop vs e b =>
    rw [evalStmt, evalStmt]
    exact shift_andThen _ _ _ _ _ fun v => shift_andThen _ _ _ _ _ fun bs =>
      forEach_shift _ (fun a w => evalStmts_shift name (a :: ρ) b w) bs w
  | .with_ e n b =>
    rw [evalStmt, evalStmt]
    exact shift_andThen _ _ _ _ _ fun v => evalStmts_shift name _ b w
theorem evalStmts_shift (name : Option Str) (ρ : Scope) (ss : List Stmt) (w : World Str) :
    evalStmts cfg inc name ρ ss (shift x l w) = Shift x l (evalStmts cfg inc name ρ ss w) := by
  match ss with
  | [] => rw [evalStmts, evalStmts]; rfl
  | s :: ss =>
    rw [evalStmts, evalStmts, evalStmt_shift name ρ s w]
    exact shift_seq _ _ fun w => evalStmts_shift name ρ ss w
end
end

/-- Answers do not depend on earlier questions. -/
def Steady (cfg : Cfg) : Prop := ∀ a a' n, cfg.find a n = cfg.find a' n

theorem asked_shift (n : Str) (w : World Str) : asked cfg n (shift x l w) = shift x l (asked cfg n w) := by
  unfold asked; split <;> rfl

theorem include_shift (h : Steady cfg) (left : Nat) : ∀ n name ρ w,
    include_ cfg left n name ρ (shift x l w) = Shift x l (include_ cfg left n name ρ w) := by
  induction left with
  | zero =>
    intro n name ρ w
    rw [include_, include_, h (shift x l w).asked w.asked n, asked_shift]
    cases cfg.find w.asked n <;> rfl
  | succ left ih =>
    intro n name ρ w
    rw [include_, include_, h (shift x l w).asked w.asked n, asked_shift]
    cases cfg.find w.asked n with
    | error e => rfl
    | ok ss => exact evalStmts_shift ih (some n) ρ ss _

theorem render_shift (h : Steady cfg) (ss : List Stmt) (name : Option Str) (ρ : Scope) (w : World Str) :
    render cfg ss name ρ (shift x l w) = Shift x l (render cfg ss name ρ w) :=
  evalStmts_shift (include_shift h _) name ρ ss w

theorem render_append (h : Steady cfg) (a b : List Stmt) (name : Option Str) (ρ : Scope) :
    render cfg (a ++ b) name ρ ⟨[], []⟩ =
      seq (render cfg a name ρ ⟨[], []⟩) fun w => Shift w.out w.asked (render cfg b name ρ ⟨[], []⟩) := by
  rw [render, evalStmts_append]
  show seq (render cfg a name ρ ⟨[], []⟩) (render cfg b name ρ) = _
  cases render cfg a name ρ ⟨[], []⟩ with
  | ok w =>
    show render cfg b name ρ w = Shift w.out w.asked (render cfg b name ρ ⟨[], []⟩)
    rw [← render_shift h]
    simp [shift]
  | err => rfl
  | crash => rfl

/-! Include is inlining -/

/-- The error without place and template name. -/
def bare (e : Err) : Err := { e with name := none, pretty := none }

/-- The same up to the name in an error and the requests, or the first reached the limit. -/
inductive Near (d : Nat) : RunRes Str → RunRes Str → Prop
  | ok {w w'} : w.out = w'.out → Near d (.ok w) (.ok w')
  | err {e e' w w'} : bare e = bare e' → w.out = w'.out → Near d (.err e w) (.err e' w')
  | crash : Near d .crash .crash
  | deep {w r} : Near d (.err (Err.maxIncludeDepth d) w) r

variable {d : Nat}

theorem near_seq {r r' : RunRes Str} {k k' : World Str → RunRes Str} (h : Near d r r')
    (hk : ∀ w w', w.out = w'.out → Near d (k w) (k' w')) : Near d (seq r k) (seq r' k') := by
  cases h with
  | ok h => exact hk _ _ h
  | err h h' => exact .err h h'
  | crash => exact .crash
  | deep => exact .deep

theorem near_andThen {α : Type} {name name' : Option Str} {w w' : World Str} (hw : w.out = w'.out) (r : Res α) {k k' : α → RunRes Str}
    (hk : ∀ a, Near d (k a) (k' a)) : Near d (andThen name w r k) (andThen name' w' r k') := by
  cases r with
  | ok a => exact hk a
  | err e => exact .err (by cases name <;> cases name' <;> rfl) hw
  | crash => exact .crash

theorem near_write (name name' : Option Str) (f : Formatter) (v : Value) {w w' : World Str} (h : w.out = w'.out) :
    Near d (write name f v w) (write name' f v w') := by
  simp only [write, h]
  rcases (f v).run stringSink w'.out with ⟨out, r⟩
  cases r with
  | ok => exact .ok rfl
  | error => exact .err (by cases name <;> cases name' <;> rfl) rfl

theorem near_emit (name name' : Option Str) (ρ : Scope) (e : Expr) {w w' : World Str} (h : w.out = w'.out) :
    Near d (emitExpr cfg name ρ e w) (emitExpr cfg name' ρ e w') := by
  rw [emitExpr.eq_def, emitExpr.eq_def]
  split
  · refine near_andThen h _ fun v => ?_
    split
    · exact near_write _ _ _ _ h
    · exact near_andThen h _ fun _ => near_write _ _ _ _ h
    · exact near_andThen h _ fun _ => .crash
  · exact near_andThen h _ fun _ => near_write _ _ _ _ h

theorem near_forEach {α : Type} {f f' : α → World Str → RunRes Str} (hf : ∀ a w w', w.out = w'.out → Near d (f a w) (f' a w'))
    (as : List α) {w w' : World Str} (h : w.out = w'.out) : Near d (forEach f as w) (forEach f' as w') := by
  induction as generalizing w w' with
  | nil => exact .ok h
  | cons a as ih => exact near_seq (hf a w w' h) fun _ _ h => ih h

mutual
/-- Some includes of `b` are replaced by its statements. -/
inductive Sub (b : Str) (sb : List Stmt) : List Stmt → List Stmt → Prop
  | nil : Sub b sb [] []
  | here {ss ss'} : Sub b sb ss ss' → Sub b sb (.include_ b none :: ss) (sb ++ ss')
  | cons {s s' ss ss'} : Sub1 b sb s s' → Sub b sb ss ss' → Sub b sb (s :: ss) (s' :: ss')
inductive Sub1 (b : Str) (sb : List Stmt) : Stmt → Stmt → Prop
  | same {s} : Sub1 b sb s s
  | ifElse {neg c t t' e e'} : Sub b sb t t' → SubElse b sb e e' → Sub1 b sb (.ifElse neg c t e) (.ifElse neg c t' e')
  | forLoop {vs e t t'} : Sub b sb t t' → Sub1 b sb (.forLoop vs e t) (.forLoop vs e t')
  | with_ {e n t t'} : Sub b sb t t' → Sub1 b sb (.with_ e n t) (.with_ e n t')
inductive SubElse (b : Str) (sb : List Stmt) : Option (List Stmt) → Option (List Stmt) → Prop
  | none : SubElse b sb none none
  | some {t t'} : Sub b sb t t' → SubElse b sb (some t) (some t')
end

section
variable {inc inc' : Include} (hinc : ∀ n name name' ρ w w', w.out = w'.out → Near d (inc n name ρ w) (inc' n name' ρ w'))
include hinc

mutual
theorem near_same1 (name name' : Option Str) (ρ : Scope) (s : Stmt) {w w' : World Str} (h : w.out = w'.out) :
    Near d (evalStmt cfg inc name ρ s w) (evalStmt cfg inc' name' ρ s w') := by
  match s with
  | .char c => rw [evalStmt, evalStmt]; exact .ok (by rw [h])
  | .expr e => rw [evalStmt, evalStmt]; exact near_emit _ _ _ _ h
  | .include_ n none => rw [evalStmt, evalStmt]; exact hinc _ _ _ _ _ _ h
  | .include_ n (some e) => rw [evalStmt, evalStmt]; exact near_andThen h _ fun v => hinc _ _ _ _ _ _ h
  | .ifElse neg c t none =>
    rw [evalStmt, evalStmt]
    refine near_andThen h _ fun v => ?_
    split
    · exact near_same name name' ρ t h
    · exact .ok h
  | .ifElse neg c t (some e) =>
    rw [evalStmt, evalStmt]
    refine near_andThen h _ fun v => ?_
    split
    · exact near_same name name' ρ t h
    · exact near_same name name' ρ e h
  | .forLoop vs e b =>
    rw [evalStmt, evalStmt]
    exact near_andThen h _ fun v => near_andThen h _ fun bs => near_forEach (fun a w w' h => near_same name name' (a :: ρ) b h) bs h
  | .with_ e n b =>
    rw [evalStmt, evalStmt]
    exact near_andThen h _ fun v => near_same name name' _ b h
theorem near_same (name name' : Option Str) (ρ : Scope) (ss : List Stmt) {w w' : World Str} (h : w.out = w'.out) :
    Near d (evalStmts cfg inc name ρ ss w) (evalStmts cfg inc' name' ρ ss w') := by
  match ss with
  | [] => rw [evalStmts, evalStmts]; exact .ok h
  | s :: ss =>
    rw [evalStmts, evalStmts]
    exact near_seq (near_same1 name name' ρ s h) fun _ _ h => near_same name name' ρ ss h
end

variable {b : Str} {sb : List Stmt}
  (hb : ∀ name name' ρ w w', w.out = w'.out → Near d (inc b name ρ w) (evalStmts cfg inc' name' ρ sb w'))
include hb

mutual
theorem near_sub1 (name name' : Option Str) (ρ : Scope) {s s' : Stmt} (hs : Sub1 b sb s s') {w w' : World Str} (h : w.out = w'.out) :
    Near d (evalStmt cfg inc name ρ s w) (evalStmt cfg inc' name' ρ s' w') := by
  match hs with
  | .same => exact near_same1 hinc name name' ρ _ h
  | .ifElse ht .none =>
    rw [evalStmt, evalStmt]
    refine near_andThen h _ fun v => ?_
    split
    · exact near_sub name name' ρ ht h
    · exact .ok h
  | .ifElse ht (.some he) =>
    rw [evalStmt, evalStmt]
    refine near_andThen h _ fun v => ?_
    split
    · exact near_sub name name' ρ ht h
    · exact near_sub name name' ρ he h
  | .forLoop hb =>
    rw [evalStmt, evalStmt]
    exact near_andThen h _ fun v => near_andThen h _ fun bs => near_forEach (fun a w w' h => near_sub name name' (a :: ρ) hb h) bs h
  | .with_ hb =>
    rw [evalStmt, evalStmt]
    exact near_andThen h _ fun v => near_sub name name' _ hb h
theorem near_sub (name name' : Option Str) (ρ : Scope) {ss ss' : List Stmt} (hs : Sub b sb ss ss') {w w' : World Str} (h : w.out = w'.out) :
    Near d (evalStmts cfg inc name ρ ss w) (evalStmts cfg inc' name' ρ ss' w') := by
  match hs with
  | .nil => rw [evalStmts, evalStmts]; exact .ok h
  | .here hs =>
    rw [evalStmts, evalStmt, evalStmts_append]
    exact near_seq (hb name name' ρ _ _ h) fun _ _ h => near_sub name name' ρ hs h
  | .cons h1 hs =>
    rw [evalStmts, evalStmts]
    exact near_seq (near_sub1 name name' ρ h1 h) fun _ _ h => near_sub name name' ρ hs h
end
end

theorem asked_out (n : Str) (w : World Str) : (asked cfg n w).out = w.out := by unfold asked; split <;> rfl

theorem near_include (h : Steady cfg) (left left' : Nat) (hl : left ≤ left') : ∀ n name name' ρ w w', w.out = w'.out →
    Near cfg.maxIncludeDepth (include_ cfg left n name ρ w) (include_ cfg left' n name' ρ w') := by
  induction left generalizing left' with
  | zero =>
    intro n name name' ρ w w' hw
    rw [include_, include_.eq_def]
    dsimp only
    rw [h w'.asked w.asked n]
    cases cfg.find w.asked n with
    | error e => exact .err (by cases name <;> cases name' <;> rfl) (by rw [asked_out, asked_out, hw])
    | ok ss => exact .deep
  | succ left ih =>
    obtain ⟨left', rfl⟩ : ∃ m, left' = m + 1 := ⟨left' - 1, by omega⟩
    intro n name name' ρ w w' hw
    rw [include_, include_, h w'.asked w.asked n]
    cases cfg.find w.asked n with
    | error e => exact .err (by cases name <;> cases name' <;> rfl) (by rw [asked_out, asked_out, hw])
    | ok ss => exact near_same (ih left' (by omega)) _ _ ρ ss (by rw [asked_out, asked_out, hw])

/-- Inlining some includes. -/
theorem render_inline (h : Steady cfg) {b : Str} {sb ss ss' : List Stmt} (hb : ∀ a, cfg.find a b = .ok sb) (hs : Sub b sb ss ss')
    (name name' : Option Str) (ρ : Scope) {w w' : World Str} (hw : w.out = w'.out) :
    Near cfg.maxIncludeDepth (render cfg ss name ρ w) (render cfg ss' name' ρ w') := by
  refine near_sub (near_include h _ _ (Nat.le_refl _)) ?_ name name' ρ hs hw
  intro name name' ρ w w' hw
  rw [include_.eq_def]
  dsimp only
  rw [hb]
  generalize hk : cfg.maxIncludeDepth - 1 = k
  cases k with
  | zero => exact .deep
  | succ k => exact near_same (near_include h _ _ (by omega)) _ _ ρ sb (by rw [asked_out, hw])

/-! Inlining in words -/

variable {env : Env} {b : Str} {wb : List Item} {sb : List Stmt}

theorem Inlined.keep' (us : List Item) {ws ws' : List Item} (h : Inlined b wb ws ws') : Inlined b wb (us ++ ws) (us ++ ws') := by
  induction us with
  | nil => exact h
  | cons u us ih => exact .keep u ih

theorem inlined_past {us rest ws' : List Item} (hu : Quiet us) (h : Inlined b wb (us ++ rest) ws') :
    ∃ rest', ws' = us ++ rest' ∧ Inlined b wb rest rest' := by
  induction us generalizing ws' with
  | nil => exact ⟨_, rfl, h⟩
  | cons u us ih =>
    rw [List.cons_append] at h
    generalize e : u :: (us ++ rest) = q at h
    cases h with
    | nil => cases e
    | keep i h =>
      obtain ⟨rfl, rfl⟩ := List.cons.inj e
      obtain ⟨rest', rfl, h'⟩ := ih (fun k hk hm => hu k hk (by simp [hm])) h
      exact ⟨rest', rfl, h'⟩
    | inline hr h =>
      obtain ⟨rfl, _⟩ := List.cons.inj e
      exact absurd (by simp) (hu .beginBlock rfl)

theorem inlined_one {i : Item} {rest ws' : List Item} (hi : i ≠ .sign .beginBlock) (h : Inlined b wb (i :: rest) ws') :
    ∃ rest', ws' = i :: rest' ∧ Inlined b wb rest rest' := by
  generalize e : i :: rest = q at h
  cases h with
  | nil => cases e
  | keep i h =>
    obtain ⟨rfl, rfl⟩ := List.cons.inj e
    exact ⟨_, rfl, h⟩
  | inline hr h =>
    obtain ⟨rfl, _⟩ := List.cons.inj e
    exact absurd rfl hi

/-- Past a block tag that is not a plain include. -/
theorem inlined_tag {w : String} {us rest ws' : List Item} (hu : Quiet us) (hw : w ≠ "include" ∨ us.length ≠ 1)
    (h : Inlined b wb (tag w us ++ rest) ws') : ∃ rest', ws' = tag w us ++ rest' ∧ Inlined b wb rest rest' := by
  rw [tag_append] at h
  generalize e : Item.sign .beginBlock :: .word .keyword w.toList :: (us ++ .sign .endBlock :: rest) = q at h
  cases h with
  | nil => cases e
  | keep i h =>
    obtain ⟨rfl, rfl⟩ := List.cons.inj e
    obtain ⟨r1, rfl, h_1⟩ := inlined_one (by simp) h
    obtain ⟨r2, rfl, h_2⟩ := inlined_past hu h_1
    obtain ⟨r3, rfl, h_3⟩ := inlined_one (by simp) h_2
    exact ⟨r3, by rw [tag_append], h_3⟩
  | @inline raw _ _ hr h =>
    exfalso
    simp only [List.cons.injEq, Item.word.injEq, true_and] at e
    obtain ⟨e1, e2⟩ := e
    rcases hw with hw | hw
    · exact hw (String.toList_inj.mp e1)
    · have e2 : us ++ .sign .endBlock :: rest = [.word .string raw] ++ .sign .endBlock :: _ := e2
      obtain ⟨rfl, _⟩ := split_at e2 (hu .endBlock rfl) (by simp)
      simp at hw

theorem inlined_include {raw name : Str} {rest ws' : List Item} (hr : StrLit raw name)
    (h : Inlined b wb (tag "include" [.word .string raw] ++ rest) ws') :
    (∃ rest', ws' = tag "include" [.word .string raw] ++ rest' ∧ Inlined b wb rest rest') ∨
      (name = b ∧ ∃ rest', ws' = wb ++ rest' ∧ Inlined b wb rest rest') := by
  rw [tag_append] at h
  generalize e : Item.sign .beginBlock :: .word .keyword "include".toList :: ([.word .string raw] ++ .sign .endBlock :: rest) = q at h
  cases h with
  | nil => cases e
  | keep i h =>
    obtain ⟨rfl, rfl⟩ := List.cons.inj e
    obtain ⟨r1, rfl, h_1⟩ := inlined_one (by simp) h
    obtain ⟨r2, rfl, h_2⟩ := inlined_past (Quiet.nil.word) h_1
    obtain ⟨r3, rfl, h_3⟩ := inlined_one (by simp) h_2
    exact .inl ⟨r3, by rw [tag_append], h_3⟩
  | @inline raw' _ _ hr' h =>
    simp only [List.cons_append, List.nil_append, List.cons.injEq, Item.word.injEq, true_and] at e
    obtain ⟨rfl, rfl⟩ := e
    exact .inr ⟨strLit_unique hr hr', _, rfl, h⟩

section
variable (hb : WStmts env wb sb)
include hb
mutual
theorem stmts_inlined {ws : List Item} {ss : List Stmt} (h : WStmts env ws ss) {rest ws' : List Item} (hi : Inlined b wb (ws ++ rest) ws') :
    ∃ us ss' rest', ws' = us ++ rest' ∧ WStmts env us ss' ∧ Sub b sb ss ss' ∧ Inlined b wb rest rest' := by
  match h with
  | .nil => exact ⟨[], [], ws', rfl, .nil, .nil, hi⟩
  | .char h =>
    obtain ⟨r1, rfl, hi_1⟩ := inlined_one (by simp) hi
    obtain ⟨us, ss', r2, rfl, h1, h2, h3⟩ := stmts_inlined h hi_1
    exact ⟨_, _, r2, rfl, .char h1, .cons .same h2, h3⟩
  | .expr he h =>
    simp only [List.cons_append, List.append_assoc] at hi
    obtain ⟨r1, rfl, hi_1⟩ := inlined_one (by simp) hi
    obtain ⟨r2, rfl, hi_2⟩ := inlined_past (expr_quiet he) hi_1
    obtain ⟨r3, rfl, hi_3⟩ := inlined_one (by simp) hi_2
    obtain ⟨us, ss', r4, rfl, h1, h2, h3⟩ := stmts_inlined h hi_3
    exact ⟨_, _, r4, by simp, .expr he h1, .cons .same h2, h3⟩
  | .include_ hn h =>
    simp only [List.append_assoc] at hi
    rcases inlined_include hn hi with ⟨r1, rfl, hi_1⟩ | ⟨e, r1, rfl, hi_1⟩
    · obtain ⟨us, ss', r4, rfl, h1, h2, h3⟩ := stmts_inlined h hi_1
      exact ⟨_, _, r4, by simp, .include_ hn h1, .cons .same h2, h3⟩
    · obtain ⟨us, ss', r4, rfl, h1, h2, h3⟩ := stmts_inlined h hi_1
      rw [e]
      exact ⟨_, _, r4, by simp, wappend hb h1, .here h2, h3⟩
  | .includeWith hn he h =>
    simp only [List.append_assoc] at hi
    obtain ⟨r1, rfl, hi_1⟩ := inlined_tag (expr_quiet he).word.word (.inr (by simp)) hi
    obtain ⟨us, ss', r4, rfl, h1, h2, h3⟩ := stmts_inlined h hi_1
    exact ⟨_, _, r4, by simp, .includeWith hn he h1, .cons .same h2, h3⟩
  | .for_ hv he hbody h =>
    simp only [List.append_assoc] at hi
    obtain ⟨r1, rfl, hi_1⟩ := inlined_tag ((vars_quiet hv).append (expr_quiet he).word) (.inl (by decide)) hi
    obtain ⟨u1, s1, r2, rfl, h1, h2, hi_2⟩ := stmts_inlined hbody hi_1
    obtain ⟨r3, rfl, hi_3⟩ := inlined_tag .nil (.inl (by decide)) hi_2
    obtain ⟨us, ss', r4, rfl, h3, h4, h5⟩ := stmts_inlined h hi_3
    exact ⟨_, _, r4, by simp, .for_ hv he h1 h3, .cons (.forLoop h2) h4, h5⟩
  | .with_ he hbody h =>
    simp only [List.append_assoc] at hi
    obtain ⟨r1, rfl, hi_1⟩ := inlined_tag ((expr_quiet he).append (.word (.word .nil))) (.inl (by decide)) hi
    obtain ⟨u1, s1, r2, rfl, h1, h2, hi_2⟩ := stmts_inlined hbody hi_1
    obtain ⟨r3, rfl, hi_3⟩ := inlined_tag .nil (.inl (by decide)) hi_2
    obtain ⟨us, ss', r4, rfl, h3, h4, h5⟩ := stmts_inlined h hi_3
    exact ⟨_, _, r4, by simp, .with_ he h1 h3, .cons (.with_ h2) h4, h5⟩
  | .if_ hc hbody he h =>
    simp only [List.append_assoc] at hi
    obtain ⟨r1, rfl, hi_1⟩ := inlined_tag (cond_quiet hc) (.inl (by decide)) hi
    obtain ⟨u1, s1, r2, rfl, h1, h2, hi_2⟩ := stmts_inlined hbody hi_1
    obtain ⟨u2, s2, r3, rfl, h3, h4, hi_3⟩ := elses_inlined he hi_2
    obtain ⟨us, ss', r4, rfl, h5, h6, h7⟩ := stmts_inlined h hi_3
    exact ⟨_, _, r4, by simp, .if_ hc h1 h3 h5, .cons (.ifElse h2 h4) h6, h7⟩
theorem elses_inlined {ws : List Item} {ss : Option (List Stmt)} (h : WElse env ws ss) {rest ws' : List Item} (hi : Inlined b wb (ws ++ rest) ws') :
    ∃ us ss' rest', ws' = us ++ rest' ∧ WElse env us ss' ∧ SubElse b sb ss ss' ∧ Inlined b wb rest rest' := by
  match h with
  | .endif =>
    obtain ⟨r1, rfl, hi_1⟩ := inlined_tag .nil (.inl (by decide)) hi
    exact ⟨_, _, r1, rfl, .endif, .none, hi_1⟩
  | .else_ hbody =>
    simp only [List.append_assoc] at hi
    obtain ⟨r1, rfl, hi_1⟩ := inlined_tag .nil (.inl (by decide)) hi
    obtain ⟨u1, s1, r2, rfl, h1, h2, hi_2⟩ := stmts_inlined hbody hi_1
    obtain ⟨r3, rfl, hi_3⟩ := inlined_tag .nil (.inl (by decide)) hi_2
    exact ⟨_, _, r3, by simp, .else_ h1, .some h2, hi_3⟩
  | .elseIf hc hbody he =>
    simp only [List.append_assoc] at hi
    obtain ⟨r1, rfl, hi_1⟩ := inlined_tag (cond_quiet hc).word (.inl (by decide)) hi
    obtain ⟨u1, s1, r2, rfl, h1, h2, hi_2⟩ := stmts_inlined hbody hi_1
    obtain ⟨u2, s2, r3, rfl, h3, h4, hi_3⟩ := elses_inlined he hi_2
    exact ⟨_, _, r3, by simp, .elseIf hc h1 h3, .some (.cons (.ifElse h2 h4) .nil), hi_3⟩
end

/-- Inlining in words is inlining in trees. -/
theorem sub_of {ws ws' : List Item} {ss ss' : List Stmt} (hi : Inlined b wb ws ws') (h : WStmts env ws ss) (h' : WStmts env ws' ss') :
    Sub b sb ss ss' := by
  obtain ⟨us, s1, r, e, h1, h2, h3⟩ := stmts_inlined hb h (rest := []) (by rw [List.append_nil]; exact hi)
  cases h3
  rw [List.append_nil] at e
  subst e
  rw [stmts_unique h' h1]
  exact h2
end

end Plain
end Upon
