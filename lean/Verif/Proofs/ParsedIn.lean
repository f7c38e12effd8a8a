import Verif.Proofs.Piece
import Verif.Proofs.InSource
import Verif.Proofs.Lock
/-
The byte ranges of a compiled template lie in its source.
-/
namespace Upon
open Spec Compiler

theorem Spec.Parsed.inside {env : Env} {t : Template} {T : Tree} (h : Parsed env t T) : StmtsIn T.source T.body := by
  obtain ⟨b, a, ts, s, hw, hc, h1, h2⟩ := h
  obtain ⟨⟨lx, hl, _⟩, _⟩ := (C06_layout s hw ts).mpr h1
  refine gstmts_in h2 fun tk htk => ?_
  obtain ⟨_, _, p, x, q, e, hp, hq⟩ := (C04_spans s hw hl).1 tk htk
  refine ⟨x, slice_eq_some.mpr ⟨p, q, by simpa using e, hp, ?_⟩⟩
  rw [← hp, ← hq]; simp

theorem Spec.Parsed.empty {env : Env} {t : Template} {T : Tree} (h : Parsed env t T) (he : T.source = []) : T.body = [] := by
  obtain ⟨b, a, ts, s, hw, hc, h1, h2⟩ := h
  rw [he] at h1 h2
  have none : ∀ k i j, ¬ Occurs b.build [] k i j := by
    rintro k i j ⟨d, hd, p, q, e, _⟩
    have : d ≠ [] := (good s hw).nonEmpty _ hd
    have e := congrArg List.length e
    rw [List.length_append, List.length_append] at e
    simp only [List.length_nil] at e
    exact this (List.length_eq_zero_iff.mp (by omega))
  have hts : ts = [] := by
    cases h1 with
    | done => rfl
    | textEnd _ text ne _ => simp [slice, blen, dropB, takeB] at text; exact absurd text ne
    | textTag next _ _ _ _ _ => 
      exact (none _ _ _ (Lexer.chosen_occurs next)).elim
    | tag next _ _ =>
      exact (none _ _ _ (Lexer.chosen_occurs next)).elim
  subst hts
  have tag : ∀ {w us ts x}, GTag [] w us ts → ([] : List Tok) ≠ ts ++ x := by
    intro w us ts x h
    cases h; simp
  have tag' : ∀ {w us ts x y z}, GTag [] w us ts → ([] : List Tok) ≠ ts ++ x ++ y ++ z := by
    intro w us ts x y z h
    cases h; simp
  generalize hl : ([] : List Tok) = ts at h2
  generalize T.body = ss at h2
  cases h2 with
  | nil => rfl
  | raw => cases hl
  | comment => cases hl
  | expr => cases hl
  | include_ h => exact absurd hl (tag h)
  | includeWith h => exact absurd hl (tag h)
  | for_ h => exact absurd hl (tag' h)
  | with_ h => exact absurd hl (tag' h)
  | if_ h => exact absurd hl (tag' h)

/-! Code -/

/-- The byte ranges an instruction uses lie in the source. -/
def InstrIn (src : Str) : Instr → Prop
  | .emit sp => SpanIn src sp
  | .emitRaw sp => SpanIn src sp
  | .emitWith name sp => SpanIn src name.span ∧ SpanIn src sp
  | .loopStart vars sp => VarsIn src vars ∧ SpanIn src sp
  | .withStart name => SpanIn src name.span
  | .include_ name => SpanIn src name.span
  | .includeWith name => SpanIn src name.span
  | .exprStart v => VarIn src v
  | .apply name sp args => SpanIn src name.span ∧ SpanIn src sp ∧ ∀ a, args = some a → ∀ x ∈ a.values, BaseIn src x
  | _ => True

/-- The same for code. -/
def CodeIn (src : Str) (is : List Instr) : Prop := ∀ i ∈ is, InstrIn src i

theorem codeIn_append {src : Str} {a b : List Instr} (ha : CodeIn src a) (hb : CodeIn src b) : CodeIn src (a ++ b) := by
  intro i hi
  rcases List.mem_append.mp hi with h | h
  · exact ha i h
  · exact hb i h

theorem codeIn_cons {src : Str} {a : Instr} {b : List Instr} (ha : InstrIn src a) (hb : CodeIn src b) : CodeIn src (a :: b) := by
  intro i hi
  rcases List.mem_cons.mp hi with rfl | h
  · exact ha
  · exact hb i h

theorem codeIn_nil {src : Str} : CodeIn src [] := fun _ h => by cases h

theorem codeIn_one {src : Str} {a : Instr} (ha : InstrIn src a) : CodeIn src [a] := codeIn_cons ha codeIn_nil

theorem codeExpr_in {src : Str} {e : Expr} (h : ExprIn src e) : CodeIn src (codeExpr e) := by
  induction e with
  | base b =>
    cases b with
    | var v => exact codeIn_one h
    | lit l => exact codeIn_one trivial
  | call name args recv sp ih => exact codeIn_append (ih h.2.2.1) (codeIn_one ⟨h.1, h.2.2.2, h.2.1⟩)

theorem codeEmit_in {src : Str} {e : Expr} (h : ExprIn src e) : CodeIn src (codeEmit e) := by
  unfold codeEmit
  split
  · exact codeIn_append (codeExpr_in h.2.2.1) (codeIn_one ⟨h.1, h.2.2.2⟩)
  · exact codeIn_append (codeExpr_in h) (codeIn_one (expr_span_in h))

mutual
theorem codeStmt_in {src : Str} (n : Nat) : ∀ {s : Stmt}, StmtIn src s → CodeIn src (codeStmt n s)
  | .raw sp, h => codeIn_one h
  | .inlineExpr e _, h => codeEmit_in h.1
  | .include_ name none, h => codeIn_one h
  | .include_ name (some e), h => codeIn_append (codeExpr_in h.2) (codeIn_one h.1)
  | .ifElse neg cond thn none, h => by
    unfold codeStmt
    have h1 := fun n => codeStmts_in n h.2
    have h2 := codeExpr_in h.1
    cases neg <;>
    simp only [] <;> repeat' first
      | exact h2 | exact h1 _ | exact codeIn_nil | trivial | apply codeIn_append | apply codeIn_cons
  | .ifElse neg cond thn (some els), h => by
    unfold codeStmt
    have h1 := fun n => codeStmts_in n h.2.1
    have h3 := fun n => codeStmts_in n h.2.2
    have h2 := codeExpr_in h.1
    cases neg <;>
    simp only [] <;> repeat' first
      | exact h2 | exact h1 _ | exact h3 _ | exact codeIn_nil | trivial | apply codeIn_append | apply codeIn_cons
  | .forLoop vars e body, h => by
    unfold codeStmt
    have h1 := fun n => codeStmts_in n h.2.2
    have h2 := codeExpr_in h.2.1
    have h3 := expr_span_in h.2.1
    have h4 := h.1
    repeat' first
      | exact h2 | exact h1 _ | exact codeIn_nil | exact ⟨h4, h3⟩ | trivial | apply codeIn_append | apply codeIn_cons
  | .with_ e name body, h => by
    unfold codeStmt
    have h1 := fun n => codeStmts_in n h.2.2
    have h2 := codeExpr_in h.1
    have h3 := h.2.1
    repeat' first
      | exact h2 | exact h1 _ | exact codeIn_nil | exact h3 | trivial | apply codeIn_append | apply codeIn_cons

theorem codeStmts_in {src : Str} (n : Nat) : ∀ {ss : List Stmt}, StmtsIn src ss → CodeIn src (codeStmts n ss)
  | [], _ => codeIn_nil
  | s :: ss, h => codeIn_append (codeStmt_in n h.1) (codeStmts_in _ h.2)
end

theorem Spec.Compiled.codeIn {env : Env} {t : Template} (h : Compiled env t) : CodeIn t.source t.instrs := by
  obtain ⟨T, hT⟩ := compiled_parsed h
  have hc := hT.code
  rw [compileTemplate_eq] at hc
  have hc := Option.some.inj hc
  rw [← hc]
  exact codeStmts_in 0 hT.inside

theorem Spec.Compiled.nonempty {env : Env} {t : Template} (h : Compiled env t) (hi : t.instrs ≠ []) : t.source ≠ [] := by
  obtain ⟨T, hT⟩ := compiled_parsed h
  have hc := hT.code
  rw [compileTemplate_eq] at hc
  have hc := Option.some.inj hc
  intro he
  rw [← hT.source] at he
  rw [← hc, hT.empty he] at hi
  exact hi rfl

theorem Spec.Compiled.shows {env : Env} {t : Template} (h : Compiled env t) : TemplateShow env t := by
  intro i hi
  have hne := h.nonempty (List.ne_nil_of_mem hi)
  have key : ∀ sp, SpanIn t.source sp → Showable env t.source sp := by
    rintro sp ⟨x, hx⟩
    obtain ⟨p, hp⟩ := pretty_isSome env hne hx
    rw [Showable, hp]; rfl
  have := h.codeIn i hi
  cases i with
  | emit sp => exact key _ this
  | emitWith name sp => exact ⟨key _ this.1, key _ this.2⟩
  | _ => trivial

end Upon
