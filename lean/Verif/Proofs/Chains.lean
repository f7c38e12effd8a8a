import Verif.Spec.Chains
import Verif.Spec.Steps
import Verif.Proofs.Piece
import Verif.Props.Depth
/-
For C73: the active templates are a chain of include tags.
-/
namespace Upon
open Spec Compiler
variable {σ : Type} {cfg : RenderCfg σ} {tree : Template → Tree}

namespace Chains

theorem expr_none (e : Expr) (n : AstString) : Instr.include_ n ∉ codeExpr e ∧ Instr.includeWith n ∉ codeExpr e := by
  induction e with
  | base b => cases b <;> simp [codeExpr, codeBase]
  | call name args recv span ih => simp [codeExpr, ih]

theorem emit_none (e : Expr) (n : AstString) : Instr.include_ n ∉ codeEmit e ∧ Instr.includeWith n ∉ codeEmit e := by
  have := fun e => expr_none e n
  cases e with
  | base b => simp [codeEmit, this]
  | call name args recv span => cases args <;> simp [codeEmit, this]

mutual
theorem stmt_has (at_ : Nat) (s : Stmt) (n : AstString) (h : Instr.include_ n ∈ codeStmt at_ s ∨ Instr.includeWith n ∈ codeStmt at_ s) :
    n ∈ stmtIncludes s := by
  have he := fun e => expr_none e n
  have hm := fun e => emit_none e n
  match s with
  | .raw sp => simp [codeStmt] at h
  | .inlineExpr e _ => simp [codeStmt, hm] at h
  | .include_ m none => simp [codeStmt] at h; simp [stmtIncludes, h]
  | .include_ m (some g) => simp [codeStmt, he] at h; simp [stmtIncludes, h]
  | .ifElse neg c a none =>
    rw [stmtIncludes]
    refine stmts_has (at_ + (codeExpr c).length + 1) a n ?_
    cases neg <;> simpa [codeStmt, he] using h
  | .ifElse neg c a (some b) =>
    rw [stmtIncludes, List.mem_append]
    have h : (Instr.include_ n ∈ codeStmts (at_ + (codeExpr c).length + 1) a ∨ Instr.includeWith n ∈ codeStmts (at_ + (codeExpr c).length + 1) a) ∨
        (Instr.include_ n ∈ codeStmts (at_ + (codeExpr c).length + 1 + (codeStmts (at_ + (codeExpr c).length + 1) a).length + 1) b ∨
          Instr.includeWith n ∈ codeStmts (at_ + (codeExpr c).length + 1 + (codeStmts (at_ + (codeExpr c).length + 1) a).length + 1) b) := by
      cases neg <;> simp [codeStmt, he] at h <;> grind
    exact h.imp (stmts_has _ a n) (stmts_has _ b n)
  | .forLoop vs e b =>
    rw [stmtIncludes]
    exact stmts_has (at_ + (codeExpr e).length + 2) b n (by simpa [codeStmt, he] using h)
  | .with_ e m b =>
    rw [stmtIncludes]
    exact stmts_has (at_ + (codeExpr e).length + 1) b n (by simpa [codeStmt, he] using h)
theorem stmts_has (at_ : Nat) (ss : List Stmt) (n : AstString) (h : Instr.include_ n ∈ codeStmts at_ ss ∨ Instr.includeWith n ∈ codeStmts at_ ss) :
    n ∈ stmtsIncludes ss := by
  match ss with
  | [] => simp [codeStmts] at h
  | s :: ss =>
    rw [stmtsIncludes, List.mem_append]
    have h : (Instr.include_ n ∈ codeStmt at_ s ∨ Instr.includeWith n ∈ codeStmt at_ s) ∨
        (Instr.include_ n ∈ codeStmts (at_ + (codeStmt at_ s).length) ss ∨ Instr.includeWith n ∈ codeStmts (at_ + (codeStmt at_ s).length) ss) := by
      simp only [codeStmts, List.mem_append] at h
      grind
    exact h.imp (stmt_has _ s n) (stmts_has _ ss n)
end

theorem includes_of {env : Env} {t : Template} {T : Tree} (hp : Parsed env t T) {vm : VM σ} {fr : Frame} {frames : List Frame} (hf : vm.frames = fr :: frames)
    (ht : fr.tmpl = t) {n : AstString} {src : Str} (h : including vm = some (n, src)) : HasInclude T n.name := by
  have hc := hp.code
  rw [compileTemplate_eq] at hc
  have hi : t.instrs = codeStmts 0 T.body := (congrArg Template.instrs (Option.some.inj hc)).symm
  refine ⟨n, stmts_has 0 T.body n ?_, rfl⟩
  rw [← hi, ← ht]
  rw [including, hf] at h
  dsimp only at h
  split at h
  · rename_i m hm; cases h; exact .inl (List.mem_of_getElem? hm)
  · rename_i m hm _; cases h; exact .inr (List.mem_of_getElem? hm)
  · cases h

/-- The active templates, the innermost first, are what the include tags of the names lead to. -/
inductive Active (cfg : RenderCfg σ) (tree : Template → Tree) (T : Tree) : List Template → List Str → Tree → Prop
  | none {U} : Active cfg tree T [] [] U
  | root {t} : Parsed cfg.env t T → Active cfg tree T [t] [] T
  | on {ts ns U n t} : Active cfg tree T ts ns U → ts ≠ [] → HasInclude U n → MayFind cfg n t → Parsed cfg.env t (tree t) →
      Active cfg tree T (t :: ts) (ns ++ [n]) (tree t)

theorem Active.pop {T : Tree} {t : Template} {ts : List Template} {ns : List Str} {U : Tree} (h : Active cfg tree T (t :: ts) ns U) :
    ∃ ns' U', Active cfg tree T ts ns' U' := by
  cases h with
  | root => exact ⟨[], T, .none⟩
  | on h _ _ _ _ => exact ⟨_, _, h⟩

theorem Active.leads {T : Tree} {ts : List Template} {ns : List Str} {U : Tree} (h : Active cfg tree T ts ns U) (hne : ts ≠ []) :
    ChainTo cfg tree T ns U ∧ ts.length = ns.length + 1 ∧ ∃ t ts', ts = t :: ts' ∧ Parsed cfg.env t U := by
  induction h with
  | none => exact (hne rfl).elim
  | root hp => exact ⟨.here, rfl, _, _, rfl, hp⟩
  | on h h1 h2 h3 h4 ih => exact ⟨.on (ih h1).1 h2 h3, by simp [(ih h1).2.1], _, _, rfl, h4⟩

theorem err_not_ok {env : Env} {m : String} {src : Str} {sp : Span} {t : Template} : errRender env m src sp ≠ .ok t := by
  intro h
  unfold errRender throwAt at h
  cases hp : Pretty.build env src sp <;> rw [hp] at h <;> cases h

theorem may_find {src : Str} {n : AstString} {w w' : World σ} {t : Template} (h : getTemplate cfg src n w = (w', .ok t)) : MayFind cfg n.name t := by
  unfold getTemplate at h
  unfold MayFind
  split at h
  · rename_i f e
    rw [e]
    refine ⟨w.asked, ?_⟩
    have h := (Prod.mk.inj h).2
    cases hf : f w.asked n.name with
    | ok t' => rw [hf] at h; cases h; rfl
    | error m => rw [hf] at h; exact (err_not_ok h).elim
  · rename_i e
    rw [e]
    have h := (Prod.mk.inj h).2
    cases hf : BMap.get cfg.templates n.name with
    | some t' => rw [hf] at h; cases h; rfl
    | none => rw [hf] at h; exact (err_not_ok h).elim

theorem find_parsed (htr : ∀ t, Includable cfg t → Parsed cfg.env t (tree t)) {n : Str} {t : Template} (h : MayFind cfg n t) : Parsed cfg.env t (tree t) := by
  apply htr
  unfold MayFind at h
  unfold Includable
  cases he : cfg.templateFn with
  | some f => rw [he] at h; obtain ⟨a, h⟩ := h; exact ⟨a, n, h⟩
  | none => rw [he] at h; exact ⟨n, h⟩

/-- What the frames say about the templates. -/
def Good (cfg : RenderCfg σ) (tree : Template → Tree) (T : Tree) (vm : VM σ) : Prop := ∃ ns U, Active cfg tree T (vm.frames.map Frame.tmpl) ns U

theorem step_frames {vm vm' : VM σ} (h : step cfg vm = .next vm') : including vm = none →
    vm'.frames.map Frame.tmpl = vm.frames.map Frame.tmpl ∨ vm'.frames.map Frame.tmpl = (vm.frames.map Frame.tmpl).tail := by
  intro hi
  obtain ⟨frames, st, ex, w⟩ := vm
  cases frames with
  | nil => cases h
  | cons fr frames =>
    rw [step] at h
    dsimp only at h
    cases hg : fr.tmpl.instrs[fr.pc]? with
    | none =>
      rw [hg] at h
      dsimp only at h
      have key : ∀ st, checkDepth cfg ⟨frames, st, none, w⟩ = .next vm' → vm'.frames = frames := by
        intro st h
        unfold checkDepth at h
        split at h <;> cases h
        rfl
      split at h
      · split at h
        · split at h
          · exact .inr (by rw [key _ h]; rfl)
          · cases h
        · exact .inr (by rw [key _ h]; rfl)
      · cases h
    | some i =>
      rw [hg] at h
      dsimp only at h
      have := plain_exec (cfg := cfg) (src := fr.tmpl.source) (pc := fr.pc) (st := st) (ex := ex) (w := w) (i := i)
        (fun n e => by subst e; simp [including, hg] at hi)
        (fun n e => by
          subst e
          cases ex with
          | none => rfl
          | some v => simp [including, hg] at hi)
      generalize execInstr cfg fr.tmpl.source fr.pc st ex w i = o at this h
      cases this with
      | next hw => cases h; exact .inl rfl
      | err hw he => cases h
      | crash => cases h

theorem entered_frames {vm : VM σ} {n : AstString} {src : Str} (h : including vm = some (n, src)) (t : Template) (w : World σ) :
    (entered vm n t w).frames.map Frame.tmpl = t :: vm.frames.map Frame.tmpl := by
  obtain ⟨fr, frames, hf, _⟩ := including_frames h
  rw [entered, hf]
  dsimp only
  split <;> rfl

theorem good_step (htr : ∀ t, Includable cfg t → Parsed cfg.env t (tree t)) {T : Tree} {vm vm' : VM σ} (hg : Good cfg tree T vm) (h : step cfg vm = .next vm') :
    Good cfg tree T vm' := by
  obtain ⟨ns, U, ha⟩ := hg
  cases hi : including vm with
  | none =>
    rcases step_frames h hi with e | e
    · exact ⟨ns, U, e ▸ ha⟩
    · rw [Good, e]
      cases hm : vm.frames.map Frame.tmpl with
      | nil => exact ⟨[], T, .none⟩
      | cons t ts => rw [hm] at ha; exact ha.pop
  | some p =>
    obtain ⟨n, src⟩ := p
    obtain ⟨h1, h2, h3⟩ := include_step hi cfg
    rcases hg : getTemplate cfg src n vm.w with ⟨w, r⟩
    cases r with
    | ok t =>
      rw [h1 w t hg, checkDepth] at h
      split at h
      · cases h
      · cases h
        obtain ⟨fr, frames, hf, _⟩ := including_frames hi
        have hne : vm.frames.map Frame.tmpl ≠ [] := by simp [hf]
        obtain ⟨_, _, t', ts', e, hp⟩ := ha.leads hne
        have ht : fr.tmpl = t' := by rw [hf] at e; simpa using (List.cons.inj e).1
        refine ⟨ns ++ [n.name], tree t, ?_⟩
        rw [entered_frames hi t w]
        exact .on ha hne (includes_of hp hf ht hi) (may_find hg) (find_parsed htr (may_find hg))
    | err e => rw [h2 w e hg] at h; cases h
    | crash => rw [h3 w hg] at h; cases h

theorem good_reachable (htr : ∀ t, Includable cfg t → Parsed cfg.env t (tree t)) {T : Tree} {vm vm' : VM σ} (hg : Good cfg tree T vm) (h : Reachable cfg vm vm') :
    Good cfg tree T vm' := by
  induction h with
  | refl => exact hg
  | step _ hs ih => exact good_step htr ih hs

/-- A run that would exceed the limit has followed a chain of include tags. -/
theorem exceed_leads (htr : ∀ t, Includable cfg t → Parsed cfg.env t (tree t)) {T : Tree} {vm : VM σ} (hg : Good cfg tree T vm)
    (h : WouldExceed cfg vm cfg.maxIncludeDepth) : ∃ ns U, ChainTo cfg tree T ns U ∧ cfg.maxIncludeDepth ≤ ns.length ∧ ns ≠ [] := by
  obtain ⟨vm', n, src, w, t, hr, hi, hg', hd⟩ := h
  obtain ⟨ns, U, ha⟩ := good_reachable htr hg hr
  obtain ⟨fr, frames, hf, _⟩ := including_frames hi
  have hne : vm'.frames.map Frame.tmpl ≠ [] := by simp [hf]
  obtain ⟨hl, hlen, t', ts', e, hp⟩ := ha.leads hne
  have ht : fr.tmpl = t' := by rw [hf] at e; simpa using (List.cons.inj e).1
  refine ⟨_, _, .on hl (includes_of hp hf ht hi) (may_find hg'), ?_, by simp⟩
  simp at hlen ⊢
  omega

/-- Part of a chain. -/
theorem leads_take {T U : Tree} {ns : List Str} (h : ChainTo cfg tree T ns U) (k : Nat) (hk : k ≤ ns.length) :
    ∃ V, ChainTo cfg tree T (ns.take k) V := by
  induction h with
  | here => exact ⟨T, by simpa using ChainTo.here⟩
  | @on ns U n t h h1 h2 ih =>
    by_cases hk' : k ≤ ns.length
    · rw [List.take_append_of_le_length hk']; exact ih hk'
    · have : k = (ns ++ [n]).length := by simp at hk ⊢; omega
      rw [this, List.take_length]
      exact ⟨_, .on h h1 h2⟩

end Chains
end Upon
