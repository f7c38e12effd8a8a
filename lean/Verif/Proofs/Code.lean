import Verif.Model.Compiler
/-
What the compiler produces: the code of each statement, with its jump targets, written down without
patching.
-/
namespace Upon
namespace Compiler

def codeBase : BaseExpr → List Instr
  | .var v => [.exprStart v]
  | .lit l => [.exprStartLit l.value]

def codeExpr : Expr → List Instr
  | .base b => codeBase b
  | .call name args recv span => codeExpr recv ++ [.apply name span args]

def codeEmit : Expr → List Instr
  | .call name none recv span => codeExpr recv ++ [.emitWith name span]
  | e => codeExpr e ++ [.emit e.span]

mutual
/-- The code of a statement placed at position `at_`. -/
def codeStmt (at_ : Nat) : Stmt → List Instr
  | .raw sp => [.emitRaw sp]
  | .inlineExpr e _ => codeEmit e
  | .include_ name (some g) => codeExpr g ++ [.includeWith name]
  | .include_ name none => [.include_ name]
  | .ifElse n cond th el =>
    let c := codeExpr cond
    let t := codeStmts (at_ + c.length + 1) th
    match el with
    | none => c ++ (if n then Instr.jumpIfTrue (at_ + c.length + 1 + t.length)
        else .jumpIfFalse (at_ + c.length + 1 + t.length)) :: t
    | some el =>
      let e := codeStmts (at_ + c.length + 1 + t.length + 1) el
      c ++ (if n then Instr.jumpIfTrue (at_ + c.length + 1 + t.length + 1)
          else .jumpIfFalse (at_ + c.length + 1 + t.length + 1)) ::
        (t ++ .jump (at_ + c.length + 1 + t.length + 1 + e.length) :: e)
  | .forLoop vars e body =>
    let c := codeExpr e
    let b := codeStmts (at_ + c.length + 2) body
    c ++ .loopStart vars e.span :: .loopNext (at_ + c.length + 2 + b.length + 1) ::
      (b ++ [.jump (at_ + c.length + 1)])
  | .with_ e name body =>
    let c := codeExpr e
    c ++ .withStart name :: (codeStmts (at_ + c.length + 1) body ++ [.withEnd])

def codeStmts (at_ : Nat) : List Stmt → List Instr
  | [] => []
  | s :: ss => codeStmt at_ s ++ codeStmts (at_ + (codeStmt at_ s).length) ss
end

theorem compileExpr_eq (pre : List Instr) (e : Expr) : compileExpr pre e = pre ++ codeExpr e := by
  induction e generalizing pre with
  | base b => cases b <;> rfl
  | call name args recv span ih => simp [compileExpr, codeExpr, ih]

theorem codeExpr_ne (e : Expr) : codeExpr e ≠ [] := by
  cases e with
  | base b => cases b <;> simp [codeExpr, codeBase]
  | call => simp [codeExpr]

theorem popEmitExpr_eq (pre : List Instr) (e : Expr) :
    popEmitExpr (pre ++ codeExpr e) e.span = pre ++ codeEmit e := by
  cases e with
  | base b => cases b <;> simp [codeExpr, codeBase, popEmitExpr, codeEmit]
  | call name args recv span =>
    cases args with
    | none =>
      have h : (pre ++ codeExpr (.call name none recv span)).getLast? = some (.apply name span none) := by
        simp [codeExpr, ← List.append_assoc]
      rw [popEmitExpr, h]
      simp [codeExpr, codeEmit, Expr.span, ← List.append_assoc]
    | some a =>
      have h : (pre ++ codeExpr (.call name (some a) recv span)).getLast? = some (.apply name span (some a)) := by
        simp [codeExpr, ← List.append_assoc]
      rw [popEmitExpr, h]
      simp [codeExpr, codeEmit, Expr.span, ← List.append_assoc]

/-- Patching the jump at the given place. -/
theorem updateJump_eq {f : Nat → Instr} (hf : ∀ i j (l : List Instr), l[i]? = some (f j) →
      updateJump l i = some (l.set i (f l.length))) (pre post : List Instr) (j : Nat) :
    updateJump (pre ++ f j :: post) pre.length = some (pre ++ f (pre.length + 1 + post.length) :: post) := by
  rw [hf pre.length j]
  · have e : (pre ++ f j :: post).length = pre.length + 1 + post.length := by simp; omega
    rw [e]; simp
  · simp

theorem patch_jump (pre post : List Instr) (j : Nat) :
    updateJump (pre ++ .jump j :: post) pre.length = some (pre ++ .jump (pre.length + 1 + post.length) :: post) :=
  updateJump_eq (f := .jump) (fun i j l h => by simp [updateJump, h]) pre post j

theorem patch_loopNext (pre post : List Instr) (j : Nat) :
    updateJump (pre ++ .loopNext j :: post) pre.length =
      some (pre ++ .loopNext (pre.length + 1 + post.length) :: post) :=
  updateJump_eq (f := .loopNext) (fun i j l h => by simp [updateJump, h]) pre post j

theorem patch_if (n : Bool) (pre post : List Instr) (j : Nat) :
    updateJump (pre ++ (if n then Instr.jumpIfTrue j else .jumpIfFalse j) :: post) pre.length =
      some (pre ++ (if n then Instr.jumpIfTrue (pre.length + 1 + post.length)
        else .jumpIfFalse (pre.length + 1 + post.length)) :: post) :=
  updateJump_eq (f := fun j => if n then Instr.jumpIfTrue j else .jumpIfFalse j)
    (fun i j l h => by cases n <;> simp at h <;> simp [updateJump, h]) pre post j

mutual
theorem compileStmt_eq (pre : List Instr) (s : Stmt) :
    compileStmt pre s = some (pre ++ codeStmt pre.length s) := by
  match s with
  | .raw sp => simp [compileStmt, codeStmt]
  | .inlineExpr e sp => simp only [compileStmt, codeStmt]; rw [compileExpr_eq, popEmitExpr_eq]
  | .include_ name (some g) => simp [compileStmt, codeStmt, compileExpr_eq]
  | .include_ name none => simp [compileStmt, codeStmt]
  | .ifElse n cond th none =>
    simp only [compileStmt, codeStmt, compileExpr_eq]
    rw [compileScope_eq _ th]
    simp only [Option.bind_eq_bind, Option.bind_some, List.append_assoc, List.singleton_append]
    have := patch_if n (pre ++ codeExpr cond)
      (codeStmts (pre ++ (codeExpr cond ++ [if n = true then Instr.jumpIfTrue FIXME else Instr.jumpIfFalse FIXME])).length th) FIXME
    simp only [List.append_assoc] at this
    rw [this]
    simp [Nat.add_assoc]
  | .ifElse n cond th (some el) =>
    simp only [compileStmt, codeStmt, compileExpr_eq]
    rw [compileScope_eq _ th]
    simp only [Option.bind_eq_bind, Option.bind_some, List.append_assoc, List.singleton_append]
    have := patch_if n (pre ++ codeExpr cond)
      (codeStmts (pre ++ (codeExpr cond ++ [if n = true then Instr.jumpIfTrue FIXME else Instr.jumpIfFalse FIXME])).length th ++ [.jump FIXME]) FIXME
    simp only [List.append_assoc, List.cons_append] at this
    simp only [List.append_assoc, List.cons_append]
    rw [this]
    simp only [Option.bind_some]
    rw [compileScope_eq _ el]
    simp only [Option.bind_some]
    have key := fun (a b c e : List Instr) (i : Instr) => patch_jump (a ++ b ++ i :: c) e FIXME
    simp only [List.append_assoc, List.cons_append, List.length_append, List.length_cons, List.length_nil] at key ⊢
    simp only [List.append_assoc, List.cons_append, List.nil_append] 
    rw [key]
    simp [Nat.add_assoc]
    have e : ∀ x : Nat, 1 + (x + 1) = x + 2 := fun x => by omega
    rw [e]
    exact ⟨by omega, rfl⟩
  | .forLoop vars e body =>
    simp only [compileStmt, codeStmt, compileExpr_eq]
    rw [compileScope_eq _ body]
    simp only [Option.bind_eq_bind, Option.bind_some]
    have key := fun (a b c : List Instr) (i : Instr) => patch_loopNext (a ++ b ++ [i]) c FIXME
    simp only [List.append_assoc, List.cons_append, List.length_append, List.length_cons, List.length_nil, List.nil_append] at key ⊢
    rw [key]
    simp [Nat.add_assoc]
  | .with_ e name body =>
    simp only [compileStmt, codeStmt, compileExpr_eq]
    rw [compileScope_eq _ body]
    simp [Nat.add_assoc]

theorem compileScope_eq (pre : List Instr) (ss : List Stmt) :
    compileScope pre ss = some (pre ++ codeStmts pre.length ss) := by
  match ss with
  | [] => simp [compileScope, codeStmts]
  | s :: ss =>
    simp only [compileScope, codeStmts]
    rw [compileStmt_eq pre s]
    simp only [Option.bind_eq_bind, Option.bind_some]
    rw [compileScope_eq _ ss]
    simp
end

/-- The compiler never fails on a syntax tree. -/
theorem compileTemplate_eq (source : Str) (ss : List Stmt) :
    compileTemplate source ss = some ⟨source, codeStmts 0 ss⟩ := by
  simp [compileTemplate, compileScope_eq]

end Compiler
end Upon
