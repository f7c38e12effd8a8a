import Verif.Model.Ast
/-
The compiler from the syntax tree to the program (src/compile/mod.rs:30-189).
-/
namespace Upon.Compiler

/-- Models `FIXME = !0`, src/types/program.rs:10 (`usize::MAX` on a 64-bit target). -/
def FIXME : Nat := 2 ^ 64 - 1

/-- Models `Compiler::update_jump`, src/compile/mod.rs:175-182: the jump at index `i` is made to
point to the end of the program; `none` is an index panic or `panic!("not a jump instr")`. -/
def updateJump (instrs : List Instr) (i : Nat) : Option (List Instr) :=
  match instrs[i]? with
  | some (.jump _) => some (instrs.set i (.jump instrs.length))
  | some (.jumpIfTrue _) => some (instrs.set i (.jumpIfTrue instrs.length))
  | some (.jumpIfFalse _) => some (instrs.set i (.jumpIfFalse instrs.length))
  | some (.loopNext _) => some (instrs.set i (.loopNext instrs.length))
  | _ => none

/-- Models `Compiler::compile_base_expr`, src/compile/mod.rs:150-159. -/
def compileBaseExpr (instrs : List Instr) : BaseExpr → List Instr
  | .var v => instrs ++ [.exprStart v]
  | .lit l => instrs ++ [.exprStartLit l.value]

/-- Models `Compiler::compile_expr`, src/compile/mod.rs:132-148. -/
def compileExpr (instrs : List Instr) : Expr → List Instr
  | .base b => compileBaseExpr instrs b
  | .call name args receiver span => compileExpr instrs receiver ++ [.apply name span args]

/-- Models `Compiler::pop_emit_expr`, src/compile/mod.rs:161-173. -/
def popEmitExpr (instrs : List Instr) (span : Span) : List Instr :=
  match instrs.getLast? with
  | some (.apply ident _ none) => instrs.dropLast ++ [.emitWith ident span]
  | _ => instrs ++ [.emit span]

mutual
/-- Models `Compiler::compile_stmt`, src/compile/mod.rs:56-130; `self.instrs` is threaded. -/
def compileStmt (instrs : List Instr) : Stmt → Option (List Instr)
  | .raw sp => some (instrs ++ [.emitRaw sp])
  | .inlineExpr e _ => some (popEmitExpr (compileExpr instrs e) e.span)
  | .include_ name (some g) => some (compileExpr instrs g ++ [.includeWith name])
  | .include_ name none => some (instrs ++ [.include_ name])
  | .ifElse not_ cond then_ else_ => do
    let instrs := compileExpr instrs cond
    let j := instrs.length
    let instrs := instrs ++ [if not_ then .jumpIfTrue FIXME else .jumpIfFalse FIXME]
    let instrs ← compileScope instrs then_
    match else_ with
    | some else_ =>
      let j2 := instrs.length
      let instrs := instrs ++ [.jump FIXME]
      let instrs ← updateJump instrs j
      let instrs ← compileScope instrs else_
      updateJump instrs j2
    | none => updateJump instrs j
  | .forLoop vars iterable body => do
    let instrs := compileExpr instrs iterable
    let instrs := instrs ++ [.loopStart vars iterable.span]
    let j := instrs.length
    let instrs := instrs ++ [.loopNext FIXME]
    let instrs ← compileScope instrs body
    let instrs := instrs ++ [.jump j]
    updateJump instrs j
  | .with_ e name body => do
    let instrs := compileExpr instrs e
    let instrs := instrs ++ [.withStart name]
    let instrs ← compileScope instrs body
    some (instrs ++ [.withEnd])

/-- Models `Compiler::compile_scope`, src/compile/mod.rs:50-54. -/
def compileScope (instrs : List Instr) : List Stmt → Option (List Instr)
  | [] => some instrs
  | s :: rest => do
    let instrs ← compileStmt instrs s
    compileScope instrs rest
end

/-- Models `Compiler::compile_template`, src/compile/mod.rs:41-48. -/
def compileTemplate (source : Str) (scope : List Stmt) : Option Template := do
  let instrs ← compileScope [] scope
  some { source, instrs }

end Upon.Compiler
