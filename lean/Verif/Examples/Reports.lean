import Verif.Examples.Features
import Verif.Examples.Errors
import Verif.Props.Report
/-
C41: concrete cases. The texts are those of tests/compile.rs:98-148 and 1293 ff. of tests/render.rs.
-/
namespace Upon.Demo
open Spec

/-- The error of compiling `lorem {{ ipsum | dolor: for }}`. -/
def unexpected : Err := ⟨.syntax, none, some "unexpected keyword `for`", Pretty.build asciiEnv "lorem {{ ipsum | dolor: for }}".toList ⟨24, 27⟩⟩

example : String.ofList (unexpected.display asciiEnv true) = "invalid syntax

  --> <anonymous>:1:25
   |
 1 | lorem {{ ipsum | dolor: for }}
   |                         ^^^
   |
   = reason: unexpected keyword `for`
" := by decide +kernel

example : String.ofList (unexpected.display asciiEnv false) = "invalid syntax: unexpected keyword `for`" := by decide +kernel

example : String.ofList (unexpected.debug asciiEnv (fun s => '"' :: s ++ ['"']) (fun _ => [])) = "invalid syntax

  --> <anonymous>:1:25
   |
 1 | lorem {{ ipsum | dolor: for }}
   |                         ^^^
   |
   = reason: unexpected keyword `for`

Error { kind: Syntax, name: None, reason: Some(\"unexpected keyword `for`\"), pretty: Some(Pretty { ln: 0, col: 24, width: 3, text: \"lorem {{ ipsum | dolor: for }}\" }) }" := by decide +kernel

/-- The error of compiling `lorem {{ ipsum.dolor |`. -/
def unfinished : Err := ⟨.syntax, none, some "expected identifier, found EOF", Pretty.build asciiEnv "lorem {{ ipsum.dolor |".toList ⟨22, 22⟩⟩

example : String.ofList (unfinished.display asciiEnv true) = "invalid syntax

  --> <anonymous>:1:23
   |
 1 | lorem {{ ipsum.dolor |
   |                       ^--
   |
   = reason: expected identifier, found EOF
" := by decide +kernel

theorem ascii_for : AsciiLines "lorem {{ ipsum | dolor: for }}".toList := by
  have : ∀ c ∈ "lorem {{ ipsum | dolor: for }}".toList, c = '\n' ∨ (' ' ≤ c ∧ c ≤ '~') := by decide +kernel
  exact this
theorem widths : AsciiWidths asciiEnv := fun _ _ => rfl

example : PointsAt "invalid syntax".toList "<anonymous>".toList "unexpected keyword `for`".toList "lorem {{ ipsum | dolor: for }}".toList 24
    "for".toList (unexpected.display asciiEnv true) :=
  C41_points (env := asciiEnv) (sp := ⟨24, 27⟩) (src := "lorem {{ ipsum | dolor: for }}".toList) (t := "for".toList) (e := unexpected) widths ascii_for
    (by decide +kernel) (.inl (by decide)) rfl rfl

/-- Whether an outcome is this error. -/
def isErr {α : Type} (e : Err) : Res α → Bool
  | .err e' => decide (e' = e)
  | _ => false

set_option maxRecDepth 100000 in
/-- A compile error, from text to report. -/
theorem compile_for {a : AC.Auto} (ha : AC.new Syn.default = some a) :
    compileSource ⟨asciiEnv, a, "lorem {{ ipsum | dolor: for }}".toList⟩ = .err unexpected := by
  have key : (AC.new Syn.default).map (fun a => isErr unexpected (Parser.parseTemplate ⟨asciiEnv, a, "lorem {{ ipsum | dolor: for }}".toList⟩)) =
      some true := by decide +kernel
  rw [ha] at key
  have key : isErr unexpected (Parser.parseTemplate ⟨asciiEnv, a, "lorem {{ ipsum | dolor: for }}".toList⟩) = true := Option.some.inj key
  rw [compileSource]
  cases h : Parser.parseTemplate ⟨asciiEnv, a, "lorem {{ ipsum | dolor: for }}".toList⟩ with
  | ok _ => rw [h] at key; cases key
  | crash => rw [h] at key; cases key
  | err e => rw [h] at key; rw [of_decide_eq_true key]; rfl

example {a : AC.Auto} (ha : AC.new Syn.default = some a) := C41_compile ⟨asciiEnv, a, "lorem {{ ipsum | dolor: for }}".toList⟩ widths ascii_for (compile_for ha)

theorem ascii_all {T : Tree} (hT : T ∈ all) : AsciiLines T.source := by
  have : ∀ T ∈ all, ∀ c ∈ T.source, c = '\n' ∨ (' ' ≤ c ∧ c ≤ '~') := by decide +kernel
  exact this T hT

example (a : AC.Auto) := C41_render widths (healthy a 64 (T := main) (by simp [all]) (some "main".toList) wrong) (T := main) (parsed (by simp [all]))
  (ascii_all (by simp [all])) (fun t' T' hi hp => by
    have := tree_parsed _ hi
    rw [hp.source, ← this.source]
    rcases includable hi with ⟨_, h⟩ | ⟨_, h⟩ | ⟨_, h⟩ | ⟨_, h⟩ <;> rw [h] <;> exact ascii_all (by simp [all])) rfl []
  (halts (a := a) wrong_run) rfl (fun h => by cases congrArg Err.name h)

end Upon.Demo
