import Verif.Props.Setup
import Verif.Examples.Whole
/-
Concrete cases for C80.
-/
namespace Upon.Demo.Setup
open Spec

/-- A formatter that writes nothing. -/
def quiet : Formatter := fun _ => .done (.ok ())

/-- Calls in some order: the most recent one first. -/
def history : List Op := [.addFilter "add".toList add, .setMaxIncludeDepth 3, .removeTemplate ['u'], .addFormatter "add".toList quiet, .addTemplate ['u'] ['x'],
  .setMaxIncludeDepth 9, .setDefaultFormatter quiet, .addFilter ['r'] add, .removeFunction ['r']]

/-- The same by topic. -/
def shuffled : List Op := [.setDefaultFormatter quiet, .addFilter "add".toList add, .addFilter ['r'] add, .removeTemplate ['u'], .setMaxIncludeDepth 3,
  .setMaxIncludeDepth 9, .addTemplate ['u'] ['x'], .addFormatter "add".toList quiet, .removeFunction ['r']]

theorem same : SameByTopic history shuffled := by
  intro t
  cases t with
  | template n =>
    by_cases h : ['u'] = n
    · subst h; rfl
    · simp [history, shuffled, Op.topic, h]
  | function n =>
    by_cases h : "add".toList = n
    · subst h; rfl
    · by_cases h' : ['r'] = n
      · subst h'; rfl
      · have h : ¬ ['a', 'd', 'd'] = n := h
        simp [history, shuffled, Op.topic, h, h']
  | formatter => rfl
  | limit => rfl

/-- Without what was replaced and removed the engine is the same. -/
example {env : Env} {b : SyntaxBuilder} {e : Engine} (he : Fresh env b e) : after env e [.removeTemplate ['u'], .addTemplate ['v'] ['y'], .addTemplate ['u'] ['x']] =
    after env e [.addTemplate ['v'] ['y']] := C80_remove he [.addTemplate ['v'] ['y'], .addTemplate ['u'] ['x']] trivial

/-- With the default syntax: the two histories lead to the same engine. -/
example : ∃ e, Fresh asciiEnv defaultBuilder e ∧ after asciiEnv e history = after asciiEnv e shuffled := let ⟨e, he⟩ := fresh; ⟨e, he, C80_order he same⟩

/-- The order of two calls about the same thing does matter. -/
example (env : Env) (e : Engine) : (after env e [.setMaxIncludeDepth 3, .setMaxIncludeDepth 9]).maxIncludeDepth = 3 ∧
    (after env e [.setMaxIncludeDepth 9, .setMaxIncludeDepth 3]).maxIncludeDepth = 9 := ⟨rfl, rfl⟩

/-- Delimiters can be set in any order, and again. -/
example : builder [.comment ['#'] ['#'], .expr ['<'] ['>'], .block ['['] [']'], .expr ['('] [')']] =
    builder [.block ['['] [']'], .comment ['#'] ['#'], .expr ['<'] ['>']] := rfl

/-- They cannot be empty. -/
example : builder [.comment ['#'] ['#'], .expr ['<'] []] = none := (C80_syntax_panics _).mpr ⟨.expr ['<'] [], by simp, by simp [SetOp.Allowed]⟩

end Upon.Demo.Setup
