import Verif.Props.Partial
import Verif.Examples.Refactor
import Verif.Examples.Compose
import Verif.Examples.Whole
/-
Concrete cases that meet the hypotheses of the theorems of Props/Partial.
-/
namespace Upon.Demo
open Spec

/-- The list `l` has an item that cannot be shown. -/
def spoiled : Value := globals [("k", .integer 5), ("l", .list [.integer 1, .list [.integer 2]]), ("x", globals [("n", .bool true)])]

/-- What a render of a template that may include `B` has written when it fails. -/
def leftover (A B : Tree) (v : Value) : Option Str :=
  match Upon.run ⟨asciiEnv, fmtDefault asciiEnv, [("add".toList, .filter add)], [(['b'], code B)], none, 64, stringSink⟩ 60
      (initVM (code A) none (.scope (.borrowed v)) []) with
  | some (.err _ w) => some w.out
  | _ => none

/-- With the include and with the template inlined, the render fails after writing `<1,`. -/
example : leftover qC qB spoiled = some "<1,".toList ∧ leftover qD qB spoiled = some "<1,".toList := by decide +kernel

theorem qC_tame : Tame qC.body ∧ Tame qD.body := by
  constructor
  · unfold qC; simp [Tame, TameStmt]
  · unfold qD; simp [Tame, TameStmt]

example (a : AC.Auto) {rc rd : Res Unit} {w w' : List UInt8} (h1 : (pair a qC qB spoiled).ToWriter asciiEnv vec [] rc w)
    (h2 : { pair a qC qB spoiled with template := code qD }.ToWriter asciiEnv vec [] rd w') :
    Unplaced rc = .err (depthErr 64) ∨ (Bare rc = Bare rd ∧ (rc ≠ .crash → w = w')) :=
  C66_inlined (steady a qC spoiled) (b := ['b']) (tb := code qB) (show BMap.get [(['b'], code qB)] ['b'] = _ by simp [BMap.get])
    (part (by simp)) (part (by simp)) (part (by simp)) qC_tame.1 qC_tame.2 qInlined vec_accepts h1 h2

/-- Only `k` is there and cannot be shown: `pC` fails after writing what `pA` writes. -/
def unshown : Value := globals [("k", .list [.integer 1])]

example : leftover pB qB unshown = some [] ∧ leftover pC qB unshown = some "a".toList := by decide +kernel

example (a : AC.Auto) {ra rb rc : Res Unit} {w₁ w₂ w : List UInt8} (h1 : (pair a pA qB unshown).ToWriter asciiEnv vec [] ra w₁)
    (h2 : { pair a pA qB unshown with template := code pB }.ToWriter asciiEnv vec w₁ rb w₂)
    (h3 : { pair a pA qB unshown with template := code pC }.ToWriter asciiEnv vec [] rc w) :
    (ra = .ok () → Unplaced rc = Unplaced rb ∧ (rc ≠ .crash → w = w₂)) ∧ (ra ≠ .ok () → Unplaced rc = Unplaced ra ∧ (rc ≠ .crash → w = w₁)) := by
  refine C66_in_turn (wa := pAWords) (wb := pBWords) (steady a pA unshown) (part (by simp)) (part (by simp)) (part (by simp)) ?_ ?_ vec_accepts h1 h2 h3
  · unfold pA; simp [Tame, TameStmt]
  · unfold pB; simp [Tame, TameStmt]

/-- Two layouts of one template, with data on which both fail after writing something. -/
example : leftover k l spoiled = leftover k' l' spoiled ∧ leftover k l spoiled = some ['a'] := by decide +kernel

example (a a' : AC.Auto) {res res' : Res Unit} {w w' : List UInt8} (h1 : (pair a k l spoiled).ToWriter asciiEnv vec [] res w)
    (h2 : (pair a' k' l' spoiled).ToWriter asciiEnv vec [] res' w') : Unplaced res = Unplaced res' ∧ (res ≠ .crash → w = w') :=
  C66_relaid (relaid a a' spoiled) vec_accepts h1 h2

/-- A rewritten template and its original fail after writing the same. -/
example : leftover rMain rPart spoiled = leftover rSwap rWith spoiled ∧ leftover rMain rPart spoiled ≠ none := by decide +kernel

example (a a' : AC.Auto) {res res' : Res Unit} {w w' : List UInt8} (h1 : (pair a rMain rPart spoiled).ToWriter asciiEnv vec [] res w)
    (h2 : (pair a' rSwap rWith spoiled).ToWriter asciiEnv vec [] res' w') : Unplaced res = Unplaced res' ∧ (res ≠ .crash → w = w') := by
  refine C66_refactored (rewritten _ a a' spoiled (by simp [refactors]) (by simp [refactors]) (by simp [refactors]) (by simp [refactors]) ?_ ?_ ?_ ?_
    Refactor.swapped Refactor.named) vec_accepts h1 h2
  · unfold rMain; simp [Tame, TameStmt]
  · unfold rSwap; simp [Tame, TameStmt]
  · unfold rPart; simp [Tame, TameStmt]
  · unfold rWith; simp only [Tame, TameStmt, and_true, true_and]; intro n h; cases h with | head h => cases h | tail h => cases h

/-- So with other names for the variables. -/
example (a a' : AC.Auto) {res res' : Res Unit} {w w' : List UInt8} (h1 : (pair a rMain rWith spoiled).ToWriter asciiEnv vec [] res w)
    (h2 : (pair a' rName rLong spoiled).ToWriter asciiEnv vec [] res' w') : Unplaced res = Unplaced res' ∧ (res ≠ .crash → w = w') := by
  refine C66_renamed (rewritten _ a a' spoiled (by simp [refactors]) (by simp [refactors]) (by simp [refactors]) (by simp [refactors]) ?_ ?_ ?_ ?_
    Refactor.renamed Refactor.longer) vec_accepts h1 h2
  · unfold rMain; simp [Tame, TameStmt]
  · unfold rName; simp [Tame, TameStmt]
  · unfold rWith; simp only [Tame, TameStmt, and_true, true_and]; intro n h; cases h with | head h => cases h | tail h => cases h
  · unfold rLong; simp only [Tame, TameStmt, and_true, true_and]; intro n h; cases h with | head h => cases h | tail h => cases h

/-- `h` fails after writing `xxx`, to any writer that takes it. -/
example (a : AC.Auto) {ω : Type} {io : IoWriter ω} {log : ω → List UInt8} (hl : Accepts io log) {w₀ w : ω} {res res' : Res Unit} {w' : List UInt8}
    (h1 : (renderer a 3 h none people).ToWriter asciiEnv io w₀ res w) (h2 : (renderer a 3 h none people).ToWriter asciiEnv vec [] res' w') :
    res = res' ∧ (res ≠ .crash → ∃ s, log w = log w₀ ++ utf8 s ∧ w' = [] ++ utf8 s) := C66_any_writer hl vec_accepts h1 h2

end Upon.Demo
