import Verif.Examples.Print
import Verif.Props.Refactor
import Verif.Examples.Words
/-
Concrete cases that meet the hypotheses of the theorems of Props/Refactor, and the reason for the exception in C50.
-/
namespace Upon.Demo
open Spec

/-- A loop with a condition, and an include. -/
def rMain : Tree := ⟨"{% for x in l %}{% if not x %}z{% else %}{{ x }}{% endif %}{% endfor %}{% include \"b\" %}".toList,
  [.forLoop (.item ⟨⟨7, 8⟩⟩) (.base (.var (name 12 13)))
    [.ifElse true (.base (.var (name 26 27))) [.raw ⟨30, 31⟩] (some [.inlineExpr (.base (.var (name 44 45))) ⟨41, 48⟩])],
    .include_ ⟨['b'], ⟨82, 85⟩⟩ none]⟩
/-- The branches are swapped. -/
def rSwap : Tree := ⟨"{% for x in l %}{% if x %}{{ x }}{% else %}z{% endif %}{% endfor %}{% include \"b\" %}".toList,
  [.forLoop (.item ⟨⟨7, 8⟩⟩) (.base (.var (name 12 13)))
    [.ifElse false (.base (.var (name 22 23))) [.inlineExpr (.base (.var (name 29 30))) ⟨26, 33⟩] (some [.raw ⟨43, 44⟩])],
    .include_ ⟨['b'], ⟨78, 81⟩⟩ none]⟩
/-- The loop variable has another name. -/
def rName : Tree := ⟨"{% for y in l %}{% if not y %}z{% else %}{{ y }}{% endif %}{% endfor %}{% include \"b\" %}".toList,
  [.forLoop (.item ⟨⟨7, 8⟩⟩) (.base (.var (name 12 13)))
    [.ifElse true (.base (.var (name 26 27))) [.raw ⟨30, 31⟩] (some [.inlineExpr (.base (.var (name 44 45))) ⟨41, 48⟩])],
    .include_ ⟨['b'], ⟨82, 85⟩⟩ none]⟩
/-- A call of a filter. -/
def rPart : Tree := ⟨"{{ k | add: k }}".toList,
  [.inlineExpr (.call ⟨⟨7, 10⟩⟩ (some ⟨[.var (name 12 13)], ⟨10, 13⟩⟩) (.base (.var (name 3 4))) ⟨3, 13⟩) ⟨0, 16⟩]⟩
/-- The receiver has a name. -/
def rWith : Tree := ⟨"{% with k as y %}{{ y | add: k }}{% endwith %}".toList,
  [.with_ (.base (.var (name 8 9))) ⟨⟨13, 14⟩⟩
    [.inlineExpr (.call ⟨⟨24, 27⟩⟩ (some ⟨[.var (name 29 30)], ⟨27, 30⟩⟩) (.base (.var (name 20 21))) ⟨20, 30⟩) ⟨17, 33⟩]]⟩
/-- Another name. -/
def rLong : Tree := ⟨"{% with k as long %}{{ long | add: k }}{% endwith %}".toList,
  [.with_ (.base (.var (name 8 9))) ⟨⟨13, 17⟩⟩
    [.inlineExpr (.call ⟨⟨30, 33⟩⟩ (some ⟨[.var (name 35 36)], ⟨33, 36⟩⟩) (.base (.var (name 23 27))) ⟨23, 36⟩) ⟨20, 39⟩]]⟩
/-- `g` with another name for its variable. -/
def rOpt : Tree := ⟨"{% for x in us %}{{ x?.m }}{% endfor %}".toList,
  [.forLoop (.item ⟨⟨7, 8⟩⟩) (.base (.var (name 12 14)))
    [.inlineExpr (.base (.var (path .optional 20 21 23 24))) ⟨17, 27⟩]]⟩

def refactors : List Tree := [rMain, rSwap, rName, rPart, rWith, rLong, rOpt]

set_option maxRecDepth 100000 in
theorem parse_refactors : (AC.new Syn.default).map (fun a => refactors.all fun T =>
    decide (Parser.parseTemplate ⟨asciiEnv, a, T.source⟩ = .ok T.body)) = some true := by decide +kernel

theorem parsed_refactor {T : Tree} (hT : T ∈ refactors) : Parsed asciiEnv (code T) T := by
  obtain ⟨a, ha⟩ := default_setup asciiEnv T.source
  have hk := parse_refactors
  rw [show AC.new Syn.default = some a from ha.searcher] at hk
  have hk := List.all_eq_true.mp (Option.some.inj hk) T hT
  have hp := of_decide_eq_true hk
  have hc : compileSource ⟨asciiEnv, a, T.source⟩ = .ok (code T) := by
    rw [compileSource, hp, Res.ok_bind, Compiler.compileTemplate_eq]; rfl
  obtain ⟨ts, h1, h2⟩ := (parseTemplate_iff (good ha (default_tidy _)) T.body).mp hp
  have hcl : Closed ts := by
    simpa using gstmts_closed h2 (rest := []) (by intro xs t ys e; simp at e)
  exact ⟨defaultBuilder, a, ts, ha, default_tidy _, hc, (C06_layout ha (default_tidy _) ts).mp ⟨h1, hcl⟩, h2⟩

namespace Refactor
open Plain

/-- A variable that is one name. -/
def v (n : String) : Base := .var n.toList ⟨.direct, .key n.toList⟩ []

theorem main_tree : ofStmts rMain.source rMain.body = [.forLoop (.item ['x']) (.base (v "l"))
    [.ifElse true (.base (v "x")) [.char 'z'] (some [.expr (.base (v "x"))])], .include_ ['b'] none] := by rfl
theorem swap_tree : ofStmts rSwap.source rSwap.body = [.forLoop (.item ['x']) (.base (v "l"))
    [.ifElse false (.base (v "x")) [.expr (.base (v "x"))] (some [.char 'z'])], .include_ ['b'] none] := by rfl
theorem name_tree : ofStmts rName.source rName.body = [.forLoop (.item ['y']) (.base (v "l"))
    [.ifElse true (.base (v "y")) [.char 'z'] (some [.expr (.base (v "y"))])], .include_ ['b'] none] := by rfl
theorem part_tree : ofStmts rPart.source rPart.body = [.expr (.call "add".toList (some [v "k"]) (.base (v "k")))] := by rfl
theorem with_tree : ofStmts rWith.source rWith.body =
    [.with_ (.base (v "k")) ['y'] [.expr (.call "add".toList (some [v "k"]) (.base (v "y")))]] := by rfl
theorem long_tree : ofStmts rLong.source rLong.body =
    [.with_ (.base (v "k")) "long".toList [.expr (.call "add".toList (some [v "k"]) (.base (v "long")))]] := by rfl

theorem swapped : Refactored (ofStmts rMain.source rMain.body) (ofStmts rSwap.source rSwap.body) := by
  rw [main_tree, swap_tree]
  exact .append (a := [_]) (a' := [_]) (.for_ (.law .notIf)) .refl

theorem named : Refactored (ofStmts rPart.source rPart.body) (ofStmts rWith.source rWith.body) := by
  rw [part_tree, with_tree]
  refine .law (.named (n := ['y']) ?_)
  rintro as ⟨⟩ b hb
  obtain rfl : b = v "k" := by simpa using hb
  simp [v, Base.Uses]

theorem renamed : Renamed [] (ofStmts rMain.source rMain.body) (ofStmts rName.source rName.body) := by
  have hx : RenamedBase [⟨false, some "loop".toList, some "loop".toList⟩, ⟨true, some ['x'], some ['y']⟩] (v "x") (v "y") :=
    .var (.outer (by simp) (by simp) (.bound rfl rfl (by simp)))
  rw [main_tree, name_tree]
  exact .cons (.for_ .item (.base (.var .free)) (.cons (.ifElse (.base hx) (.cons .char .nil) (.cons (.expr (.base hx)) .nil)) .nil))
    (.cons (.include_ (by simp)) .nil)

theorem longer : Renamed [] (ofStmts rWith.source rWith.body) (ofStmts rLong.source rLong.body) := by
  rw [with_tree, long_tree]
  exact .cons (.with_ (.base (.var .free)) (.cons (.expr (.callArgs
    (.cons (.var (.outer (by simp) (by simp) .free)) .nil) (.base (.var (.bound rfl rfl (by simp)))))) .nil)) .nil

end Refactor

theorem rewritten (E : List Plain.Stmt → List Plain.Stmt → Prop) (a a' : AC.Auto) (v : Value) {A A' B B' : Tree}
    (hA : A ∈ refactors) (hA' : A' ∈ refactors) (hB : B ∈ refactors) (hB' : B' ∈ refactors)
    (tA : Tame A.body) (tA' : Tame A'.body) (tB : Tame B.body) (tB' : Tame B'.body)
    (h1 : E (Plain.ofStmts A.source A.body) (Plain.ofStmts A'.source A'.body))
    (h2 : E (Plain.ofStmts B.source B.body) (Plain.ofStmts B'.source B'.body)) :
    Rewritten E asciiEnv (fun _ => B) (fun _ => B') A A' (pair a A B v) (pair a' A' B' v) := by
  refine ⟨rfl, rfl, rfl, rfl, rfl, ⟨parsed_refactor hA, parsed_refactor hA', tA, tA', h1⟩, ?_⟩
  intro n
  show RelatedEntry E asciiEnv (fun _ => B) (fun _ => B') (BMap.get [(['b'], code B)] n) (BMap.get [(['b'], code B')] n)
  by_cases hn : n = ['b']
  · subst hn
    exact .found ⟨parsed_refactor hB, parsed_refactor hB', tB, tB', h2⟩
  · have e : ∀ t : Template, BMap.get [(['b'], t)] n = none := by
      intro t
      simp [BMap.get, List.find?, Ne.symm hn]
    rw [e, e]
    exact .missing

/-- The globals `k = 5` and `l = [0, 7]`. -/
def numbers : Value := globals [("k", .integer 5), ("l", .list [.integer 0, .integer 7])]

/-- The hypotheses of `C49_to_string` hold, and both renders give `z710`. -/
example (a a' : AC.Auto) : Rewritten Plain.Refactored asciiEnv (fun _ => rPart) (fun _ => rWith) rMain rSwap
      (pair a rMain rPart numbers) (pair a' rSwap rWith numbers) ∧
    (pair a rMain rPart numbers).ToString asciiEnv (.ok "z710".toList) ∧
    (pair a' rSwap rWith numbers).ToString asciiEnv (.ok "z710".toList) := by
  refine ⟨rewritten _ a a' numbers (by simp [refactors]) (by simp [refactors]) (by simp [refactors]) (by simp [refactors]) ?_ ?_ ?_ ?_
    Refactor.swapped Refactor.named, .ok _ ⟨"z710".toList, []⟩ rfl ⟨60, ?_⟩, .ok _ ⟨"z710".toList, []⟩ rfl ⟨60, ?_⟩⟩
  · unfold rMain; simp [Tame, TameStmt]
  · unfold rSwap; simp [Tame, TameStmt]
  · unfold rPart; simp [Tame, TameStmt]
  · unfold rWith; simp only [Tame, TameStmt, and_true, true_and]; intro n h; cases h with | head h => cases h | tail h => cases h
  · show Upon.run ⟨asciiEnv, fmtDefault asciiEnv, [("add".toList, .filter add)], [(['b'], code rPart)], none, 64, stringSink⟩ 60
      (initVM (code rMain) none (.scope (.borrowed numbers)) []) = _
    decide +kernel
  · show Upon.run ⟨asciiEnv, fmtDefault asciiEnv, [("add".toList, .filter add)], [(['b'], code rWith)], none, 64, stringSink⟩ 60
      (initVM (code rSwap) none (.scope (.borrowed numbers)) []) = _
    decide +kernel

/-- The hypotheses of `C50_to_string` hold, and both renders give `z710`. -/
example (a a' : AC.Auto) : Rewritten (Plain.Renamed []) asciiEnv (fun _ => rWith) (fun _ => rLong) rMain rName
      (pair a rMain rWith numbers) (pair a' rName rLong numbers) ∧
    (pair a rMain rWith numbers).ToString asciiEnv (.ok "z710".toList) ∧
    (pair a' rName rLong numbers).ToString asciiEnv (.ok "z710".toList) := by
  refine ⟨rewritten _ a a' numbers (by simp [refactors]) (by simp [refactors]) (by simp [refactors]) (by simp [refactors]) ?_ ?_ ?_ ?_
    Refactor.renamed Refactor.longer, .ok _ ⟨"z710".toList, []⟩ rfl ⟨60, ?_⟩, .ok _ ⟨"z710".toList, []⟩ rfl ⟨60, ?_⟩⟩
  · unfold rMain; simp [Tame, TameStmt]
  · unfold rName; simp [Tame, TameStmt]
  · unfold rWith; simp only [Tame, TameStmt, and_true, true_and]; intro n h; cases h with | head h => cases h | tail h => cases h
  · unfold rLong; simp only [Tame, TameStmt, and_true, true_and]; intro n h; cases h with | head h => cases h | tail h => cases h
  · show Upon.run ⟨asciiEnv, fmtDefault asciiEnv, [("add".toList, .filter add)], [(['b'], code rWith)], none, 64, stringSink⟩ 60
      (initVM (code rMain) none (.scope (.borrowed numbers)) []) = _
    decide +kernel
  · show Upon.run ⟨asciiEnv, fmtDefault asciiEnv, [("add".toList, .filter add)], [(['b'], code rLong)], none, 64, stringSink⟩ 60
      (initVM (code rName) none (.scope (.borrowed numbers)) []) = _
    decide +kernel

/-- The globals `u = {m: 1}`, `x = {m: 2}` and `us = [{}]`. -/
def shadowed : Value := globals [("u", globals [("m", .integer 1)]), ("us", .list [globals []]), ("x", globals [("m", .integer 2)])]

end Upon.Demo

namespace Upon
open Spec Demo

/-- **C50, the exception** `{% for u in us %}{{ u?.m }}{% endfor %}` is not the same as `{% for x in us %}{{ x?.m }}{% endfor %}`: if the
item has no `m`, then the first one looks it up in the `u` outside, the second one in the `x` outside. -/
theorem C50_false_optional (a : AC.Auto) :
    (code g).source = "{% for u in us %}{{ u?.m }}{% endfor %}".toList ∧ Compiled asciiEnv (code g) ∧
    (code rOpt).source = "{% for x in us %}{{ x?.m }}{% endfor %}".toList ∧ Compiled asciiEnv (code rOpt) ∧
    (pair a g g shadowed).ToString asciiEnv (.ok "1".toList) ∧ (pair a rOpt g shadowed).ToString asciiEnv (.ok "2".toList) := by
  refine ⟨rfl, Demo.compiled (by simp [all]), rfl, ?_, .ok _ ⟨"1".toList, []⟩ rfl ⟨40, ?_⟩, .ok _ ⟨"2".toList, []⟩ rfl ⟨40, ?_⟩⟩
  · obtain ⟨b, a, ts, s, hw, hc, _⟩ := parsed_refactor (T := rOpt) (by simp [refactors])
    exact ⟨b, a, _, s, hw, hc⟩
  · show Upon.run ⟨asciiEnv, fmtDefault asciiEnv, [("add".toList, .filter add)], [(['b'], code g)], none, 64, stringSink⟩ 40
      (initVM (code g) none (.scope (.borrowed shadowed)) []) = _
    decide +kernel
  · show Upon.run ⟨asciiEnv, fmtDefault asciiEnv, [("add".toList, .filter add)], [(['b'], code g)], none, 64, stringSink⟩ 40
      (initVM (code rOpt) none (.scope (.borrowed shadowed)) []) = _
    decide +kernel

end Upon
