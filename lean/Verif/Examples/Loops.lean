import Verif.Examples.Seam
import Verif.Props.Loops
import Verif.Examples.Compose
/-
Concrete cases that meet the hypotheses of the theorems of Props/Loops.
-/
namespace Upon.Demo
open Spec

/-- `{% for x in … %}{% include "b" %}{% endfor %}`, over the global `xs` (one character). -/
def eachOf (xs : Char) : Tree := ⟨"{% for x in ".toList ++ [xs] ++ " %}{% include \"b\" %}{% endfor %}".toList,
  [.forLoop (.item ⟨⟨7, 8⟩⟩) (.base (.var (name 12 13))) [.include_ ⟨['b'], ⟨27, 30⟩⟩ none]]⟩
/-- `{% for x in … %}{{ loop.index }}{% endfor %}`. -/
def indexOf (xs : Char) : Tree := ⟨"{% for x in ".toList ++ [xs] ++ " %}{{ loop.index }}{% endfor %}".toList,
  [.forLoop (.item ⟨⟨7, 8⟩⟩) (.base (.var (name 12 13))) [.inlineExpr (.base (.var (path .direct 19 23 24 29))) ⟨16, 32⟩]]⟩

def eachVars : List Item := [.word .ident "x".toList]
def indexBody : List Item := [.sign .beginExpr, .word .ident "loop".toList, .sign .dot, .word .ident "index".toList, .sign .endExpr]
def eachBody : List Item := [.sign .beginBlock, .word .keyword "include".toList, .word .string "\"b\"".toList, .sign .endBlock]

set_option maxRecDepth 100000 in
theorem check_each : (AC.new Syn.default).map (fun a => [(eachOf 'p', loopOver eachVars ['p'] eachBody), (eachOf 'q', loopOver eachVars ['q'] eachBody),
    (eachOf 'r', loopOver eachVars ['r'] eachBody), (indexOf 'p', loopOver eachVars ['p'] indexBody), (indexOf 'q', loopOver eachVars ['q'] indexBody),
    (indexOf 'r', loopOver eachVars ['r'] indexBody)].all (check a)) = some true := by decide +kernel

theorem each {T : Tree} {ws : List Item} (hT : (T, ws) ∈ [(eachOf 'p', loopOver eachVars ['p'] eachBody), (eachOf 'q', loopOver eachVars ['q'] eachBody),
    (eachOf 'r', loopOver eachVars ['r'] eachBody), (indexOf 'p', loopOver eachVars ['p'] indexBody), (indexOf 'q', loopOver eachVars ['q'] indexBody),
    (indexOf 'r', loopOver eachVars ['r'] indexBody)]) : Says asciiEnv (code T) T ws :=
  says_of default_built default_tidy check_each hT

/-- The global `p` is `[1, 2]`, `q` is `[3]`, and `r` is `[1, 2, 3]`. -/
def lists : BMap Value := [(['p'], .list [.integer 1, .integer 2]), (['q'], .list [.integer 3]), (['r'], .list ([.integer 1, .integer 2] ++ [.integer 3]))]

def eachTree : List Plain.Stmt := [.include_ ['b'] none]

theorem each_vars : Plain.WVars eachVars (.item ['x']) := .item
theorem each_body : Plain.WStmts asciiEnv eachBody eachTree :=
  .include_ (raw := "\"b\"".toList) ⟨['b'], rfl, .char (by decide) (by decide) .nil⟩ .nil
theorem each_tame (c : Char) : Tame (eachOf c).body := by unfold eachOf; simp [Tame, TameStmt]
theorem each_no_loop : Plain.AllAskNoLoop (fun n => n = ['b']) eachTree := by simp [eachTree, Plain.AllAskNoLoop, Plain.Stmt.AsksNoLoop]
/-- The template `b` does not ask for `loop`. -/
theorem b_no_loop (a : AC.Auto) (T : Tree) (n : Str) (_ : n = ['b']) (t : Template) (_ : Finds (pair a T qB (.map lists)) n t) :
    Plain.AllAskNoLoop (fun n => n = ['b']) (Plain.ofStmts qB.source qB.body) := by
  rw [show Plain.ofStmts qB.source qB.body = [.expr (.base (.var ['x'] ⟨.direct, .key ['x']⟩ [])), .char ','] from
    Plain.stmts_unique (part (T := qB) (ws := qBWords) (by simp)).body
      (.expr (is := [.word .ident ['x']]) ⟨[.word .ident ['x']], _, [], rfl, .var .nil, .nil⟩ (.char .nil))]
  simp [Plain.AllAskNoLoop, Plain.Stmt.AsksNoLoop, Plain.Expr.AsksNoLoop, Plain.Base.AsksNoLoop]

/-- The hypotheses of `C68_to_string` hold, and the texts are `1,2,`, `3,` and `1,2,3,`. -/
example (a : AC.Auto) : ∃ ra rb rc, { pair a (eachOf 'p') qB (.map lists) with template := code (eachOf 'p') }.ToString asciiEnv ra ∧
    { pair a (eachOf 'p') qB (.map lists) with template := code (eachOf 'q') }.ToString asciiEnv rb ∧
    { pair a (eachOf 'p') qB (.map lists) with template := code (eachOf 'r') }.ToString asciiEnv rc ∧
    ra = .ok "1,2,".toList ∧ rb = .ok "3,".toList ∧ rc = .ok "1,2,3,".toList ∧ Unplaced rc = Unplaced (OneByOne ra rb) := by
  have run : ∀ (c : Char) (s : Str), Upon.run ⟨asciiEnv, fmtDefault asciiEnv, [("add".toList, .filter add)], [(['b'], code qB)], none, 64, stringSink⟩ 80
      (initVM (code (eachOf c)) none (.scope (.borrowed (.map lists))) []) = (some (.ok ⟨s, []⟩)) →
      { pair a (eachOf 'p') qB (.map lists) with template := code (eachOf c) }.ToString asciiEnv (.ok s) :=
    fun c s h => .ok _ ⟨s, []⟩ rfl ⟨80, h⟩
  have h1 := run 'p' "1,2,".toList (by decide +kernel)
  have h2 := run 'q' "3,".toList (by decide +kernel)
  have h3 := run 'r' "1,2,3,".toList (by decide +kernel)
  exact ⟨_, _, _, h1, h2, h3, rfl, rfl, rfl, C68_to_string (steady a _ _) (.inl rfl) each_vars each_body each_no_loop (b_no_loop a _) (a := ['p']) (b := ['q'])
    (c := ['r']) (va := .list [.integer 1, .integer 2]) (vb := .list [.integer 3]) (vc := .list ([.integer 1, .integer 2] ++ [.integer 3]))
    (by decide +kernel) (by decide +kernel) (by decide +kernel) .list (each (by simp)) (each (by simp)) (each (by simp)) (each_tame _) h1 h2 h3⟩

end Upon.Demo

namespace Upon
open Spec Demo

/-- **C68** The proviso about `loop` is needed: with `{{ loop.index }}` as the body, the loops over `[1, 2]`, `[3]` and `[1, 2, 3]` give `01`, `0` and `012`. -/
theorem C68_false_index (a : AC.Auto) : ∃ (r : Renderer) (ta tb tc : Template) (A B C : Tree), Steady asciiEnv (fun _ => qB) r ∧
    r.globals = .borrowed (.map lists) ∧ Tame A.body ∧ Tame B.body ∧ Tame C.body ∧
    Says asciiEnv ta A (loopOver eachVars ['p'] indexBody) ∧ Says asciiEnv tb B (loopOver eachVars ['q'] indexBody) ∧
    Says asciiEnv tc C (loopOver eachVars ['r'] indexBody) ∧
    { r with template := ta }.ToString asciiEnv (.ok "01".toList) ∧ { r with template := tb }.ToString asciiEnv (.ok "0".toList) ∧
    { r with template := tc }.ToString asciiEnv (.ok "012".toList) := by
  have run : ∀ (c : Char) (s : Str), Upon.run ⟨asciiEnv, fmtDefault asciiEnv, [("add".toList, .filter add)], [(['b'], code qB)], none, 64, stringSink⟩ 80
      (initVM (code (indexOf c)) none (.scope (.borrowed (.map lists))) []) = (some (.ok ⟨s, []⟩)) →
      { pair a (eachOf 'p') qB (.map lists) with template := code (indexOf c) }.ToString asciiEnv (.ok s) :=
    fun c s h => .ok _ ⟨s, []⟩ rfl ⟨80, h⟩
  have ht : ∀ c, Tame (indexOf c).body := by intro c; unfold indexOf; simp [Tame, TameStmt]
  exact ⟨_, _, _, _, _, _, _, steady a (eachOf 'p') _, rfl, ht _, ht _, ht _, each (by simp), each (by simp), each (by simp),
    run 'p' _ (by decide +kernel), run 'q' _ (by decide +kernel), run 'r' _ (by decide +kernel)⟩

end Upon
