import Verif.Props.Texts
import Verif.Examples.Compose
/-
A concrete case that meets the hypotheses of the theorems of Props/Texts.
-/
namespace Upon.Demo
open Spec

namespace Texts

/-- A loop that includes a template. -/
def tight : Tree := ⟨"a {% for x in l %}{% include \"b\" %}{% endfor %}".toList,
  [.raw ⟨0, 2⟩, .forLoop (.item ⟨⟨9, 10⟩⟩) (.base (.var (name 14 15))) [.include_ ⟨['b'], ⟨29, 32⟩⟩ none]]⟩
/-- With other white space between the tags. -/
def loose : Tree := ⟨"a{% for x in l %}\n {% include \"b\" %}{% endfor %}\n".toList,
  [.raw ⟨0, 1⟩, .forLoop (.item ⟨⟨8, 9⟩⟩) (.base (.var (name 13 14))) [.raw ⟨17, 19⟩, .include_ ⟨['b'], ⟨30, 33⟩⟩ none], .raw ⟨48, 49⟩]⟩
/-- `{{ x }},` with other white space. -/
def part' : Tree := ⟨"{{ x }} ,".toList, [.inlineExpr (.base (.var (name 3 4))) ⟨0, 7⟩, .raw ⟨7, 9⟩]⟩

def forTag : List Item := .sign .beginBlock :: ([.word .keyword "for".toList, .word .ident "x".toList, .word .keyword "in".toList, .word .ident "l".toList] ++ [.sign .endBlock])
def incTag : List Item := .sign .beginBlock :: ([.word .keyword "include".toList, .word .string "\"b\"".toList] ++ [.sign .endBlock])
def endTag : List Item := .sign .beginBlock :: ([.word .keyword "endfor".toList] ++ [.sign .endBlock])
def xTag : List Item := .sign .beginExpr :: ([.word .ident "x".toList] ++ [.sign .endExpr])

/-- The tags of the loop, with texts. -/
def loopWords (a b c d : String) : List Item :=
  a.toList.map .char ++ (forTag ++ (b.toList.map .char ++ (incTag ++ (c.toList.map .char ++ (endTag ++ d.toList.map .char)))))
/-- The tag of the part, with texts. -/
def partWords (a b : String) : List Item := a.toList.map .char ++ (xTag ++ b.toList.map .char)

set_option maxRecDepth 100000 in
theorem checked : (AC.new Syn.default).map (fun a => [(tight, loopWords "a " "" "" ""), (loose, loopWords "a" "\n " "" "\n"), (qB, partWords "" ","),
    (part', partWords "" " ,")].all (check a)) = some true := by decide +kernel

theorem said {T : Tree} {ws : List Item} (hT : (T, ws) ∈ [(tight, loopWords "a " "" "" ""), (loose, loopWords "a" "\n " "" "\n"), (qB, partWords "" ","),
    (part', partWords "" " ,")]) : Says asciiEnv (code T) T ws := says_of default_built default_tidy checked hT

theorem loop_words {R : Str → Str → Prop} {a b c d a' b' c' d' : String} (h1 : R a.toList a'.toList) (h2 : R b.toList b'.toList) (h3 : R c.toList c'.toList)
    (h4 : R d.toList d'.toList) : Rephrased R (loopWords a b c d) (loopWords a' b' c' d') :=
  .tag h1 (.block (by simp [Inside])) (.tag h2 (.block (by simp [Inside])) (.tag h3 (.block (by simp [Inside])) (.text h4)))

theorem part_words {R : Str → Str → Prop} {a b a' b' : String} (h1 : R a.toList a'.toList) (h2 : R b.toList b'.toList) :
    Rephrased R (partWords a b) (partWords a' b') := .tag h1 (.expr (by simp [Inside])) (.text h2)

theorem loop_related : Related (Plain.Retexted SameButBlanks) asciiEnv (code tight) tight (code loose) loose :=
  C76_says (said (ws := loopWords "a " "" "" "") (by simp)) (said (ws := loopWords "a" "\n " "" "\n") (by simp)) (by unfold tight; simp [Tame, TameStmt]) (by unfold loose; simp [Tame, TameStmt])
    (loop_words (by unfold SameButBlanks; decide +kernel) (by unfold SameButBlanks; decide +kernel) rfl (by unfold SameButBlanks; decide +kernel))

theorem part_related : Related (Plain.Retexted SameButBlanks) asciiEnv (code qB) qB (code part') part' :=
  C76_says (said (ws := partWords "" ",") (by simp)) (said (ws := partWords "" " ,") (by simp)) (by unfold qB; simp [Tame, TameStmt]) (by unfold part'; simp [Tame, TameStmt])
    (part_words rfl (by unfold SameButBlanks; decide +kernel))

theorem rewritten {E : List Plain.Stmt → List Plain.Stmt → Prop} (a : AC.Auto) (v : Value) {A A' B B' : Tree}
    (h1 : Related E asciiEnv (code A) A (code A') A') (h2 : Related E asciiEnv (code B) B (code B') B') :
    Rewritten E asciiEnv (fun _ => B) (fun _ => B') A A' (pair a A B v) (pair a A' B' v) := by
  refine ⟨rfl, rfl, rfl, rfl, rfl, h1, ?_⟩
  intro n
  show RelatedEntry _ asciiEnv (fun _ => B) (fun _ => B') (BMap.get [(['b'], code B)] n) (BMap.get [(['b'], code B')] n)
  by_cases hn : n = ['b']
  · subst hn
    exact .found h2
  · have e : ∀ t : Template, BMap.get [(['b'], t)] n = none := fun t => by simp [BMap.get, List.find?, Ne.symm hn]
    rw [e, e]
    exact .missing

/-- The outputs are the same apart from white space. -/
example (a : AC.Auto) : Rewritten (Plain.Retexted SameButBlanks) asciiEnv (fun _ => qB) (fun _ => part') tight loose (pair a tight qB parts)
    (pair a loose part' parts) ∧
    (pair a tight qB parts).ToString asciiEnv (.ok "a 1,2,".toList) ∧ (pair a loose part' parts).ToString asciiEnv (.ok "a\n 1 ,\n 2 ,\n".toList) := by
  refine ⟨rewritten a parts loop_related part_related, .ok _ ⟨"a 1,2,".toList, []⟩ rfl ⟨80, ?_⟩, .ok _ ⟨"a\n 1 ,\n 2 ,\n".toList, []⟩ rfl ⟨80, ?_⟩⟩
  · show Upon.run ⟨asciiEnv, fmtDefault asciiEnv, [("add".toList, .filter add)], [(['b'], code qB)], none, 64, stringSink⟩ 80
      (initVM (code tight) none (.scope (.borrowed parts)) []) = _
    decide +kernel
  · show Upon.run ⟨asciiEnv, fmtDefault asciiEnv, [("add".toList, .filter add)], [(['b'], code part')], none, 64, stringSink⟩ 80
      (initVM (code loose) none (.scope (.borrowed parts)) []) = _
    decide +kernel

end Texts
end Upon.Demo
