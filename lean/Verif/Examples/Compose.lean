import Verif.Props.Compose
import Verif.Examples.Words
/-
Concrete cases that meet the hypotheses of the theorems of Props/Compose.
-/
namespace Upon.Demo
open Spec

/-- A condition. -/
def pA : Tree := ⟨"{% if k %}a{% endif %}".toList, [.ifElse false (.base (.var (name 6 7))) [.raw ⟨10, 11⟩] none]⟩
/-- A value. -/
def pB : Tree := ⟨"{{ k }}".toList, [.inlineExpr (.base (.var (name 3 4))) ⟨0, 7⟩]⟩
/-- One after the other, with a comment and whitespace control between them. -/
def pC : Tree := ⟨"{% if k %}a{% endif -%} {# c #}{{ k }}".toList,
  [.ifElse false (.base (.var (name 6 7))) [.raw ⟨10, 11⟩] none, .raw ⟨24, 24⟩, .inlineExpr (.base (.var (name 34 35))) ⟨31, 38⟩]⟩
/-- An include in a loop. -/
def qC : Tree := ⟨"<{% for x in l %}{% include \"b\" %}{% endfor %}>".toList,
  [.raw ⟨0, 1⟩, .forLoop (.item ⟨⟨8, 9⟩⟩) (.base (.var (name 13 14))) [.include_ ⟨['b'], ⟨28, 31⟩⟩ none], .raw ⟨46, 47⟩]⟩
/-- The included template. -/
def qB : Tree := ⟨"{{ x }},".toList, [.inlineExpr (.base (.var (name 3 4))) ⟨0, 7⟩, .raw ⟨7, 8⟩]⟩
/-- The loop with the included template inlined. -/
def qD : Tree := ⟨"<{% for x in l %}{{ x }},{% endfor %}>".toList,
  [.raw ⟨0, 1⟩, .forLoop (.item ⟨⟨8, 9⟩⟩) (.base (.var (name 13 14))) [.inlineExpr (.base (.var (name 20 21))) ⟨17, 24⟩, .raw ⟨24, 25⟩],
    .raw ⟨37, 38⟩]⟩

def pAWords : List Item := [.sign .beginBlock, .word .keyword "if".toList, .word .ident "k".toList, .sign .endBlock, .char 'a',
  .sign .beginBlock, .word .keyword "endif".toList, .sign .endBlock]
def pBWords : List Item := [.sign .beginExpr, .word .ident "k".toList, .sign .endExpr]
def qBWords : List Item := [.sign .beginExpr, .word .ident "x".toList, .sign .endExpr, .char ',']
/-- The start of a loop over `l`. -/
def qStart : List Item := [.char '<', .sign .beginBlock, .word .keyword "for".toList, .word .ident "x".toList, .word .keyword "in".toList,
  .word .ident "l".toList, .sign .endBlock]
/-- Its end. -/
def qStop : List Item := [.sign .beginBlock, .word .keyword "endfor".toList, .sign .endBlock, .char '>']
def qCWords : List Item := qStart ++ [.sign .beginBlock, .word .keyword "include".toList, .word .string "\"b\"".toList, .sign .endBlock] ++ qStop
def qDWords : List Item := qStart ++ qBWords ++ qStop

set_option maxRecDepth 100000 in
theorem check_parts : (AC.new Syn.default).map (fun a => [(pA, pAWords), (pB, pBWords), (pC, pAWords ++ pBWords), (qC, qCWords),
    (qB, qBWords), (qD, qDWords)].all (check a)) = some true := by decide +kernel

theorem part {T : Tree} {ws : List Item} (hT : (T, ws) ∈ [(pA, pAWords), (pB, pBWords), (pC, pAWords ++ pBWords), (qC, qCWords),
    (qB, qBWords), (qD, qDWords)]) : Says asciiEnv (code T) T ws :=
  says_of default_built default_tidy check_parts hT

/-- Some include of `b` is inlined. -/
theorem qInlined : Inlined ['b'] qBWords qCWords qDWords := by
  have keep : ∀ us {ws ws' : List Item}, Inlined ['b'] qBWords ws ws' → Inlined ['b'] qBWords (us ++ ws) (us ++ ws') := by
    intro us ws ws' h
    induction us with
    | nil => exact h
    | cons u us ih => exact .keep u ih
  have hs : StrLit "\"b\"".toList ['b'] := ⟨['b'], rfl, .char (by decide) (by decide) .nil⟩
  have h := keep qStart (.inline hs (keep qStop .nil))
  simpa [qCWords, qDWords, List.append_assoc] using h

/-- The engine has `qB` as `b`. -/
theorem steady (a : AC.Auto) (T : Tree) (v : Value) : Steady asciiEnv (fun _ => qB) (pair a T qB v) := by
  have hq : ∀ t, Includable ((pair a T qB v).cfg asciiEnv stringSink) t → t = code qB := by
    rintro t ⟨n, hn⟩
    have hn : BMap.get [(['b'], code qB)] n = some t := hn
    by_cases h : n = ['b']
    · subst h; simpa [BMap.get] using hn.symm
    · simp [BMap.get, List.find?, Ne.symm h] at hn
  refine ⟨fun t ht => hq t ht ▸ (part (ws := qBWords) (by simp)).parsed, fun t _ => ?_, fun f hf => by cases hf⟩
  unfold qB; simp [Tame, TameStmt]

/-- The globals `k = 5` and `l = [1, 2]`. -/
def parts : Value := globals [("k", .integer 5), ("l", .list [.integer 1, .integer 2])]

/-- The hypotheses of `C45_to_string` hold, and the results are `a`, `5` and `a5`. -/
example (a : AC.Auto) : Steady asciiEnv (fun _ => qB) (pair a pA qB parts) ∧
    Says asciiEnv (code pA) pA pAWords ∧ Says asciiEnv (code pB) pB pBWords ∧ Says asciiEnv (code pC) pC (pAWords ++ pBWords) ∧
    Tame pA.body ∧ Tame pB.body ∧ Tame pC.body ∧ (pair a pA qB parts).ToString asciiEnv (.ok "a".toList) ∧
    { pair a pA qB parts with template := code pB }.ToString asciiEnv (.ok "5".toList) ∧
    { pair a pA qB parts with template := code pC }.ToString asciiEnv (.ok "a5".toList) := by
  refine ⟨steady a pA parts, part (by simp), part (by simp), part (by simp), ?_, ?_, ?_, .ok _ ⟨"a".toList, []⟩ rfl ⟨40, ?_⟩,
    .ok _ ⟨"5".toList, []⟩ rfl ⟨40, ?_⟩, .ok _ ⟨"a5".toList, []⟩ rfl ⟨40, ?_⟩⟩
  · unfold pA; simp [Tame, TameStmt]
  · unfold pB; simp [Tame, TameStmt]
  · unfold pC; simp [Tame, TameStmt]
  · show Upon.run ⟨asciiEnv, fmtDefault asciiEnv, [("add".toList, .filter add)], [(['b'], code qB)], none, 64, stringSink⟩ 40
      (initVM (code pA) none (.scope (.borrowed parts)) []) = _
    decide +kernel
  · show Upon.run ⟨asciiEnv, fmtDefault asciiEnv, [("add".toList, .filter add)], [(['b'], code qB)], none, 64, stringSink⟩ 40
      (initVM (code pB) none (.scope (.borrowed parts)) []) = _
    decide +kernel
  · show Upon.run ⟨asciiEnv, fmtDefault asciiEnv, [("add".toList, .filter add)], [(['b'], code qB)], none, 64, stringSink⟩ 40
      (initVM (code pC) none (.scope (.borrowed parts)) []) = _
    decide +kernel

/-- The hypotheses of `C46_to_string` hold, and both renders give `<1,2,>`. -/
example (a : AC.Auto) : Steady asciiEnv (fun _ => qB) (pair a qC qB parts) ∧ Provides (pair a qC qB parts) ['b'] (code qB) ∧
    Says asciiEnv (code qB) qB qBWords ∧ Says asciiEnv (code qC) qC qCWords ∧ Says asciiEnv (code qD) qD qDWords ∧
    Tame qC.body ∧ Tame qD.body ∧ Inlined ['b'] qBWords qCWords qDWords ∧ (pair a qC qB parts).ToString asciiEnv (.ok "<1,2,>".toList) ∧
    { pair a qC qB parts with template := code qD }.ToString asciiEnv (.ok "<1,2,>".toList) := by
  refine ⟨steady a qC parts, ?_, part (by simp), part (by simp), part (by simp), ?_, ?_, qInlined, .ok _ ⟨"<1,2,>".toList, []⟩ rfl ⟨60, ?_⟩,
    .ok _ ⟨"<1,2,>".toList, []⟩ rfl ⟨60, ?_⟩⟩
  · show BMap.get [(['b'], code qB)] ['b'] = _; simp [BMap.get]
  · unfold qC; simp [Tame, TameStmt]
  · unfold qD; simp [Tame, TameStmt]
  · show Upon.run ⟨asciiEnv, fmtDefault asciiEnv, [("add".toList, .filter add)], [(['b'], code qB)], none, 64, stringSink⟩ 60
      (initVM (code qC) none (.scope (.borrowed parts)) []) = _
    decide +kernel
  · show Upon.run ⟨asciiEnv, fmtDefault asciiEnv, [("add".toList, .filter add)], [(['b'], code qB)], none, 64, stringSink⟩ 60
      (initVM (code qD) none (.scope (.borrowed parts)) []) = _
    decide +kernel

end Upon.Demo
