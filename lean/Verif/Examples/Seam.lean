import Verif.Examples.Labels
import Verif.Props.Seam
import Verif.Examples.Compose
/-
Concrete cases that meet the hypotheses of the theorems of Props/Seam, and why the seam matters.
-/
namespace Upon.Demo
open Spec

/-- `pA` and `pB`, one text after the other. -/
def joined : Tree := ⟨"{% if k %}a{% endif %}{{ k }}".toList,
  [.ifElse false (.base (.var (name 6 7))) [.raw ⟨10, 11⟩] none, .inlineExpr (.base (.var (name 25 26))) ⟨22, 29⟩]⟩

theorem joined_source : pA.source ++ pB.source = joined.source := by decide +kernel

set_option maxRecDepth 100000 in
theorem check_joined : (AC.new Syn.default).map (fun a => [pA, pB, joined].all
    fun T => decide (Parser.parseTemplate ⟨asciiEnv, a, T.source⟩ = .ok T.body)) = some true := by decide +kernel

theorem joined_parse {T : Tree} (hT : T ∈ [pA, pB, joined]) {a : AC.Auto} (ha : AC.new Syn.default = some a) :
    Parser.parseTemplate ⟨asciiEnv, a, T.source⟩ = .ok T.body := by
  have hc := check_joined
  rw [ha] at hc
  exact of_decide_eq_true (List.all_eq_true.mp (Option.some.inj hc) _ hT)

theorem joined_compiles {T : Tree} (hT : T ∈ [pA, pB, joined]) {a : AC.Auto} (ha : AC.new Syn.default = some a) :
    compileSource ⟨asciiEnv, a, T.source⟩ = .ok (code T) := by
  rw [compileSource, joined_parse hT ha, Res.ok_bind, Compiler.compileTemplate_eq]; rfl

/-- No delimiter comes about between `%}` and `{{`. -/
theorem joined_seamless : Seamless defaultBuilder.build pA.source pB.source where
  across p hp d e he h1 h2 := by
    have key : ∀ p ∈ defaultBuilder.build, ∀ n ∈ List.range (p.2.length + 1), p.2.take n <:+ pA.source → p.2.drop n <+: pB.source →
        p.2.take n = [] ∨ p.2.drop n = [] := by decide +kernel
    have k := key p hp d.length (by rw [he]; simp; omega)
    rw [he, List.take_left, List.drop_left] at k
    exact k h1 h2
  before p hp _ _ white rest _ _ u c e := by
    have : pA.source.getLast? = some '}' := by decide +kernel
    rw [e, List.getLast?_concat] at this
    cases this
    decide
  after p hp _ _ white rest _ _ c u e := by
    have : pB.source.head? = some '{' := by decide +kernel
    rw [e] at this
    cases this
    decide

/-- The hypotheses of `C69_to_string` hold, and the results are `a`, `5` and `a5`. -/
example : ∃ a, Setup defaultBuilder ⟨asciiEnv, a, pA.source⟩ ∧ Tidy defaultBuilder.build pA.source ∧ Tidy defaultBuilder.build pB.source ∧
    Seamless defaultBuilder.build pA.source pB.source ∧
    Steady asciiEnv (fun _ => qB) (pair a pA qB parts) ∧ compileSource ⟨asciiEnv, a, pA.source⟩ = .ok (code pA) ∧
    compileSource ⟨asciiEnv, a, pB.source⟩ = .ok (code pB) ∧ compileSource ⟨asciiEnv, a, pA.source ++ pB.source⟩ = .ok (code joined) ∧
    (∀ ss, Parser.parseTemplate ⟨asciiEnv, a, pA.source⟩ = .ok ss → Tame ss) ∧ (∀ ss, Parser.parseTemplate ⟨asciiEnv, a, pB.source⟩ = .ok ss → Tame ss) ∧
    { pair a pA qB parts with template := code pA }.ToString asciiEnv (.ok "a".toList) ∧
    { pair a pA qB parts with template := code pB }.ToString asciiEnv (.ok "5".toList) ∧
    { pair a pA qB parts with template := code joined }.ToString asciiEnv (.ok "a5".toList) := by
  obtain ⟨a, s⟩ := default_setup asciiEnv pA.source
  have ha : AC.new Syn.default = some a := s.searcher
  refine ⟨a, s, default_tidy _, default_tidy _, joined_seamless, steady a pA parts, joined_compiles (by simp) ha, joined_compiles (by simp) ha, ?_, ?_, ?_,
    .ok _ ⟨"a".toList, []⟩ rfl ⟨40, ?_⟩, .ok _ ⟨"5".toList, []⟩ rfl ⟨40, ?_⟩, .ok _ ⟨"a5".toList, []⟩ rfl ⟨40, ?_⟩⟩
  · rw [joined_source]; exact joined_compiles (by simp) ha
  · intro ss h
    cases (joined_parse (T := pA) (by simp) ha).symm.trans h
    unfold pA; simp [Tame, TameStmt]
  · intro ss h
    cases (joined_parse (T := pB) (by simp) ha).symm.trans h
    unfold pB; simp [Tame, TameStmt]
  · show Upon.run ⟨asciiEnv, fmtDefault asciiEnv, [("add".toList, .filter add)], [(['b'], code qB)], none, 64, stringSink⟩ 40
      (initVM (code pA) none (.scope (.borrowed parts)) []) = _
    decide +kernel
  · show Upon.run ⟨asciiEnv, fmtDefault asciiEnv, [("add".toList, .filter add)], [(['b'], code qB)], none, 64, stringSink⟩ 40
      (initVM (code pB) none (.scope (.borrowed parts)) []) = _
    decide +kernel
  · show Upon.run ⟨asciiEnv, fmtDefault asciiEnv, [("add".toList, .filter add)], [(['b'], code qB)], none, 64, stringSink⟩ 40
      (initVM (code joined) none (.scope (.borrowed parts)) []) = _
    decide +kernel

/-- Whether the text is a template of the default syntax. -/
def good? (a : AC.Auto) (src : Str) : Option Bool :=
  match compileSource ⟨asciiEnv, a, src⟩ with
  | .ok _ => some true
  | .err _ => some false
  | .crash => none

theorem good_true {a : AC.Auto} {src : Str} (h : good? a src = some true) : ∃ t, compileSource ⟨asciiEnv, a, src⟩ = .ok t := by
  unfold good? at h
  split at h
  · exact ⟨_, by assumption⟩
  · cases h
  · cases h

theorem good_false {a : AC.Auto} {src : Str} (h : good? a src = some false) : ∃ e, compileSource ⟨asciiEnv, a, src⟩ = .err e := by
  unfold good? at h
  split at h
  · cases h
  · exact ⟨_, by assumption⟩
  · cases h

end Upon.Demo

namespace Upon
open Spec

set_option maxRecDepth 100000 in
/-- **C69** needs the condition on the seam: `a{` and `{b` are templates of the default syntax, but `a{{b` is not. -/
theorem C69_false_seam : ∃ a x y ta tb e, Setup defaultBuilder ⟨asciiEnv, a, x⟩ ∧ compileSource ⟨asciiEnv, a, x⟩ = .ok ta ∧
    compileSource ⟨asciiEnv, a, y⟩ = .ok tb ∧ compileSource ⟨asciiEnv, a, x ++ y⟩ = .err e := by
  obtain ⟨a, s⟩ := default_setup asciiEnv ['a', '{']
  have key : (AC.new Syn.default).map (fun a => ((Demo.good? a ['a', '{']), (Demo.good? a ['{', 'b']), (Demo.good? a ['a', '{', '{', 'b']))) =
      some (some true, some true, some false) := by decide +kernel
  have ha : AC.new Syn.default = some a := s.searcher
  rw [ha] at key
  simp only [Option.map_some, Option.some.injEq, Prod.mk.injEq] at key
  obtain ⟨ta, h1⟩ := Demo.good_true key.1
  obtain ⟨tb, h2⟩ := Demo.good_true key.2.1
  obtain ⟨e, h3⟩ := Demo.good_false key.2.2
  exact ⟨a, ['a', '{'], ['{', 'b'], ta, tb, e, s, h1, h2, h3⟩

end Upon
