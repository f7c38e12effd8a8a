import Verif.Props.Explicit
import Verif.Examples.Compose
/-
A concrete case that meets the hypotheses of the theorems of Props/Explicit.
-/
namespace Upon.Demo
open Spec

namespace Explicit

/-- Tags with and without a formatter, with a filter, and an include. -/
def silent : Tree := ⟨"{{ k }}{{ k | plain }}{{ k | add: k }}{% include \"b\" %}".toList,
  [.inlineExpr (.base (.var (name 3 4))) ⟨0, 7⟩,
    .inlineExpr (.call ⟨⟨14, 19⟩⟩ none (.base (.var (name 10 11))) ⟨10, 19⟩) ⟨7, 22⟩,
    .inlineExpr (.call ⟨⟨29, 32⟩⟩ (some ⟨[.var (name 34 35)], ⟨32, 35⟩⟩) (.base (.var (name 25 26))) ⟨25, 35⟩) ⟨22, 38⟩,
    .include_ ⟨['b'], ⟨49, 52⟩⟩ none]⟩
/-- All tags name their formatter. -/
def spoken : Tree := ⟨"{{ k | angle }}{{ k | plain }}{{ k | add: k | angle }}{% include \"b\" %}".toList,
  [.inlineExpr (.call ⟨⟨7, 12⟩⟩ none (.base (.var (name 3 4))) ⟨3, 12⟩) ⟨0, 15⟩,
    .inlineExpr (.call ⟨⟨22, 27⟩⟩ none (.base (.var (name 18 19))) ⟨18, 27⟩) ⟨15, 30⟩,
    .inlineExpr (.call ⟨⟨46, 51⟩⟩ none (.call ⟨⟨37, 40⟩⟩ (some ⟨[.var (name 42 43)], ⟨40, 43⟩⟩) (.base (.var (name 33 34))) ⟨33, 43⟩) ⟨33, 51⟩) ⟨30, 54⟩,
    .include_ ⟨['b'], ⟨65, 68⟩⟩ none]⟩
/-- The included template. -/
def partSilent : Tree := ⟨"[{{ k }}]".toList, [.raw ⟨0, 1⟩, .inlineExpr (.base (.var (name 4 5))) ⟨1, 8⟩, .raw ⟨8, 9⟩]⟩
/-- The same with the formatter. -/
def partSpoken : Tree := ⟨"[{{ k | angle }}]".toList, [.raw ⟨0, 1⟩, .inlineExpr (.call ⟨⟨8, 13⟩⟩ none (.base (.var (name 4 5))) ⟨4, 13⟩) ⟨1, 16⟩, .raw ⟨16, 17⟩]⟩

set_option maxRecDepth 100000 in
theorem checked : (AC.new Syn.default).map (fun a => [silent, spoken, partSilent, partSpoken].all fun T =>
    decide (Parser.parseTemplate ⟨asciiEnv, a, T.source⟩ = .ok T.body)) = some true := by decide +kernel

theorem parsed {T : Tree} (hT : T ∈ [silent, spoken, partSilent, partSpoken]) : Parsed asciiEnv (code T) T := by
  obtain ⟨a, ha⟩ := default_setup asciiEnv T.source
  have hk := checked
  rw [show AC.new Syn.default = some a from ha.searcher] at hk
  have hk := List.all_eq_true.mp (Option.some.inj hk) T hT
  have hp := of_decide_eq_true hk
  have hc : compileSource ⟨asciiEnv, a, T.source⟩ = .ok (code T) := by
    rw [compileSource, hp, Res.ok_bind, Compiler.compileTemplate_eq]; rfl
  obtain ⟨ts, h1, h2⟩ := (parseTemplate_iff (good ha (default_tidy _)) T.body).mp hp
  have hcl : Closed ts := by
    simpa using gstmts_closed h2 (rest := []) (by intro xs t ys e; simp at e)
  exact ⟨defaultBuilder, a, ts, ha, default_tidy _, hc, (C06_layout ha (default_tidy _) ts).mp ⟨h1, hcl⟩, h2⟩

/-- A formatter that writes a `<` first. -/
def angled : Formatter := fun v => .write ['<'] fun _ => fmtDefault asciiEnv v

/-- The functions of both engines. -/
def functions : BMap EngFn := [("add".toList, .filter add), ("plain".toList, .formatter (fmtDefault asciiEnv)), ("angle".toList, .formatter angled)]

/-- A variable that is one name. -/
def v (n : Str) : Plain.Base := .var n ⟨.direct, .key n⟩ []

theorem silent_tree : Plain.ofStmts silent.source silent.body = [.expr (.base (v ['k'])), .expr (.call "plain".toList none (.base (v ['k']))),
    .expr (.call "add".toList (some [v ['k']]) (.base (v ['k']))), .include_ ['b'] none] := by rfl
theorem spoken_tree : Plain.ofStmts spoken.source spoken.body = [.expr (.call "angle".toList none (.base (v ['k']))), .expr (.call "plain".toList none (.base (v ['k']))),
    .expr (.call "angle".toList none (.call "add".toList (some [v ['k']]) (.base (v ['k'])))), .include_ ['b'] none] := by rfl
theorem partSilent_tree : Plain.ofStmts partSilent.source partSilent.body = [.char '[', .expr (.base (v ['k'])), .char ']'] := by rfl
theorem partSpoken_tree : Plain.ofStmts partSpoken.source partSpoken.body = [.char '[', .expr (.call "angle".toList none (.base (v ['k']))), .char ']'] := by rfl

theorem tree_explicit : Plain.Explicit functions "angle".toList (Plain.ofStmts silent.source silent.body) (Plain.ofStmts spoken.source spoken.body) := by
  rw [silent_tree, spoken_tree]
  refine .expr .base (.expr (.formatter ?_) (.expr .args (.include_ .nil)))
  rintro ⟨f, hf⟩
  simp [functions, BMap.get, List.find?] at hf

theorem part_explicit : Plain.Explicit functions "angle".toList (Plain.ofStmts partSilent.source partSilent.body) (Plain.ofStmts partSpoken.source partSpoken.body) := by
  rw [partSilent_tree, partSpoken_tree]
  exact .char (.expr .base (.char .nil))

/-- A renderer for `T` in an engine that has `U` as `b`, with the default formatter. -/
def renderer (a : AC.Auto) (d : Formatter) (T U : Tree) (v : Value) : Renderer :=
  .new ⟨a, d, functions, [(['b'], code U)], 64⟩ (code T) none (.borrowed v)

theorem named (a : AC.Auto) (v : Value) : FormatterNamed "angle".toList asciiEnv (fun _ => partSilent) (fun _ => partSpoken) silent spoken
    (renderer a angled silent partSilent v) (renderer a (fmtDefault asciiEnv) spoken partSpoken v) := by
  refine ⟨rfl, rfl, rfl, by simp [renderer, Renderer.new, functions, BMap.get, List.find?], rfl,
    ⟨parsed (by simp), parsed (by simp), by unfold silent; simp [Tame, TameStmt], by unfold spoken; simp [Tame, TameStmt], tree_explicit⟩, ?_⟩
  intro n
  show RelatedEntry _ asciiEnv (fun _ => partSilent) (fun _ => partSpoken) (BMap.get [(['b'], code partSilent)] n) (BMap.get [(['b'], code partSpoken)] n)
  by_cases hn : n = ['b']
  · subst hn
    exact .found ⟨parsed (by simp), parsed (by simp), by unfold partSilent; simp [Tame, TameStmt], by unfold partSpoken; simp [Tame, TameStmt], part_explicit⟩
  · have e : ∀ t : Template, BMap.get [(['b'], t)] n = none := fun t => by simp [BMap.get, List.find?, Ne.symm hn]
    rw [e, e]
    exact .missing

/-- Both render `<55<10[<5]`, with different default formatters. -/
example (a : AC.Auto) : FormatterNamed "angle".toList asciiEnv (fun _ => partSilent) (fun _ => partSpoken) silent spoken
      (renderer a angled silent partSilent parts) (renderer a (fmtDefault asciiEnv) spoken partSpoken parts) ∧
    (renderer a angled silent partSilent parts).ToString asciiEnv (.ok "<55<10[<5]".toList) ∧
    (renderer a (fmtDefault asciiEnv) spoken partSpoken parts).ToString asciiEnv (.ok "<55<10[<5]".toList) := by
  refine ⟨named a parts, .ok _ ⟨"<55<10[<5]".toList, []⟩ rfl ⟨80, ?_⟩, .ok _ ⟨"<55<10[<5]".toList, []⟩ rfl ⟨80, ?_⟩⟩
  · show Upon.run ⟨asciiEnv, angled, functions, [(['b'], code partSilent)], none, 64, stringSink⟩ 80
      (initVM (code silent) none (.scope (.borrowed parts)) []) = _
    decide +kernel
  · show Upon.run ⟨asciiEnv, fmtDefault asciiEnv, functions, [(['b'], code partSpoken)], none, 64, stringSink⟩ 80
      (initVM (code spoken) none (.scope (.borrowed parts)) []) = _
    decide +kernel

end Explicit
end Upon.Demo
