import Verif.Props.Trims
import Verif.Examples.Texts
/-
A concrete case that meets the hypotheses of the theorems of Props/Trims.
-/
namespace Upon.Demo
open Spec

namespace Trims

/-- A loop that includes a template, with trim markers and a comment. -/
def marked : Tree := ⟨"a {%- for x in l -%} {% include \"b\" %}{#- c #}{% endfor %}".toList,
  [.raw ⟨0, 1⟩, .forLoop (.item ⟨⟨10, 11⟩⟩) (.base (.var (name 15 16))) [.raw ⟨21, 21⟩, .include_ ⟨['b'], ⟨32, 35⟩⟩ none]]⟩
/-- With other markers and blanks. -/
def unmarked : Tree := ⟨"a {% for x in l %} {% include \"b\" -%}{%endfor%}".toList,
  [.raw ⟨0, 2⟩, .forLoop (.item ⟨⟨9, 10⟩⟩) (.base (.var (name 14 15))) [.raw ⟨18, 19⟩, .include_ ⟨['b'], ⟨30, 33⟩⟩ none]]⟩
/-- An included template. -/
def left : Tree := ⟨" {{- x }} ,".toList, [.raw ⟨0, 0⟩, .inlineExpr (.base (.var (name 5 6))) ⟨1, 9⟩, .raw ⟨9, 11⟩]⟩
/-- With other markers. -/
def right : Tree := ⟨" {{ x -}} ,".toList, [.raw ⟨0, 1⟩, .inlineExpr (.base (.var (name 4 5))) ⟨1, 9⟩, .raw ⟨10, 11⟩]⟩

/-- The text parses as `T` and spells `ws`. -/
def checkFull (a : AC.Auto) (p : Tree × List Item) : Bool :=
  decide (Parser.parseTemplate ⟨asciiEnv, a, p.1.source⟩ = .ok p.1.body) &&
    decide ((lexAll ⟨asciiEnv, a, p.1.source⟩ 50 Lexer.new).map (fullWords p.1.source 0) = some p.2)

theorem spells_of {bd : SyntaxBuilder} (hb : Built bd) (ht : ∀ src, Tidy bd.build src) {ps : List (Tree × List Item)}
    (hc : (AC.new bd.build).map (fun a => ps.all (checkFull a)) = some true) {T : Tree} {ws : List Item} (hT : (T, ws) ∈ ps) :
    Spells asciiEnv (code T) T ws := by
  obtain ⟨a, ha, _⟩ := C02_total hb
  have s : Setup bd ⟨asciiEnv, a, T.source⟩ := ⟨hb, ha⟩
  rw [ha] at hc
  have hk := List.all_eq_true.mp (Option.some.inj hc) _ hT
  simp only [checkFull, Bool.and_eq_true, decide_eq_true_eq] at hk
  obtain ⟨hp, hw⟩ := hk
  have hc : compileSource ⟨asciiEnv, a, T.source⟩ = .ok (code T) := by
    rw [compileSource, hp, Res.ok_bind, Compiler.compileTemplate_eq]; rfl
  obtain ⟨ts, h1, h2⟩ := (parseTemplate_iff (good s (ht _)) T.body).mp hp
  have hcl : Closed ts := by
    simpa using gstmts_closed h2 (rest := []) (by intro xs t ys e; simp at e)
  have hl := (C06_layout s (ht _) ts).mp ⟨h1, hcl⟩
  cases hx : lexAll ⟨asciiEnv, a, T.source⟩ 50 Lexer.new with
  | none => rw [hx] at hw; cases hw
  | some ts' =>
    rw [hx] at hw
    have e := tokens_unique (lexAll_tokens hx) h1
    subst e
    exact ⟨bd, a, ts', s, ht _, hc, hl, h2, Option.some.inj hw⟩

/-- What the loops spell. -/
def loopFull : List Item := Texts.loopWords "a " " " "" ""
/-- What the included templates spell. -/
def partFull : List Item := Texts.partWords " " " ,"

set_option maxRecDepth 100000 in
theorem checked : (AC.new Syn.default).map (fun a => [(marked, loopFull), (unmarked, loopFull), (left, partFull), (right, partFull)].all (checkFull a)) =
    some true := by decide +kernel

theorem spelled {T : Tree} {ws : List Item} (hT : (T, ws) ∈ [(marked, loopFull), (unmarked, loopFull), (left, partFull), (right, partFull)]) :
    Spells asciiEnv (code T) T ws := spells_of default_built default_tidy checked hT

theorem remarked_of (a : AC.Auto) (v : Value) {A A' B B' : Tree} (h1 : SpellSame asciiEnv (code A) A (code A') A')
    (h2 : SpellSame asciiEnv (code B) B (code B') B') : Remarked asciiEnv (fun _ => B) (fun _ => B') A A' (pair a A B v) (pair a A' B' v) := by
  refine ⟨rfl, rfl, rfl, rfl, rfl, h1, ?_⟩
  intro n
  show SpellEntry asciiEnv (fun _ => B) (fun _ => B') (BMap.get [(['b'], code B)] n) (BMap.get [(['b'], code B')] n)
  by_cases hn : n = ['b']
  · subst hn
    exact .found h2
  · have e : ∀ t : Template, BMap.get [(['b'], t)] n = none := fun t => by simp [BMap.get, Ne.symm hn]
    rw [e, e]
    exact .missing

theorem remarked (a : AC.Auto) (v : Value) :
    Remarked asciiEnv (fun _ => left) (fun _ => right) marked unmarked (pair a marked left v) (pair a unmarked right v) :=
  remarked_of a v
    ⟨⟨loopFull, spelled (.head _), spelled (.tail _ (.head _))⟩, by unfold marked; simp [Tame, TameStmt], by unfold unmarked; simp [Tame, TameStmt]⟩
    ⟨⟨partFull, spelled (.tail _ (.tail _ (.head _))), spelled (.tail _ (.tail _ (.tail _ (.head _))))⟩, by unfold left; simp [Tame, TameStmt],
      by unfold right; simp [Tame, TameStmt]⟩

/-- The hypotheses of `C83_to_string` hold, and the outputs differ in white space. -/
example (a : AC.Auto) : Remarked asciiEnv (fun _ => left) (fun _ => right) marked unmarked (pair a marked left parts) (pair a unmarked right parts) ∧
    (pair a marked left parts).ToString asciiEnv (.ok "a1 ,2 ,".toList) ∧ (pair a unmarked right parts).ToString asciiEnv (.ok "a   1,  2,".toList) := by
  refine ⟨remarked a parts, .ok _ ⟨"a1 ,2 ,".toList, []⟩ rfl ⟨80, ?_⟩, .ok _ ⟨"a   1,  2,".toList, []⟩ rfl ⟨80, ?_⟩⟩
  · show Upon.run ⟨asciiEnv, fmtDefault asciiEnv, [("add".toList, .filter add)], [(['b'], code left)], none, 64, stringSink⟩ 80
      (initVM (code marked) none (.scope (.borrowed parts)) []) = _
    decide +kernel
  · show Upon.run ⟨asciiEnv, fmtDefault asciiEnv, [("add".toList, .filter add)], [(['b'], code right)], none, 64, stringSink⟩ 80
      (initVM (code unmarked) none (.scope (.borrowed parts)) []) = _
    decide +kernel

/-- The hypotheses of `C83_accepts` hold of the two loops. -/
example : ∃ a ts ts', Setup defaultBuilder ⟨asciiEnv, a, marked.source⟩ ∧ Setup defaultBuilder ⟨asciiEnv, a, unmarked.source⟩ ∧
    Layout defaultBuilder.build asciiEnv marked.source (.text false) 0 ts ∧ Layout defaultBuilder.build asciiEnv unmarked.source (.text false) 0 ts' ∧
    fullWords marked.source 0 ts = fullWords unmarked.source 0 ts' ∧ words marked.source ts ≠ words unmarked.source ts' := by
  obtain ⟨a, ha, _⟩ := C02_total default_built
  have key : ∀ {T : Tree}, (T, loopFull) ∈ [(marked, loopFull), (unmarked, loopFull), (left, partFull), (right, partFull)] →
      ∃ ts, Layout defaultBuilder.build asciiEnv T.source (.text false) 0 ts ∧ fullWords T.source 0 ts = loopFull ∧
        lexAll ⟨asciiEnv, a, T.source⟩ 50 Lexer.new = some ts := by
    intro T hT
    have hc := checked
    rw [show AC.new Syn.default = some a from ha] at hc
    have hk := List.all_eq_true.mp (Option.some.inj hc) _ hT
    simp only [checkFull, Bool.and_eq_true, decide_eq_true_eq] at hk
    have s : Setup defaultBuilder ⟨asciiEnv, a, T.source⟩ := ⟨default_built, ha⟩
    obtain ⟨ts, h1, h2⟩ := (parseTemplate_iff (good s (default_tidy _)) T.body).mp hk.1
    have hcl : Closed ts := by
      simpa using gstmts_closed h2 (rest := []) (by intro xs t ys e; simp at e)
    have hl := (C06_layout s (default_tidy _) ts).mp ⟨h1, hcl⟩
    obtain ⟨ts', e1, e2⟩ := Option.map_eq_some_iff.mp hk.2
    cases tokens_unique (lexAll_tokens e1) h1
    exact ⟨_, hl, e2, e1⟩
  obtain ⟨ts, h1, h2, h3⟩ := key (T := marked) (by simp)
  obtain ⟨ts', h1', h2', h3'⟩ := key (T := unmarked) (by simp)
  refine ⟨a, ts, ts', ⟨default_built, ha⟩, ⟨default_built, ha⟩, h1, h1', h2.trans h2'.symm, fun e => ?_⟩
  have hd : (AC.new Syn.default).map (fun a => decide (((lexAll ⟨asciiEnv, a, marked.source⟩ 50 Lexer.new).map (words marked.source)) =
      (lexAll ⟨asciiEnv, a, unmarked.source⟩ 50 Lexer.new).map (words unmarked.source))) = some false := by decide +kernel
  rw [show AC.new Syn.default = some a from ha, Option.map_some, h3, h3'] at hd
  simp [e] at hd

end Trims
end Upon.Demo
