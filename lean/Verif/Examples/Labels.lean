import Verif.Examples.Refactor
import Verif.Props.Labels
import Verif.Examples.Compose
/-
A concrete case that meets the hypotheses of the theorems of Props/Labels.
-/
namespace Upon.Demo
open Spec

namespace Labels

/-- A loop that includes a template, and a call of a filter. -/
def old : Tree := ⟨"{% for x in l %}{% include \"b\" %}{% endfor %}{{ k | add: k }}".toList,
  [.forLoop (.item ⟨⟨7, 8⟩⟩) (.base (.var (name 12 13))) [.include_ ⟨['b'], ⟨27, 30⟩⟩ none],
    .inlineExpr (.call ⟨⟨52, 55⟩⟩ (some ⟨[.var (name 57 58)], ⟨55, 58⟩⟩) (.base (.var (name 48 49))) ⟨48, 58⟩) ⟨45, 61⟩]⟩
/-- The same with other names. -/
def new : Tree := ⟨"{% for vx in vl %}{% include \"tb\" %}{% endfor %}{{ vk | fadd: vk }}".toList,
  [.forLoop (.item ⟨⟨7, 9⟩⟩) (.base (.var (name 13 15))) [.include_ ⟨['t', 'b'], ⟨29, 33⟩⟩ none],
    .inlineExpr (.call ⟨⟨56, 60⟩⟩ (some ⟨[.var (name 62 64)], ⟨60, 64⟩⟩) (.base (.var (name 51 53))) ⟨51, 64⟩) ⟨48, 67⟩]⟩
/-- An include with a value. -/
def oldScope : Tree := ⟨"{% include \"b\" with m %}".toList, [.include_ ⟨['b'], ⟨11, 14⟩⟩ (some (.base (.var (name 20 21))))]⟩
/-- The same with other names. -/
def newScope : Tree := ⟨"{% include \"tb\" with vm %}".toList, [.include_ ⟨['t', 'b'], ⟨11, 15⟩⟩ (some (.base (.var (name 21 23))))]⟩
/-- The included template with other names. -/
def newPart : Tree := ⟨"{{ vx }},".toList, [.inlineExpr (.base (.var (name 3 5))) ⟨0, 8⟩, .raw ⟨8, 9⟩]⟩

/-- `f`, `t` or `v` before every name. -/
def prefixed : Spec.Labels where
  function n := 'f' :: n
  template n := 't' :: n
  variable_ n := if n = "loop".toList then n else 'v' :: n
  distinct a b h := by
    split at h <;> split at h
    · exact h
    · rename_i h1 h2; rw [h1] at h; cases h
    · rename_i h1 h2; rw [h2] at h; cases h
    · exact (List.cons.inj h).2
  loop := rfl

set_option maxRecDepth 100000 in
theorem checked : (AC.new Syn.default).map (fun a => [old, new, oldScope, newScope, qB, newPart].all fun T =>
    decide (Parser.parseTemplate ⟨asciiEnv, a, T.source⟩ = .ok T.body)) = some true := by decide +kernel

theorem parsed {T : Tree} (hT : T ∈ [old, new, oldScope, newScope, qB, newPart]) : Parsed asciiEnv (code T) T := by
  obtain ⟨a, ha⟩ := default_setup asciiEnv T.source
  have hk := checked
  rw [show AC.new Syn.default = some a from ha.searcher] at hk
  have hk := List.all_eq_true.mp (Option.some.inj hk) T hT
  have hp := of_decide_eq_true hk
  have hc : compileSource ⟨asciiEnv, a, T.source⟩ = .ok (code T) := by
    rw [compileSource, hp, Res.ok_bind, Compiler.compileTemplate_eq]; rfl
  obtain ⟨ts, h1, h2⟩ := (parseTemplate_iff (good ha (default_tidy _)) T.body).mp hp
  have hcl : Closed ts := by
    simpa using gstmts_closed h2 (rest := []) (by intro xs t ys e; simp at e)
  exact ⟨defaultBuilder, a, ts, ha, default_tidy _, hc, (C06_layout ha (default_tidy _) ts).mp ⟨h1, hcl⟩, h2⟩

/-- A variable that is one name. -/
def v (n : Str) : Plain.Base := .var n ⟨.direct, .key n⟩ []

theorem old_tree : Plain.ofStmts old.source old.body = [.forLoop (.item ['x']) (.base (v ['l'])) [.include_ ['b'] none],
    .expr (.call "add".toList (some [v ['k']]) (.base (v ['k'])))] := by rfl
theorem new_tree : Plain.ofStmts new.source new.body = [.forLoop (.item ['v', 'x']) (.base (v ['v', 'l'])) [.include_ ['t', 'b'] none],
    .expr (.call "fadd".toList (some [v ['v', 'k']]) (.base (v ['v', 'k'])))] := by rfl
theorem part_tree : Plain.ofStmts qB.source qB.body = [.expr (.base (v ['x'])), .char ','] := by rfl
theorem newPart_tree : Plain.ofStmts newPart.source newPart.body = [.expr (.base (v ['v', 'x'])), .char ','] := by rfl

theorem new_name {n : Str} (h : n ≠ "loop".toList) : prefixed.variable_ n = 'v' :: n := if_neg h

theorem tree_relabels : Plain.Relabels prefixed (Plain.ofStmts old.source old.body) (Plain.ofStmts new.source new.body) := by
  rw [old_tree, new_tree]
  simp only [Plain.Relabels, Plain.newStmts, Plain.newStmt, Plain.newVars, Plain.newExpr, Plain.newBase, v, Plain.newFirst, Option.map_some, List.map_cons, List.map_nil]
  rw [new_name (n := ['x']) (by decide), new_name (n := ['l']) (by decide), new_name (n := ['k']) (by decide)]
  rfl

theorem part_relabels : Plain.Relabels prefixed (Plain.ofStmts qB.source qB.body) (Plain.ofStmts newPart.source newPart.body) := by
  rw [part_tree, newPart_tree]
  simp only [Plain.Relabels, Plain.newStmts, Plain.newStmt, Plain.newExpr, Plain.newBase, v, Plain.newFirst]
  rw [new_name (n := ['x']) (by decide)]

/-- The globals with the new names. -/
def data : Value := globals [("vk", .integer 5), ("vl", .list [.integer 1, .integer 2])]

/-- The renderer with the new names. -/
def newRenderer (a : AC.Auto) (T : Tree) (v : Value) : Renderer :=
  let r := pair a T newPart v
  { r with engine := { r.engine with functions := [("fadd".toList, .filter add)], templates := [(['t', 'b'], code newPart)] } }

theorem get_data (p q : Char) (x y : Value) (hp : p ≠ 'v' := by decide) (n : Str) : BMap.get [(['v', p], x), (['v', q], y)] (prefixed.variable_ n) = BMap.get [([p], x), ([q], y)] n := by
  show BMap.get _ (if n = "loop".toList then n else 'v' :: n) = _
  split
  · rename_i h; rw [h]; simp [BMap.get, List.find?]
  · simp [BMap.get, List.find?]

theorem relabelledAll (a : AC.Auto) {T T' : Tree} {m m' : List (Str × Value)} (hT : T ∈ [old, oldScope]) (hT' : T' ∈ [new, newScope])
    (hl : Plain.Relabels prefixed (Plain.ofStmts T.source T.body) (Plain.ofStmts T'.source T'.body)) (hm : ∀ n, BMap.get m' (prefixed.variable_ n) = BMap.get m n) :
    RelabelledAll prefixed asciiEnv (fun _ => qB) (fun _ => newPart) T T' (pair a T qB (.map m)) (newRenderer a T' (.map m')) where
  name := rfl
  globals := .borrowed hm
  functions n := by
    show BMap.get [("fadd".toList, EngFn.filter add)] ('f' :: n) = BMap.get [("add".toList, EngFn.filter add)] n
    simp [BMap.get, List.find?]
  formatter := rfl
  depth := rfl
  template := ⟨parsed (by simp at hT ⊢; grind), parsed (by simp at hT' ⊢; grind),
    by simp at hT; rcases hT with rfl | rfl <;> [unfold old; unfold oldScope] <;> simp [Tame, TameStmt],
    by simp at hT'; rcases hT' with rfl | rfl <;> [unfold new; unfold newScope] <;> simp [Tame, TameStmt], hl⟩
  templates := by
    show ∀ n, RelatedEntry _ _ _ _ (BMap.get [(['b'], code qB)] n) (BMap.get [(['t', 'b'], code newPart)] ('t' :: n))
    intro n
    by_cases h : n = ['b']
    · subst h
      exact .found ⟨parsed (by simp), parsed (by simp), by unfold qB; simp [Tame, TameStmt], by unfold newPart; simp [Tame, TameStmt], part_relabels⟩
    · have e1 : BMap.get [(['b'], code qB)] n = none := by simp [BMap.get, List.find?, Ne.symm h]
      have e2 : BMap.get [(['t', 'b'], code newPart)] ('t' :: n) = none := by simp [BMap.get, List.find?, Ne.symm h]
      rw [e1, e2]
      exact .missing
  others t ht := by
    obtain ⟨n, hn⟩ : ∃ n, BMap.get [(['t', 'b'], code newPart)] n = some t := ht
    obtain rfl : code newPart = t := by
      by_cases h : ['t', 'b'] = n
      · subst h; simpa [BMap.get, List.find?] using hn
      · simp [BMap.get, List.find?, h] at hn
    exact ⟨parsed (by simp), by unfold newPart; simp [Tame, TameStmt]⟩

theorem relabelled (a : AC.Auto) : Relabelled prefixed asciiEnv (fun _ => qB) (fun _ => newPart) old new (pair a old qB parts) (newRenderer a new data) where
  toRelabelledAll := relabelledAll a (by simp) (by simp) tree_relabels (get_data 'k' 'l' _ _)
  scopes := .inr ⟨by rw [old_tree]; simp [Plain.NoScopes, Plain.Stmt.NoScope],
    fun t _ => by show Plain.NoScopes (Plain.ofStmts qB.source qB.body); rw [part_tree]; simp [Plain.NoScopes, Plain.Stmt.NoScope]⟩

/-- Both render `1,2,10`. -/
example (a : AC.Auto) : Relabelled prefixed asciiEnv (fun _ => qB) (fun _ => newPart) old new (pair a old qB parts) (newRenderer a new data) ∧
    (pair a old qB parts).ToString asciiEnv (.ok "1,2,10".toList) ∧ (newRenderer a new data).ToString asciiEnv (.ok "1,2,10".toList) := by
  refine ⟨relabelled a, .ok _ ⟨"1,2,10".toList, []⟩ rfl ⟨80, ?_⟩, .ok _ ⟨"1,2,10".toList, []⟩ rfl ⟨80, ?_⟩⟩
  · show Upon.run ⟨asciiEnv, fmtDefault asciiEnv, [("add".toList, .filter add)], [(['b'], code qB)], none, 64, stringSink⟩ 80
      (initVM (code old) none (.scope (.borrowed parts)) []) = _
    decide +kernel
  · show Upon.run ⟨asciiEnv, fmtDefault asciiEnv, [("fadd".toList, .filter add)], [(['t', 'b'], code newPart)], none, 64, stringSink⟩ 80
      (initVM (code new) none (.scope (.borrowed data)) []) = _
    decide +kernel

theorem scope_relabels : Plain.Relabels prefixed (Plain.ofStmts oldScope.source oldScope.body) (Plain.ofStmts newScope.source newScope.body) := by
  rw [show Plain.ofStmts oldScope.source oldScope.body = [.include_ ['b'] (some (.base (v ['m'])))] by rfl,
    show Plain.ofStmts newScope.source newScope.body = [.include_ ['t', 'b'] (some (.base (v ['v', 'm'])))] by rfl]
  simp only [Plain.Relabels, Plain.newStmts, Plain.newStmt, Plain.newExpr, Plain.newBase, v, Plain.newFirst]
  rw [new_name (n := ['m']) (by decide)]
  rfl

end Labels
end Upon.Demo

namespace Upon
open Spec Demo

/-- **C70** The proviso about `include … with` is needed: such an include makes the keys of a value variables, and the keys of values below the top level are not
renamed. `{% include "b" with m %}`, where `b` is `{{ x }},`, gives `7,` for `m: {x: 7}`; with the new names, `{{ vx }}` asks for a key that is not there. -/
theorem C70_false_scope (a : AC.Auto) : ∃ (L : Labels) (tree tree' : Template → Tree) (T T' : Tree) (r r' : Renderer) (e : Err),
    RelabelledAll L asciiEnv tree tree' T T' r r' ∧ r.ToString asciiEnv (.ok "7,".toList) ∧ r'.ToString asciiEnv (.err e) := by
  have h : (match Upon.run ⟨asciiEnv, fmtDefault asciiEnv, [("fadd".toList, .filter add)], [(['t', 'b'], code Labels.newPart)], none, 64, stringSink⟩ 80
      (initVM (code Labels.newScope) none (.scope (.borrowed (.map [("vk".toList, .integer 5), ("vm".toList, globals [("x", .integer 7)])]))) []) with
      | some (.err _ _) => true
      | _ => false) = true := by decide +kernel
  split at h
  · rename_i e w he
    exact ⟨Labels.prefixed, _, _, _, _, _, _, e, Labels.relabelledAll a (T := Labels.oldScope) (T' := Labels.newScope) (by simp) (by simp) Labels.scope_relabels
      (Labels.get_data 'k' 'm' (.integer 5) (globals [("x", .integer 7)])),
      .ok _ ⟨"7,".toList, []⟩ rfl ⟨80, by
        show Upon.run ⟨asciiEnv, fmtDefault asciiEnv, [("add".toList, .filter add)], [(['b'], code qB)], none, 64, stringSink⟩ 80
          (initVM (code Labels.oldScope) none (.scope (.borrowed (.map [(['k'], .integer 5), (['m'], globals [("x", .integer 7)])]))) []) = _
        decide +kernel⟩, .err _ e w rfl ⟨80, he⟩⟩
  · cases h

end Upon
