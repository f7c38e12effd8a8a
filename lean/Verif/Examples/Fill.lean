import Verif.Props.Fill
import Verif.Examples.Explicit
import Verif.Examples.Simplify
/-
Concrete cases that meet the hypotheses of the theorems of Props/Fill, and why a variable that is given a name stays.
-/
namespace Upon.Demo
open Spec

namespace Fill

/-- `u.n` -/
def path (a b c d : Nat) : Var :=
  ⟨⟨.direct, .key ⟨⟨a, b⟩⟩, ⟨a, b⟩⟩, [⟨.direct, .key ⟨⟨c, d⟩⟩, ⟨b, d⟩⟩]⟩

/-- A template with variables in a tag, in arguments, in a loop, in a condition and in a `with`. -/
def open_ : Tree := ⟨"{{ k | add: u.n }}{% for x in l %}{{ x | add: k }}{% include \"b\" %}{% endfor %}{% if u.n %}{% with u.n | add: 1 as y %}{{ y }}{% endwith %}{% endif %}".toList,
  [.inlineExpr (.call ⟨⟨7, 10⟩⟩ (some ⟨[.var (path 12 13 14 15)], ⟨10, 15⟩⟩) (.base (.var (name 3 4))) ⟨3, 15⟩) ⟨0, 18⟩,
    .forLoop (.item ⟨⟨25, 26⟩⟩) (.base (.var (name 30 31)))
      [.inlineExpr (.call ⟨⟨41, 44⟩⟩ (some ⟨[.var (name 46 47)], ⟨44, 47⟩⟩) (.base (.var (name 37 38))) ⟨37, 47⟩) ⟨34, 50⟩, .include_ ⟨['b'], ⟨61, 64⟩⟩ none],
    .ifElse false (.base (.var (path 85 86 87 88)))
      [.with_ (.call ⟨⟨105, 108⟩⟩ (some ⟨[.lit ⟨.integer 1, ⟨110, 111⟩⟩], ⟨108, 111⟩⟩) (.base (.var (path 99 100 101 102))) ⟨99, 111⟩) ⟨⟨115, 116⟩⟩
        [.inlineExpr (.base (.var (name 122 123))) ⟨119, 126⟩]] none]⟩
/-- The same with `5` for `k` and `3` for `u.n`. -/
def filled : Tree := ⟨"{{ 5 | add: 3 }}{% for x in l %}{{ x | add: 5 }}{% include \"b\" %}{% endfor %}{% if 3 %}{% with 3 | add: 1 as y %}{{ y }}{% endwith %}{% endif %}".toList,
  [.inlineExpr (.call ⟨⟨7, 10⟩⟩ (some ⟨[.lit ⟨.integer 3, ⟨12, 13⟩⟩], ⟨10, 13⟩⟩) (.base (.lit ⟨.integer 5, ⟨3, 4⟩⟩)) ⟨3, 13⟩) ⟨0, 16⟩,
    .forLoop (.item ⟨⟨23, 24⟩⟩) (.base (.var (name 28 29)))
      [.inlineExpr (.call ⟨⟨39, 42⟩⟩ (some ⟨[.lit ⟨.integer 5, ⟨44, 45⟩⟩], ⟨42, 45⟩⟩) (.base (.var (name 35 36))) ⟨35, 45⟩) ⟨32, 48⟩, .include_ ⟨['b'], ⟨59, 62⟩⟩ none],
    .ifElse false (.base (.lit ⟨.integer 3, ⟨83, 84⟩⟩))
      [.with_ (.call ⟨⟨99, 102⟩⟩ (some ⟨[.lit ⟨.integer 1, ⟨104, 105⟩⟩], ⟨102, 105⟩⟩) (.base (.lit ⟨.integer 3, ⟨95, 96⟩⟩)) ⟨95, 105⟩) ⟨⟨109, 110⟩⟩
        [.inlineExpr (.base (.var (name 116 117))) ⟨113, 120⟩]] none]⟩
/-- The included template. -/
def inner : Tree := ⟨"[{{ x }}{{ k }}]".toList, [.raw ⟨0, 1⟩, .inlineExpr (.base (.var (name 4 5))) ⟨1, 8⟩, .inlineExpr (.base (.var (name 11 12))) ⟨8, 15⟩, .raw ⟨15, 16⟩]⟩
/-- The same with `5` for `k`. -/
def innerFilled : Tree := ⟨"[{{ x }}{{ 5 }}]".toList, [.raw ⟨0, 1⟩, .inlineExpr (.base (.var (name 4 5))) ⟨1, 8⟩, .inlineExpr (.base (.lit ⟨.integer 5, ⟨11, 12⟩⟩)) ⟨8, 15⟩, .raw ⟨15, 16⟩]⟩
/-- A literal gets a name. -/
def literal : Tree := ⟨"{% with 5 as y %}{{ 1 | fst: y }}{% endwith %}".toList,
  [.with_ (.base (.lit ⟨.integer 5, ⟨8, 9⟩⟩)) ⟨⟨13, 14⟩⟩
    [.inlineExpr (.call ⟨⟨24, 27⟩⟩ (some ⟨[.var (name 29 30)], ⟨27, 30⟩⟩) (.base (.lit ⟨.integer 1, ⟨20, 21⟩⟩)) ⟨20, 30⟩) ⟨17, 33⟩]]⟩

set_option maxRecDepth 100000 in
theorem checked : (AC.new Syn.default).map (fun a => [open_, filled, inner, innerFilled, literal].all fun T =>
    decide (Parser.parseTemplate ⟨asciiEnv, a, T.source⟩ = .ok T.body)) = some true := by decide +kernel

theorem parsed {T : Tree} (hT : T ∈ [open_, filled, inner, innerFilled, literal]) : Parsed asciiEnv (code T) T := by
  obtain ⟨a, ha⟩ := default_setup asciiEnv T.source
  have hk := checked
  rw [show AC.new Syn.default = some a from ha.searcher] at hk
  have hk := List.all_eq_true.mp (Option.some.inj hk) T hT
  have hp := of_decide_eq_true hk
  have hc : compileSource ⟨asciiEnv, a, T.source⟩ = .ok (code T) := by
    rw [compileSource, hp, Res.ok_bind, Compiler.compileTemplate_eq]; rfl
  obtain ⟨ts, h1, h2⟩ := (parseTemplate_iff (good ha (default_tidy _)) T.body).mp hp
  have hcl : Closed ts := by
    simpa using gstmts_closed h2 (rest := []) (by intro xs t ys e; simp at e)
  exact ⟨defaultBuilder, a, ts, ha, default_tidy _, hc, (C06_layout ha (default_tidy _) ts).mp ⟨h1, hcl⟩, h2⟩

/-- The globals. -/
def data : Value := globals [("k", .integer 5), ("l", .list [.integer 1, .integer 2]), ("u", globals [("n", .integer 3)])]

/-- `n` -/
abbrev v (n : Char) : Plain.Base := .var [n] ⟨.direct, .key [n]⟩ []
/-- `u.n` -/
abbrev un : Plain.Base := .var ['u'] ⟨.direct, .key ['u']⟩ [⟨.direct, .key ['n']⟩]
/-- A number. -/
abbrev num (i : Int) : Plain.Base := .lit (.integer i)
/-- `e | add: b` -/
abbrev plus (e : Plain.Expr) (b : Plain.Base) : Plain.Expr := .call "add".toList (some [b]) e

set_option maxRecDepth 100000 in
theorem open_tree : Plain.ofStmts open_.source open_.body = [.expr (plus (.base (v 'k')) un),
    .forLoop (.item ['x']) (.base (v 'l')) [.expr (plus (.base (v 'x')) (v 'k')), .include_ ['b'] none],
    .ifElse false (.base un) [.with_ (plus (.base un) (num 1)) ['y'] [.expr (.base (v 'y'))]] none] := by rfl
set_option maxRecDepth 100000 in
theorem filled_tree : Plain.ofStmts filled.source filled.body = [.expr (plus (.base (num 5)) (num 3)),
    .forLoop (.item ['x']) (.base (v 'l')) [.expr (plus (.base (v 'x')) (num 5)), .include_ ['b'] none],
    .ifElse false (.base (num 3)) [.with_ (plus (.base (num 3)) (num 1)) ['y'] [.expr (.base (v 'y'))]] none] := by rfl
theorem inner_tree : Plain.ofStmts inner.source inner.body = [.char '[', .expr (.base (v 'x')), .expr (.base (v 'k')), .char ']'] := by rfl
theorem innerFilled_tree : Plain.ofStmts innerFilled.source innerFilled.body = [.char '[', .expr (.base (v 'x')), .expr (.base (num 5)), .char ']'] := by rfl
theorem literal_tree : Plain.ofStmts literal.source literal.body = [.with_ (.base (num 5)) ['y'] Simplify.body] := by rfl

theorem k_is : GoesTo data [⟨.direct, .key ['k']⟩] (.integer 5) := .key rfl .here
theorem un_is : GoesTo data [⟨.direct, .key ['u']⟩, ⟨.direct, .key ['n']⟩] (.integer 3) := .key rfl (.key rfl .here)

theorem k_fill {bound : List Str} (h : ['k'] ∉ bound) : Plain.FilledBase data bound (v 'k') (num 5) := .var h k_is .integer
theorem un_fill {bound : List Str} (h : ['u'] ∉ bound) : Plain.FilledBase data bound un (num 3) := .var h un_is .integer

theorem tree_filled : Plain.Filled data [] (Plain.ofStmts open_.source open_.body) (Plain.ofStmts filled.source filled.body) := by
  rw [open_tree, filled_tree]
  refine .expr (.callWith (.cons (un_fill (by simp)) .nil) (.base (k_fill (by simp))))
    (.for_ (.base .same) (.expr (.callWith (.cons (k_fill ?_) .nil) (.base .same)) (.include_ .nil))
      (.ifThen (.base (un_fill (by simp))) (.with_ (.call (.callWith (.cons .same .nil) (.base (un_fill (by simp))))) (.expr (.base .same) .nil) .nil) .nil))
  decide +kernel

/-- The names that the templates bind. -/
def taken : List Str := ["loop".toList, ['x'], ['y']]

theorem taken_k : ['k'] ∉ taken := by decide +kernel
theorem taken_u : ['u'] ∉ taken := by decide +kernel

theorem tree_along : Plain.FilledAlong data taken (Plain.ofStmts open_.source open_.body) (Plain.ofStmts filled.source filled.body) := by
  rw [open_tree, filled_tree]
  refine .expr (.callWith (.cons (un_fill taken_u) .nil) (.base (k_fill taken_k)))
    (.for_ ?_ (.base .same) (.expr (.callWith (.cons (k_fill taken_k) .nil) (.base .same)) (.include_ .nil))
      (.ifThen (.base (un_fill taken_u)) (.with_ (by simp [taken]) (.call (.callWith (.cons .same .nil) (.base (un_fill taken_u))))
        (.expr (.base .same) .nil) .nil) .nil))
  intro n hn
  simp only [Plain.Vars.names, List.mem_cons, List.not_mem_nil, or_false] at hn
  rcases hn with rfl | rfl <;> simp [taken]

theorem inner_along : Plain.FilledAlong data taken (Plain.ofStmts inner.source inner.body) (Plain.ofStmts innerFilled.source innerFilled.body) := by
  rw [inner_tree, innerFilled_tree]
  exact .char (.expr (.base .same) (.expr (.base (k_fill taken_k)) (.char .nil)))

theorem includable {a : AC.Auto} {T U : Tree} {d : Value} {t : Template} (h : Includable ((pair a T U d).cfg asciiEnv stringSink) t) : t = code U := by
  have h : ∃ n, BMap.get [(['b'], code U)] n = some t := h
  obtain ⟨n, hn⟩ := h
  by_cases e : n = ['b']
  · subst e
    exact (Option.some.inj hn).symm
  · rw [show BMap.get [(['b'], code U)] n = none by simp [BMap.get, Ne.symm e]] at hn
    cases hn

theorem no_include (e : Upon.Expr) (sp : Span) (n : AstString) : ¬ ContainsAny [.inlineExpr e sp] n none := by
  intro h
  cases h with
  | head h => cases h
  | tail h => cases h

theorem open_tame : Tame open_.body := by unfold open_; simp [Tame, TameStmt, no_include]
theorem filled_tame : Tame filled.body := by unfold filled; simp [Tame, TameStmt, no_include]

theorem filled_in (a : AC.Auto) : FilledIn data asciiEnv (fun _ => inner) (code open_) (code filled) open_ filled (pair a open_ inner data) :=
  ⟨.inl rfl, fun t ht => includable ht ▸ parsed (by simp), fun t ht => by unfold inner; simp [Tame, TameStmt],
    ⟨parsed (by simp), parsed (by simp), open_tame, filled_tame, tree_filled⟩⟩

theorem rewritten_pair {E : List Plain.Stmt → List Plain.Stmt → Prop} (a : AC.Auto) {T T' U U' : Tree} (d : Value)
    (h : Related E asciiEnv (code T) T (code T') T') (h' : Related E asciiEnv (code U) U (code U') U') :
    Rewritten E asciiEnv (fun _ => U) (fun _ => U') T T' (pair a T U d) (pair a T' U' d) := by
  refine ⟨rfl, rfl, rfl, rfl, rfl, h, ?_⟩
  intro n
  show RelatedEntry _ asciiEnv (fun _ => U) (fun _ => U') (BMap.get [(['b'], code U)] n) (BMap.get [(['b'], code U')] n)
  by_cases hn : n = ['b']
  · subst hn
    exact .found h'
  · have e : ∀ t : Template, BMap.get [(['b'], t)] n = none := fun t => by simp [BMap.get, Ne.symm hn]
    rw [e, e]
    exact .missing

theorem everywhere (a : AC.Auto) : Rewritten (Plain.FilledAlong data taken) asciiEnv (fun _ => inner) (fun _ => innerFilled) open_ filled
    (pair a open_ inner data) (pair a filled innerFilled data) :=
  rewritten_pair a data ⟨parsed (by simp), parsed (by simp), open_tame, filled_tame, tree_along⟩
    ⟨parsed (by simp), parsed (by simp), by unfold inner; simp [Tame, TameStmt], by unfold innerFilled; simp [Tame, TameStmt], inner_along⟩

/-- `86[15]7[25]4` -/
def text : Str := "86[15]7[25]4".toList

theorem run_open : Upon.run ⟨asciiEnv, fmtDefault asciiEnv, [("add".toList, .filter add)], [(['b'], code inner)], none, 64, stringSink⟩ 200
    (initVM (code open_) none (.scope (.borrowed data)) []) = some (.ok ⟨text, []⟩) := by decide +kernel
theorem run_filled : Upon.run ⟨asciiEnv, fmtDefault asciiEnv, [("add".toList, .filter add)], [(['b'], code innerFilled)], none, 64, stringSink⟩ 200
    (initVM (code filled) none (.scope (.borrowed data)) []) = some (.ok ⟨text, []⟩) := by decide +kernel

/-- Both render `86[15]7[25]4`. -/
example (a : AC.Auto) : (pair a open_ inner data).ToString asciiEnv (.ok text) ∧ (pair a filled innerFilled data).ToString asciiEnv (.ok text) := by
  refine ⟨.ok _ ⟨text, []⟩ rfl ⟨200, ?_⟩, .ok _ ⟨text, []⟩ rfl ⟨200, ?_⟩⟩
  · show Upon.run ⟨asciiEnv, fmtDefault asciiEnv, [("add".toList, .filter add)], [(['b'], code inner)], none, 64, stringSink⟩ 200
      (initVM (code open_) none (.scope (.borrowed data)) []) = some (.ok ⟨text, []⟩)
    exact run_open
  · show Upon.run ⟨asciiEnv, fmtDefault asciiEnv, [("add".toList, .filter add)], [(['b'], code innerFilled)], none, 64, stringSink⟩ 200
      (initVM (code filled) none (.scope (.borrowed data)) []) = some (.ok ⟨text, []⟩)
    exact run_filled

theorem literal_fails : (match Upon.run ⟨asciiEnv, fmtDefault asciiEnv, Simplify.functions, [], none, 64, stringSink⟩ 80
      (initVM (code literal) none (.scope (.borrowed Simplify.five)) []) with
      | some (.err _ _) => true
      | _ => false) = true := by decide +kernel

theorem literal_err (a : AC.Auto) : ∃ err, (Simplify.renderer a literal Simplify.five).ToString asciiEnv (.err err) := by
  have h := literal_fails
  split at h
  · rename_i err w he
    exact ⟨err, .err _ err w rfl ⟨80, he⟩⟩
  · cases h

theorem five_is : GoesTo Simplify.five [⟨.direct, .key ['k']⟩] (.integer 5) := .key rfl .here

end Fill
end Upon.Demo

namespace Upon
open Spec Demo Plain

/-- **C79** A variable that gets another name with `with` cannot always be replaced by its value: the filters that take an argument by reference do not accept the name
then. `{% with k as y %}{{ 1 | fst: y }}{% endwith %}` gives `1`; with `5` for `k` it is an error. -/
theorem C79_false_with (a : AC.Auto) : ∃ (T T' : Tree) (r r' : Renderer) (g : Value) (m : Str) (b : List Plain.Stmt) (err : Err),
    r.engine = r'.engine ∧ r.globals = .borrowed g ∧ r'.globals = .borrowed g ∧ Parsed asciiEnv r.template T ∧ Parsed asciiEnv r'.template T' ∧
    ofStmts T.source T.body = [.with_ (.base (.var ['k'] ⟨.direct, .key ['k']⟩ [])) m b] ∧ ofStmts T'.source T'.body = [.with_ (.base (.lit (.integer 5))) m b] ∧
    GoesTo g [⟨.direct, .key ['k']⟩] (.integer 5) ∧ r.ToString asciiEnv (.ok ['1']) ∧ r'.ToString asciiEnv (.err err) := by
  obtain ⟨err, he⟩ := Demo.Fill.literal_err a
  refine ⟨Simplify.without, Demo.Fill.literal, Simplify.renderer a Simplify.without Simplify.five, Simplify.renderer a Demo.Fill.literal Simplify.five, Simplify.five, ['y'],
    Simplify.body, err, ?_, Simplify.globals_of .., Simplify.globals_of .., ?_, ?_, Simplify.without_tree, Demo.Fill.literal_tree, Demo.Fill.five_is, Simplify.without_ok a, he⟩
  · rw [Simplify.engine_of, Simplify.engine_of]
  · rw [Simplify.template_of]; exact Simplify.parsed (by simp)
  · rw [Simplify.template_of]; exact Demo.Fill.parsed (by simp)

end Upon
