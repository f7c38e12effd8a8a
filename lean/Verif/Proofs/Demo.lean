import Verif.Props.Render
import Verif.Props.LexExamples
import Verif.Proofs.DecEq
/-
A few concrete templates, compiled by the model, for the examples and counterexamples.
-/
namespace Upon
deriving instance DecidableEq for World
deriving instance DecidableEq for RunRes
namespace Demo
open Spec

/-- A variable that is one name. -/
def name (a b : Nat) : Var := ⟨⟨.direct, .key ⟨⟨a, b⟩⟩, ⟨a, b⟩⟩, []⟩
/-- `x.n` or `x?.n`. -/
def path (op : AccessOp) (a b c d : Nat) : Var := ⟨⟨.direct, .key ⟨⟨a, b⟩⟩, ⟨a, b⟩⟩, [⟨op, .key ⟨⟨c, d⟩⟩, ⟨b, d⟩⟩]⟩

/-- A loop, a filter and an include. -/
def main : Tree := ⟨"{% for x in xs %}{{ x.n | add: 1 }},{% endfor %}{% include \"b\" %}".toList,
  [.forLoop (.item ⟨⟨7, 8⟩⟩) (.base (.var (name 12 14)))
    [.inlineExpr (.call ⟨⟨26, 29⟩⟩ (some ⟨[.lit ⟨.integer 1, ⟨31, 32⟩⟩], ⟨29, 32⟩⟩)
        (.base (.var (path .direct 20 21 22 23))) ⟨20, 32⟩) ⟨17, 35⟩,
      .raw ⟨35, 36⟩],
    .include_ ⟨['b'], ⟨59, 62⟩⟩ none]⟩
/-- The template it includes. -/
def b : Tree := ⟨"[{{ a?.k }}]".toList, [.raw ⟨0, 1⟩, .inlineExpr (.base (.var (path .optional 4 5 7 8))) ⟨1, 11⟩, .raw ⟨11, 12⟩]⟩
/-- A plain include inside `with`. -/
def c : Tree := ⟨"{% with a as longname %}{% include \"d\" %}{% endwith %}".toList,
  [.with_ (.base (.var (name 8 9))) ⟨⟨13, 21⟩⟩ [.include_ ⟨['d'], ⟨35, 38⟩⟩ none]]⟩
/-- A template too short to contain the name. -/
def d : Tree := ⟨"{{ a }}".toList, [.inlineExpr (.base (.var (name 3 4))) ⟨0, 7⟩]⟩
/-- Another plain include inside `with`. -/
def e : Tree := ⟨"{% with a as b %}{% include \"f\" %}{% endwith %}".toList,
  [.with_ (.base (.var (name 8 9))) ⟨⟨13, 14⟩⟩ [.include_ ⟨['f'], ⟨28, 31⟩⟩ none]]⟩
/-- A template that has another name at the position of the name. -/
def f : Tree := ⟨"          {{ z }}".toList, [.raw ⟨0, 10⟩, .inlineExpr (.base (.var (name 13 14))) ⟨10, 17⟩]⟩
/-- An optional access to a loop variable. -/
def g : Tree := ⟨"{% for u in us %}{{ u?.m }}{% endfor %}".toList,
  [.forLoop (.item ⟨⟨7, 8⟩⟩) (.base (.var (name 12 14)))
    [.inlineExpr (.base (.var (path .optional 20 21 23 24))) ⟨17, 27⟩]]⟩
/-- An include of itself. -/
def h : Tree := ⟨"x{% include \"h\" %}".toList, [.raw ⟨0, 1⟩, .include_ ⟨['h'], ⟨12, 15⟩⟩ none]⟩
/-- An include with a value. -/
def i : Tree := ⟨"{% include \"b\" with a %}".toList,
  [.include_ ⟨['b'], ⟨11, 14⟩⟩ (some (.base (.var (name 20 21))))]⟩
/-- A loop over a map, a condition and a pipeline. -/
def j : Tree := ⟨"{% for k, v in m %}{% if loop.first %}{{ v | add: 1 | add: v }}{% else %}{{ k }}{% endif %}{% endfor %}".toList,
  [.forLoop (.keyValue ⟨⟨7, 8⟩⟩ ⟨⟨10, 11⟩⟩ ⟨7, 11⟩) (.base (.var (name 15 16)))
    [.ifElse false (.base (.var (path .direct 25 29 30 35)))
      [.inlineExpr (.call ⟨⟨54, 57⟩⟩ (some ⟨[.var (name 59 60)], ⟨57, 60⟩⟩)
        (.call ⟨⟨45, 48⟩⟩ (some ⟨[.lit ⟨.integer 1, ⟨50, 51⟩⟩], ⟨48, 51⟩⟩) (.base (.var (name 41 42))) ⟨41, 51⟩) ⟨41, 60⟩) ⟨38, 63⟩]
      (some [.inlineExpr (.base (.var (name 76 77))) ⟨73, 80⟩])]]⟩

def all : List Tree := [main, b, c, d, e, f, g, h, i, j]

/-- The code of a tree. -/
def code (T : Tree) : Template := ⟨T.source, Compiler.codeStmts 0 T.body⟩

set_option maxRecDepth 100000 in
theorem parse_all : (AC.new Syn.default).map (fun a => all.all fun T =>
    decide (Parser.parseTemplate ⟨asciiEnv, a, T.source⟩ = .ok T.body)) = some true := by decide +kernel

theorem parsed {T : Tree} (hT : T ∈ all) : Parsed asciiEnv (code T) T := by
  obtain ⟨a, ha⟩ := default_setup asciiEnv T.source
  have hk := parse_all
  rw [show AC.new Syn.default = some a from ha.searcher] at hk
  have hk := List.all_eq_true.mp (Option.some.inj hk) T hT
  have hp := of_decide_eq_true hk
  have hc : compileSource ⟨asciiEnv, a, T.source⟩ = .ok (code T) := by
    rw [compileSource, hp, Res.ok_bind, Compiler.compileTemplate_eq]; rfl
  obtain ⟨ts, h1, h2⟩ := (parseTemplate_iff (good ha (default_tidy _)) T.body).mp hp
  have hcl : Closed ts := by
    simpa using gstmts_closed h2 (rest := []) (by intro xs t ys e; simp at e)
  exact ⟨defaultBuilder, a, ts, ha, default_tidy _, hc, (C06_layout ha (default_tidy _) ts).mp ⟨h1, hcl⟩, h2⟩

/-- A filter of one argument. -/
def add : Filter := ⟨.int .i64, [.int .i64], fun
  | .int a, [.int b] => .ok (.integer (a + b))
  | _, _ => .error "no"⟩

/-- Compiled by the default engine. -/
theorem compiled {T : Tree} (hT : T ∈ all) : Compiled asciiEnv (code T) := by
  obtain ⟨b, a, ts, s, hw, hc, _⟩ := parsed hT
  exact ⟨b, a, T.source, s, hw, hc⟩

/-- An engine with these templates and the filter `add`. -/
def engine (a : AC.Auto) (dp : Nat) : Engine := ⟨a, fmtDefault asciiEnv, [("add".toList, .filter add)],
  [(['b'], code b), (['d'], code d), (['f'], code f), (['h'], code h)], dp⟩

/-- A renderer in that engine. -/
def renderer (a : AC.Auto) (dp : Nat) (T : Tree) (n : Option Str) (v : Value) : Renderer := .new (engine a dp) (code T) n (.borrowed v)

theorem healthy (a : AC.Auto) (dp : Nat) {T : Tree} (hT : T ∈ all) (n : Option Str) (v : Value) : Healthy asciiEnv (renderer a dp T n v) := by
  refine ⟨compiled hT, ?_⟩
  intro m t hm
  have hm : (m, t) ∈ [(['b'], code b), (['d'], code d), (['f'], code f), (['h'], code h)] := get_some_mem hm
  simp only [List.mem_cons, Prod.mk.injEq, List.not_mem_nil, or_false] at hm
  rcases hm with ⟨_, rfl⟩ | ⟨_, rfl⟩ | ⟨_, rfl⟩ | ⟨_, rfl⟩ <;> exact compiled (by simp [all])

/-- What a render of a tree gives after at most `n` steps. -/
def run (dp : Nat) (T : Tree) (nm : Option Str) (v : Value) (n : Nat) : Option (RunRes Str) :=
  Upon.run ⟨asciiEnv, fmtDefault asciiEnv, [("add".toList, .filter add)],
    [(['b'], code b), (['d'], code d), (['f'], code f), (['h'], code h)], none, dp, stringSink⟩ n
    (initVM (code T) nm (.scope (.borrowed v)) [])

theorem halts {a : AC.Auto} {dp : Nat} {T : Tree} {nm : Option Str} {v : Value} {n : Nat} {res : RunRes Str}
    (h : run dp T nm v n = some res) :
    Halts ((renderer a dp T nm v).cfg asciiEnv stringSink) (initVM (renderer a dp T nm v).template (renderer a dp T nm v).name
      (.scope (.borrowed v)) []) res := ⟨n, h⟩

/-- A map of globals. -/
def globals (l : List (String × Value)) : Value := .map (l.map fun p => (p.1.toList, p.2))

example : run 64 main none (globals [("a", globals [("k", .bool true)]), ("xs", .list [globals [("n", .integer 1)], globals [("n", .integer 41)]])]) 50 =
    some (.ok ⟨"2,42,[true]".toList, []⟩) := by decide +kernel

example : run 64 j none (globals [("m", globals [("p", .integer 3), ("q", .integer 4)])]) 50 = some (.ok ⟨"7q".toList, []⟩) := by decide +kernel

/-- The trees of the registered templates. -/
def tree (t : Template) : Tree := if t = code b then b else if t = code d then d else if t = code f then f else h

theorem includable {a : AC.Auto} {dp : Nat} {T : Tree} {nm : Option Str} {v : Value} {t : Template}
    (ht : Includable ((renderer a dp T nm v).cfg asciiEnv stringSink) t) :
    (t = code b ∧ tree t = b) ∨ (t = code d ∧ tree t = d) ∨ (t = code f ∧ tree t = f) ∨ (t = code h ∧ tree t = h) := by
  obtain ⟨m, hm⟩ := ht
  have hm : (m, t) ∈ [(['b'], code b), (['d'], code d), (['f'], code f), (['h'], code h)] := get_some_mem hm
  simp only [List.mem_cons, Prod.mk.injEq, List.not_mem_nil, or_false] at hm
  rcases hm with ⟨_, rfl⟩ | ⟨_, rfl⟩ | ⟨_, rfl⟩ | ⟨_, rfl⟩
  · exact .inl ⟨rfl, by decide⟩
  · exact .inr (.inl ⟨rfl, by decide⟩)
  · exact .inr (.inr (.inl ⟨rfl, by decide⟩))
  · exact .inr (.inr (.inr ⟨rfl, by decide⟩))

theorem tree_parsed {a : AC.Auto} {dp : Nat} {T : Tree} {nm : Option Str} {v : Value} (t : Template)
    (ht : Includable ((renderer a dp T nm v).cfg asciiEnv stringSink) t) : Parsed asciiEnv t (tree t) := by
  rcases includable ht with ⟨h1, h2⟩ | ⟨h1, h2⟩ | ⟨h1, h2⟩ | ⟨h1, h2⟩ <;> rw [h2, h1] <;> exact parsed (by simp [all])

end Demo
end Upon
