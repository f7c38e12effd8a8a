import Verif.Props.Simplify
import Verif.Examples.Words
/-
A concrete case that meets the hypotheses of the theorems of Props/Simplify.
-/
namespace Upon.Demo.Simplify
open Spec Plain

/-- A pipeline, a filter that changes nothing, a call on a literal and the default formatter by name. -/
def long : Tree := ⟨"{{ k | inc | inc }}{% if k | id %}{{ 1 | inc }}{% endif %}{{ k | plain }}".toList,
  [.inlineExpr (.call ⟨⟨13, 16⟩⟩ none (.call ⟨⟨7, 10⟩⟩ none (.base (.var (name 3 4))) ⟨3, 10⟩) ⟨3, 16⟩) ⟨0, 19⟩,
   .ifElse false (.call ⟨⟨29, 31⟩⟩ none (.base (.var (name 25 26))) ⟨25, 31⟩)
     [.inlineExpr (.call ⟨⟨41, 44⟩⟩ none (.base (.lit ⟨.integer 1, ⟨37, 38⟩⟩)) ⟨37, 44⟩) ⟨34, 47⟩] none,
   .inlineExpr (.call ⟨⟨65, 70⟩⟩ none (.base (.var (name 61 62))) ⟨61, 70⟩) ⟨58, 73⟩]⟩
/-- The same, shorter. -/
def short : Tree := ⟨"{{ k | twice }}{% if k %}2{% endif %}{{ k }}".toList,
  [.inlineExpr (.call ⟨⟨7, 12⟩⟩ none (.base (.var (name 3 4))) ⟨3, 12⟩) ⟨0, 15⟩,
   .ifElse false (.base (.var (name 21 22))) [.raw ⟨25, 26⟩] none,
   .inlineExpr (.base (.var (name 40 41))) ⟨37, 44⟩]⟩

/-- A filter that changes nothing, before a value gets a name. -/
def before : Tree := ⟨"{% with k | id as y %}{{ 1 | fst: y }}{% endwith %}".toList,
  [.with_ (.call ⟨⟨12, 14⟩⟩ none (.base (.var (name 8 9))) ⟨8, 14⟩) ⟨⟨18, 19⟩⟩
    [.inlineExpr (.call ⟨⟨29, 32⟩⟩ (some ⟨[.var (name 34 35)], ⟨32, 35⟩⟩) (.base (.lit ⟨.integer 1, ⟨25, 26⟩⟩)) ⟨25, 35⟩) ⟨22, 38⟩]]⟩
/-- The same without it. -/
def without : Tree := ⟨"{% with k as y %}{{ 1 | fst: y }}{% endwith %}".toList,
  [.with_ (.base (.var (name 8 9))) ⟨⟨13, 14⟩⟩
    [.inlineExpr (.call ⟨⟨24, 27⟩⟩ (some ⟨[.var (name 29 30)], ⟨27, 30⟩⟩) (.base (.lit ⟨.integer 1, ⟨20, 21⟩⟩)) ⟨20, 30⟩) ⟨17, 33⟩]]⟩

set_option maxRecDepth 100000 in
theorem checked : (AC.new Syn.default).map (fun a => [long, short, before, without].all fun T =>
    decide (Parser.parseTemplate ⟨asciiEnv, a, T.source⟩ = .ok T.body)) = some true := by decide +kernel

theorem parsed {T : Tree} (hT : T ∈ [long, short, before, without]) : Parsed asciiEnv (code T) T := by
  obtain ⟨a, ha⟩ := default_setup asciiEnv T.source
  have hk := checked
  rw [show AC.new Syn.default = some a from ha.searcher] at hk
  have hk := List.all_eq_true.mp (Option.some.inj hk) T hT
  have hp := of_decide_eq_true hk
  have hc : compileSource ⟨asciiEnv, a, T.source⟩ = .ok (code T) := by
    rw [compileSource, hp, Res.ok_bind, Compiler.compileTemplate_eq]; rfl
  obtain ⟨ts, h1, h2⟩ := (parseTemplate_iff (good ha (default_tidy _)) T.body).mp hp
  have hcl : Closed ts := by
    simpa using gstmts_closed h2 (rest := []) (by intro xs t ys e; simp at e)
  exact ⟨defaultBuilder, a, ts, ha, default_tidy _, hc, (C06_layout ha (default_tidy _) ts).mp ⟨h1, hcl⟩, h2⟩

/-- One more, but never more than the largest `i64`. -/
def next (i : Int) : Int := if i < 9223372036854775807 then i + 1 else i
def inc : Filter := ⟨.int .i64, [], fun
  | .int i, _ => .ok (.integer (next i))
  | _, _ => .error "no"⟩
def twice : Filter := ⟨.int .i64, [], fun
  | .int i, _ => .ok (.integer (next (next i)))
  | _, _ => .error "no"⟩
def id_ : Filter := ⟨.value, [], fun
  | .value v, _ => .ok v
  | _, _ => .error "no"⟩

/-- It takes its argument by reference. -/
def fst : Filter := ⟨.value, [.valueRef], fun
  | .value v, _ => .ok v
  | _, _ => .error "no"⟩

def functions : List (Str × EngFn) := [("fst".toList, .filter fst), ("id".toList, .filter id_), ("inc".toList, .filter inc), ("plain".toList, .formatter (fmtDefault asciiEnv)),
  ("twice".toList, .filter twice)]

def renderer (a : AC.Auto) (T : Tree) (v : Value) : Renderer := .new ⟨a, fmtDefault asciiEnv, functions, [], 64⟩ (code T) none (.borrowed v)

/-- A variable that is one name. -/
def k : Plain.Expr := .base (.var ['k'] ⟨.direct, .key ['k']⟩ [])

theorem long_tree : ofStmts long.source long.body = [.expr (.call "inc".toList none (.call "inc".toList none k)),
    .ifElse false (.call "id".toList none k) [.expr (.call "inc".toList none (.base (.lit (.integer 1))))] none,
    .expr (.call "plain".toList none k)] := by rfl
theorem short_tree : ofStmts short.source short.body = [.expr (.call "twice".toList none k), .ifElse false k [.char '2'] none, .expr k] := by rfl

theorem has_inc : IsFilter functions "inc".toList inc := rfl
theorem has_twice : IsFilter functions "twice".toList twice := rfl
theorem has_id : IsFilter functions "id".toList id_ := rfl

theorem fused (a : ArgVal) (xs : List ArgVal) (h : Takes asciiEnv (.int .i64) a) : ofCall (twice.call a xs) = match inc.call a xs with
    | .ok r => answers asciiEnv inc [] r
    | .error msg => .failed msg := by
  obtain ⟨v, hv⟩ := h
  cases v <;> simp only [accepts] at hv <;> try cases hv
  rename_i i
  split at hv
  · rename_i hf
    cases hv
    have hf : -9223372036854775808 ≤ i ∧ i < 9223372036854775808 := by simpa [Fits] using hf
    have h2 : Fits asciiEnv .i64 (next i) := by
      simp only [Fits, next]
      split <;> omega
    show Said.value (.integer (next (next i))) = answers asciiEnv inc [] (.integer (next i))
    simp only [answers, inc, List.length_nil, offer, accepts, if_pos h2, given, ne_eq, not_true_eq_false, if_false, ByRef, false_and]
  · cases hv

theorem unchanged (v : Value) : answers asciiEnv id_ [] v = .value v := by
  cases v <;> rfl

theorem simplified : Simplified asciiEnv functions (fmtDefault asciiEnv) (ofStmts long.source long.body) (ofStmts short.source short.body) := by
  rw [long_tree, short_tree]
  refine .append (a := [_]) (a' := [_]) (.expr ?_) (.append (a := [_]) (a' := [_]) ?_ ?_)
  · exact Equal.fuse (bs := []) has_inc has_inc has_twice rfl rfl fun a xs ha _ => fused a xs ha
  · refine .trans (.asked (as := []) has_id fun v => ⟨v, unchanged v, rfl⟩) (.then_ (.trans (.expr (.precompute (as := []) (r := .integer 2) has_inc ?_)) (.text (s := ['2']) ?_)))
    · rfl
    · rfl
  · exact .formatter rfl trivial

theorem no_template (n : Str) (a : AC.Auto) (T : Tree) (v : Value) : (renderer a T v).engine.getTemplate n = none := rfl

theorem meets (a a' : AC.Auto) (v : Value) : Rewritten (Simplified asciiEnv functions (fmtDefault asciiEnv)) asciiEnv (fun _ => long) (fun _ => short)
    long short (renderer a long v) (renderer a' short v) := by
  refine ⟨rfl, rfl, rfl, rfl, rfl, ⟨parsed (by simp), parsed (by simp), ?_, ?_, simplified⟩, fun n => ?_⟩
  · unfold long; simp [Tame, TameStmt]
  · unfold short; simp [Tame, TameStmt]
  · rw [no_template, no_template]; exact .missing

/-- The hypotheses of `C72_to_string` hold, and both renders give `725`. -/
example (a a' : AC.Auto) : Rewritten (Simplified asciiEnv functions (fmtDefault asciiEnv)) asciiEnv (fun _ => long) (fun _ => short) long short
      (renderer a long (globals [("k", .integer 5)])) (renderer a' short (globals [("k", .integer 5)])) ∧
    (renderer a long (globals [("k", .integer 5)])).ToString asciiEnv (.ok "725".toList) ∧
    (renderer a' short (globals [("k", .integer 5)])).ToString asciiEnv (.ok "725".toList) := by
  refine ⟨meets a a' _, .ok _ ⟨"725".toList, []⟩ rfl ⟨60, ?_⟩, .ok _ ⟨"725".toList, []⟩ rfl ⟨60, ?_⟩⟩
  · show Upon.run ⟨asciiEnv, fmtDefault asciiEnv, functions, [], none, 64, stringSink⟩ 60
      (initVM (code long) none (.scope (.borrowed (globals [("k", .integer 5)]))) []) = _
    decide +kernel
  · show Upon.run ⟨asciiEnv, fmtDefault asciiEnv, functions, [], none, 64, stringSink⟩ 60
      (initVM (code short) none (.scope (.borrowed (globals [("k", .integer 5)]))) []) = _
    decide +kernel

/-- The body of both. -/
def body : List Plain.Stmt := [.expr (.call "fst".toList (some [.var ['y'] ⟨.direct, .key ['y']⟩ []]) (.base (.lit (.integer 1))))]

theorem before_tree : ofStmts before.source before.body = [.with_ (.call "id".toList none k) ['y'] body] := by rfl
theorem without_tree : ofStmts without.source without.body = [.with_ k ['y'] body] := by rfl

def five : Value := globals [("k", .integer 5)]

theorem before_fails : (match Upon.run ⟨asciiEnv, fmtDefault asciiEnv, functions, [], none, 64, stringSink⟩ 80
      (initVM (code before) none (.scope (.borrowed five)) []) with
      | some (.err _ _) => true
      | _ => false) = true := by decide +kernel

theorem before_err (a : AC.Auto) : ∃ err, (renderer a before five).ToString asciiEnv (.err err) := by
  have h := before_fails
  split at h
  · rename_i err w he
    exact ⟨err, .err _ err w rfl ⟨80, he⟩⟩
  · cases h

theorem without_ok (a : AC.Auto) : (renderer a without five).ToString asciiEnv (.ok ['1']) := by
  refine .ok _ ⟨['1'], []⟩ rfl ⟨80, ?_⟩
  show Upon.run ⟨asciiEnv, fmtDefault asciiEnv, functions, [], none, 64, stringSink⟩ 80 (initVM (code without) none (.scope (.borrowed five)) []) = _
  decide +kernel

theorem engine_of (a : AC.Auto) (T : Tree) (v : Value) : (renderer a T v).engine = ⟨a, fmtDefault asciiEnv, functions, [], 64⟩ := rfl
theorem globals_of (a : AC.Auto) (T : Tree) (v : Value) : (renderer a T v).globals = .borrowed v := rfl
theorem template_of (a : AC.Auto) (T : Tree) (v : Value) : (renderer a T v).template = code T := rfl

end Upon.Demo.Simplify

namespace Upon
open Spec Demo Plain

/-- **C72** A filter that changes nothing cannot be left out where its result is given a name: it makes a copy, and the filters that take an
argument by reference do not accept the copy. `{% with k | id as y %}{{ 1 | fst: y }}{% endwith %}` is an error; without `| id` it gives `1`. -/
theorem C72_false_copy (a : AC.Auto) : ∃ (T T' : Tree) (r r' : Renderer) (n : Str) (f : Filter) (e : Plain.Expr) (m : Str) (b : List Plain.Stmt) (err : Err),
    r.engine = r'.engine ∧ r.globals = r'.globals ∧ Parsed asciiEnv r.template T ∧ Parsed asciiEnv r'.template T' ∧
    ofStmts T.source T.body = [.with_ (.call n none e) m b] ∧ ofStmts T'.source T'.body = [.with_ e m b] ∧
    IsFilter r.engine.functions n f ∧ (∀ v, answers asciiEnv f [] v = .value v) ∧
    r.ToString asciiEnv (.err err) ∧ r'.ToString asciiEnv (.ok ['1']) := by
  obtain ⟨err, he⟩ := Simplify.before_err a
  refine ⟨Simplify.before, Simplify.without, Simplify.renderer a Simplify.before Simplify.five,
    Simplify.renderer a Simplify.without Simplify.five, "id".toList, Simplify.id_, Simplify.k, ['y'], Simplify.body, err, ?_, ?_, ?_, ?_,
    Simplify.before_tree, Simplify.without_tree, ?_, Simplify.unchanged, he, Simplify.without_ok a⟩
  · rw [Simplify.engine_of, Simplify.engine_of]
  · rw [Simplify.globals_of, Simplify.globals_of]
  · rw [Simplify.template_of]; exact Simplify.parsed (by simp)
  · rw [Simplify.template_of]; exact Simplify.parsed (by simp)
  · rw [Simplify.engine_of]; exact Simplify.has_id

end Upon
