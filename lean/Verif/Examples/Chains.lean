import Verif.Props.Chains
import Verif.Examples.Whole
/-
Concrete cases for C73.
-/
namespace Upon.Demo.Chains
open Spec

/-- A template that includes itself reaches the limit of three includes, so there is a chain of three include tags. -/
theorem deep (a : AC.Auto) : (renderer a 3 Demo.h none people).ToString asciiEnv (.err (Err.maxIncludeDepth 3)) :=
  .err (.scope (.borrowed people)) _ _ rfl (halts h_run)

example (a : AC.Auto) : ∃ ns U, ChainTo ((renderer a 3 Demo.h none people).cfg asciiEnv stringSink) tree Demo.h ns U ∧ ns.length = max 1 3 :=
  C73_chain (r := renderer a 3 Demo.h none people) tree_parsed (parsed (by simp [all])) rfl (deep a)

theorem deep_writer (a : AC.Auto) : ∃ w, (renderer a 3 Demo.h none people).ToWriter asciiEnv vec [] (.err (Err.maxIncludeDepth 3)) w :=
  (C25_error asciiEnv _ vec_accepts _ _).mp (deep a)

example (a : AC.Auto) : ∃ ns U, ChainTo ((renderer a 3 Demo.h none people).cfg asciiEnv stringSink) tree Demo.h ns U ∧ ns.length = max 1 3 := by
  obtain ⟨w, hw⟩ := deep_writer a
  exact C73_chain_writer (r := renderer a 3 Demo.h none people) tree_parsed (parsed (by simp [all])) rfl hw

/-- With the limit above the number of registered templates, there is a circle. -/
theorem round_run : run 5 Demo.h none people 30 = some (.err (Err.maxIncludeDepth 5) ⟨"xxxxx".toList, []⟩) := by decide +kernel

example (a : AC.Auto) : ∃ n t ns, (engine a 5).getTemplate n = some t ∧ ns ≠ [] ∧
    ChainTo ((renderer a 5 Demo.h none people).cfg asciiEnv stringSink) tree (tree t) ns (tree t) :=
  C73_circle (r := renderer a 5 Demo.h none people) tree_parsed (parsed (by simp [all])) rfl rfl (by show 4 < 5; omega)
    (.err (.scope (.borrowed people)) _ _ rfl (halts round_run))

/-- A template with an include tag is one higher than those without. -/
def rank (T : Tree) : Nat := if T = main then 1 else 0

theorem find {a : AC.Auto} {dp : Nat} {T : Tree} {nm : Option Str} {v : Value} {n : Str} {t : Template}
    (h : MayFind ((renderer a dp T nm v).cfg asciiEnv stringSink) n t) (hn : n = ['b']) : t = code b := by
  subst hn
  have h : BMap.get [(['b'], code b), (['d'], code d), (['f'], code f), (['h'], code Demo.h)] ['b'] = some t := h
  exact (Option.some.inj h).symm

theorem main_includes {n : Str} (h : HasInclude main n) : n = ['b'] := by
  obtain ⟨x, hx, rfl⟩ := h
  have e : stmtsIncludes main.body = [⟨['b'], ⟨59, 62⟩⟩] := rfl
  rw [e] at hx
  rw [List.mem_singleton.mp hx]

theorem b_includes {n : Str} : ¬ HasInclude b n := by
  intro ⟨x, hx, _⟩
  have e : stmtsIncludes b.body = [] := rfl
  rw [e] at hx
  exact absurd hx List.not_mem_nil

theorem rank_main : rank main = 1 := rfl
theorem rank_b : rank b = 0 := by decide
theorem tree_b : tree (code b) = b := by decide

/-- From `main` the include tags lead to `b` and no further. -/
theorem reach {a : AC.Auto} {dp : Nat} {nm : Option Str} {v : Value} {ns : List Str} {U : Tree}
    (h : ChainTo ((renderer a dp main nm v).cfg asciiEnv stringSink) tree main ns U) : U = main ∨ U = b := by
  induction h with
  | here => exact .inl rfl
  | @on ns U n t _ h1 h2 ih =>
    rcases ih with rfl | rfl
    · have hn : n = ['b'] := main_includes h1
      rw [find h2 hn]
      exact .inr tree_b
    · exact absurd h1 b_includes

/-- So a limit of two is enough for `main`, whatever it is rendered with. -/
example (a : AC.Auto) (nm : Option Str) (v : Value) :
    ¬ (renderer a 2 main nm v).ToString asciiEnv (.err (Err.maxIncludeDepth 2)) := by
  cases hb : (renderer a 2 main nm v).base with
  | ok s =>
    refine C73_height (r := renderer a 2 main nm v) tree_parsed (parsed (by simp [all])) hb rank ?_ (by rw [rank_main]; show 1 < max 1 2; omega)
    intro U n t ⟨ns, hc⟩ h1 h2
    rcases reach hc with rfl | rfl
    · have hn : n = ['b'] := main_includes h1
      rw [find h2 hn, tree_b, rank_b, rank_main]
      omega
    · exact absurd h1 b_includes
  | err e => cases hb
  | crash => cases hb

end Upon.Demo.Chains
