import Verif.Props.FromFn
import Verif.Examples.Compose
/-
A concrete case that meets the hypotheses of the theorems of Props/FromFn.
-/
namespace Upon.Demo

/-- A template function that knows only `b`. -/
def onlyB : TemplateFn := fun _ n => if n = ['b'] then .ok (code qB) else .error "unknown template"

/-- It answers like the engine that has `qB` as `b`. -/
theorem onlyB_reads (asked : List Str) (n : Str) : onlyB asked n = match BMap.get [(['b'], code qB)] n with
    | some t => .ok t
    | none => .error "unknown template" := by
  unfold onlyB
  by_cases h : n = ['b']
  · subst h
    rw [if_pos rfl]
    rfl
  · rw [if_neg h, show BMap.get [(['b'], code qB)] n = none by simp [BMap.get, Ne.symm h]]

/-- The run of `qC` with the function. -/
theorem onlyB_run : Upon.run ⟨asciiEnv, fmtDefault asciiEnv, [("add".toList, .filter add)], [(['b'], code qB)], some onlyB, 64, stringSink⟩ 80
    (initVM (code qC) none (.scope (.borrowed parts)) []) = some (.ok ⟨"<1,2,>".toList, [['b'], ['b']]⟩) := by
  rfl

/-- `<{% for x in l %}{% include "b" %}{% endfor %}>` renders `<1,2,>` with the function, so also without it. -/
example (a : AC.Auto) : ((pair a qC qB parts).withTemplateFn onlyB).ToString asciiEnv (.ok "<1,2,>".toList) ∧
    (pair a qC qB parts).ToString asciiEnv (.ok "<1,2,>".toList) := by
  have h : ((pair a qC qB parts).withTemplateFn onlyB).ToString asciiEnv (.ok "<1,2,>".toList) := by
    refine .ok _ ⟨"<1,2,>".toList, [['b'], ['b']]⟩ rfl ⟨80, ?_⟩
    show Upon.run ⟨asciiEnv, fmtDefault asciiEnv, [("add".toList, .filter add)], [(['b'], code qB)], some onlyB, 64, stringSink⟩ 80
      (initVM (code qC) none (.scope (.borrowed parts)) []) = some (.ok ⟨"<1,2,>".toList, [['b'], ['b']]⟩)
    exact onlyB_run
  exact ⟨h, (C78_to_string rfl onlyB_reads _).mp h⟩

end Upon.Demo
