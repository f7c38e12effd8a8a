import Verif.Props.Richer
import Verif.Examples.Whole
/-
Concrete cases that meet the hypotheses of the theorems of Props/Richer.
-/
namespace Upon.Demo
open Spec

/-- A filter, a formatter and a template that the engine does not have, and a higher limit. -/
def additions : List Op := [.addFilter "plus".toList add, .setMaxIncludeDepth 100, .addTemplate ['z'] main.source, .addFormatter "shout".toList twice]

theorem additions_add (a : AC.Auto) (T : Tree) (v : Value) : OnlyAdds asciiEnv (renderer a 64 T none v).engine additions := by
  have hz : (after asciiEnv (renderer a 64 T none v).engine [.addTemplate ['z'] main.source, .addFormatter "shout".toList twice]).maxIncludeDepth = 64 := by
    simp only [after, Op.apply, Engine.addTemplate]; split <;> rfl
  have hf : (after asciiEnv (renderer a 64 T none v).engine [.addTemplate ['z'] main.source, .addFormatter "shout".toList twice]).functions =
      BMap.insert [("add".toList, .filter add)] "shout".toList (.formatter twice) := by
    simp only [after, Op.apply, Engine.addTemplate]; split <;> rfl
  refine ⟨⟨⟨⟨trivial, ?_⟩, ?_⟩, ?_⟩, ?_⟩
  · exact (by decide +kernel : BMap.get [("add".toList, EngFn.filter add)] "shout".toList = none)
  · exact (rfl : BMap.get [(['b'], code b), (['d'], code d), (['f'], code f), (['h'], code h)] ['z'] = none)
  · exact Nat.le_trans (Nat.le_of_eq hz) (by decide)
  · have : BMap.get (BMap.insert [("add".toList, EngFn.filter add)] "shout".toList (.formatter twice)) "plus".toList = none := by
      rw [get_insert, if_neg (by decide +kernel)]; decide +kernel
    rw [← hf] at this
    exact this

/-- `main` renders to the same text with them. -/
example (a : AC.Auto) :
    ({ renderer a 64 main none people with engine := after asciiEnv (engine a 64) additions } : Renderer).ToString asciiEnv (.ok "2,42,[true]".toList) :=
  C67_same_text (C67_history (additions_add a main people)) (main_string a)

/-- … and on every writer on which it succeeded, `disk 20` for one. -/
example (a : AC.Auto) {w : List UInt8} (h : (renderer a 64 main none people).ToWriter asciiEnv (disk 20) [] (.ok ()) w) :
    ({ renderer a 64 main none people with engine := after asciiEnv (engine a 64) additions } : Renderer).ToWriter asciiEnv (disk 20) [] (.ok ()) w :=
  C67_to_writer (C67_history (additions_add a main people)) h

/-- A render that fails for lack of depth. -/
theorem h_lacks (a : AC.Auto) : (renderer a 3 h none people).ToString asciiEnv (.err (Err.maxIncludeDepth 3)) ∧ Lacking (Err.maxIncludeDepth 3) :=
  ⟨.err (.scope (.borrowed people)) _ _ rfl (halts h_run), .limit⟩

/-- With a higher limit it fails with another error, after writing more. -/
theorem h_higher (a : AC.Auto) : Richer (renderer a 3 h none people) (renderer a 5 h none people) :=
  ⟨rfl, rfl, rfl, rfl, rfl, fun _ _ => id, fun _ _ _ => id, (by decide : 3 ≤ 5)⟩
theorem h_more : run 5 h none people 30 = some (.err (Err.maxIncludeDepth 5) ⟨"xxxxx".toList, []⟩) := by decide +kernel
example (a : AC.Auto) : (renderer a 5 h none people).ToString asciiEnv (.err (Err.maxIncludeDepth 5)) :=
  .err (.scope (.borrowed people)) _ _ rfl (halts h_more)
example (a : AC.Auto) {res res' : Res Unit} {w w' : List UInt8} (h1 : (renderer a 3 h none people).ToWriter asciiEnv vec [] res w)
    (h2 : (renderer a 5 h none people).ToWriter asciiEnv vec [] res' w') (hc : res ≠ .crash) (hc' : res' ≠ .crash) : w <+: w' :=
  C67_prefix (h_higher a) vec_accepts [] h1 h2 hc hc'

/-- Without the template `main` the renders that do not need it stay as they are. -/
example {e : Engine} (he : Fresh asciiEnv defaultBuilder e) (r : Renderer) (hr : r.engine = after asciiEnv e ops) {s : Str}
    (h1 : ({ r with engine := (r.engine.removeTemplate "main".toList).1 } : Renderer).ToString asciiEnv (.ok s)) : r.ToString asciiEnv (.ok s) :=
  C67_same_text (C67_removal he hr "main".toList).2 h1

end Upon.Demo
