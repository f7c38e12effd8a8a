import Verif.Props.Raise
import Verif.Examples.Related
/-
Concrete cases for C23 between two limits, and for C61 and C62 on writers.
-/
namespace Upon.Demo.Raise
open Spec

/-- A map in a map in a map. -/
def nested : Value := Demo.globals [("a", Demo.globals [("a", Demo.globals [])])]

theorem i_two : Demo.run 2 Demo.i none nested 50 = some (.ok ⟨"[]".toList, []⟩) := by decide +kernel

theorem i_one : Demo.run 1 Demo.i none nested 50 = some (.err (depthErr 1) ⟨[], []⟩) := by decide +kernel

theorem h_three : Demo.run 3 Demo.h none .none 50 = some (.err (depthErr 3) ⟨"xxx".toList, []⟩) := by decide +kernel

theorem two_string (a : AC.Auto) : ((renderer a 64 i none nested).withMaxIncludeDepth 2).ToString asciiEnv (.ok "[]".toList) :=
  Renderer.ToString.ok (r := (renderer a 64 i none nested).withMaxIncludeDepth 2) (.scope (.borrowed nested)) ⟨"[]".toList, []⟩ rfl ⟨50, show Demo.run 2 Demo.i none nested 50 = _ from i_two⟩

/-- One include fits in a limit of two, so it does in each higher limit … -/
example (a : AC.Auto) (d : Nat) (h : 2 ≤ d) : ((renderer a 64 i none nested).withMaxIncludeDepth d).ToString asciiEnv (.ok "[]".toList) :=
  C23_limits_ok h (two_string a)

/-- … while with a limit of one it is refused: the results are different. -/
example (a : AC.Auto) : ((renderer a 64 i none nested).withMaxIncludeDepth 1).ToString asciiEnv (.err (depthErr 1)) :=
  .err (.scope (.borrowed _)) _ _ rfl ⟨50, show Demo.run 1 Demo.i none nested 50 = _ from i_one⟩

/-- A template that includes itself is refused under every limit up to 3. -/
example (a : AC.Auto) (d : Nat) (h : d ≤ 3) : ((renderer a 64 Demo.h none .none).withMaxIncludeDepth d).ToString asciiEnv (.err (depthErr d)) :=
  C23_limits_refused (r := renderer a 64 Demo.h none .none) (b := .scope (.borrowed .none)) rfl h
    (.err (.scope (.borrowed .none)) _ ⟨"xxx".toList, []⟩ rfl ⟨50, show Demo.run 3 Demo.h none .none 50 = _ from h_three⟩)

/-- On a vector of bytes. -/
example (a : AC.Auto) (d : Nat) (h : 2 ≤ d) : ∃ w, ((renderer a 64 i none nested).withMaxIncludeDepth d).ToWriter asciiEnv vec [] (.ok ()) w ∧ w = utf8 "[]".toList := by
  obtain ⟨w, h1, h2⟩ := (C25_output asciiEnv _ vec_accepts [] _).mp (two_string a)
  exact ⟨w, C23_limits_to_writer h h1, h2⟩

/-- C61 on a vector of bytes: with any string in the place of `A`. -/
example (a : AC.Auto) (s : Str) (hs : s ≠ []) : ∃ w o, (renderer a 64 main none (tagged s)).ToWriter asciiEnv vec [] (.ok ()) w ∧ w = utf8 o ∧
    Pieces BothEmpty "2,42,[A]".toList o := by
  obtain ⟨w₁, h1, h2⟩ := (C25_output asciiEnv (renderer a 64 main none (tagged ['A'])) vec_accepts [] _).mp
    (.ok (.scope (.borrowed _)) _ rfl (halts tagged_run))
  obtain ⟨w', o, o', h3, h4, h5, h6⟩ := C61_to_writer (r := renderer a 64 main none (tagged ['A'])) (T := main) (S := BothEmpty) (P := BothEmpty)
    (fun _ => Iff.rfl) (fun _ _ => id) tree_parsed (parsed (by simp [all]))
    (add_follows (Rel.recoded_refl fun _ => Iff.rfl) a 64) ⟨Rel.default_recoded fun _ => Iff.rfl, fun n f hf => absurd hf (no_formatters a 64 n f)⟩
    (.borrowed (tagged_recoded (s := ['A']) (s' := s) (by simp [BothEmpty, hs]))) vec_accepts h1
  have : o = "2,42,[A]".toList := utf8_inj (List.append_cancel_left (h4.symm.trans h2))
  exact ⟨w', o', h3, h5, this ▸ h6⟩

/-- C62 on a vector of bytes: with entries added. -/
example (a : AC.Auto) : ∃ w, (renderer a 64 main none morePeople).ToWriter asciiEnv vec [] (.ok ()) w ∧ w = utf8 "2,42,[true]".toList := by
  obtain ⟨w₁, h1, h2⟩ := (C25_output asciiEnv (renderer a 64 main none people) vec_accepts [] _).mp (main_string a)
  obtain ⟨w', h3, h4⟩ := C62_to_writer (r := renderer a 64 main none people) (T := main) tree_parsed (parsed (by simp [all]))
    (unaware ⟨⟨trivial, trivial, trivial⟩, trivial, trivial⟩ (by decide)) (fun t ht => trees_unaware t ht)
    (add_follows Rel.extends_refl a 64) ⟨Rel.default_extends, fun n f hf => absurd hf (no_formatters a 64 n f)⟩ more_extends vec_accepts h1
  exact ⟨w', h3, h4.trans h2⟩

end Upon.Demo.Raise
