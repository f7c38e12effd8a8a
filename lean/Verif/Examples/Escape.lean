import Verif.Props.Escape
import Verif.Examples.Print
/-
Concrete cases that meet the hypotheses of the theorems of Props/Escape.
-/
namespace Upon.Demo
open Spec

namespace Write

/-- A text with delimiters, quotes and a backslash. -/
def text : Str := "{{ a }} \"{% \\ {#".toList

theorem engine_of {b : SyntaxBuilder} (hb : Built b) : ∃ e, Engine.withSyntax asciiEnv b.build = some e ∧ e.defaultFormatter = fmtDefault asciiEnv := by
  obtain ⟨a, ha, _⟩ := C02_total hb
  exact ⟨_, by rw [Engine.withSyntax, ha]; rfl, rfl⟩

theorem anywhere {e : Engine} (h : e.defaultFormatter = fmtDefault asciiEnv) (only : Prop) (t : Template) (v : Value) :
    Anywhere asciiEnv only t (Renderer.new e t none (.borrowed v)) := ⟨rfl, rfl, ⟨_, rfl⟩, .inl h⟩

/-- What is written in the default syntax. -/
example : "{{ ".toList ++ quoted text ++ " }}".toList = "{{ \"{{ a }} \\\"{% \\\\ {#\" }}".toList := by decide +kernel

/-- It renders to the text. -/
example (v : Value) : ∃ e t, e.compile asciiEnv "{{ \"{{ a }} \\\"{% \\\\ {#\" }}".toList = .ok t ∧
    (Renderer.new e t none (.borrowed v)).ToString asciiEnv (.ok text) := by
  obtain ⟨e, he, hf⟩ := engine_of default_built
  obtain ⟨t, h1, h2⟩ := C84_default ascii_names he text
  refine ⟨e, t, ?_, (h2 _ (anywhere hf _ t v) _).mpr rfl⟩
  rw [← h1]
  exact congrArg _ (by decide +kernel)

/-- With comments, in another syntax. -/
example (v : Value) : ∃ e t, e.compile asciiEnv "< <*- *>( ) <*- *>>".toList = .ok t ∧
    (Renderer.new e t none (.borrowed v)).ToString asciiEnv (.ok "<( )>".toList) := by
  obtain ⟨e, he, hf⟩ := engine_of round_built
  obtain ⟨t, h1, h2⟩ := C84_commented round_built he round_standard ⟨_, rfl⟩ (by decide) "<( )>".toList
  refine ⟨e, t, ?_, (h2 _ (anywhere hf _ t v) _).mpr rfl⟩
  rw [← h1]
  exact congrArg _ (by decide +kernel)

/-- As a literal, in another syntax. -/
example (v : Value) : ∃ e t, e.compile asciiEnv "<( \"<( )>\" )>".toList = .ok t ∧
    (Renderer.new e t none (.borrowed v)).ToString asciiEnv (.ok "<( )>".toList) := by
  obtain ⟨e, he, hf⟩ := engine_of round_built
  obtain ⟨t, h1, h2⟩ := C84_literal round_built he round_standard "<( )>".toList rfl
  refine ⟨e, t, ?_, (h2 _ (anywhere hf _ t v) _).mpr rfl⟩
  rw [← h1]
  exact congrArg _ (by decide +kernel)

/-- Text and literals. -/
def pieces : List Passage := [.asIs "use ".toList, .literal "{{".toList, .asIs " and }".toList, .literal "}".toList]

example (v : Value) : ∃ e t, e.compile asciiEnv "use {{ \"{{\" }} and }{{ \"}\" }}".toList = .ok t ∧
    (Renderer.new e t none (.borrowed v)).ToString asciiEnv (.ok "use {{ and }}".toList) := by
  obtain ⟨e, he, hf⟩ := engine_of default_built
  obtain ⟨t, h1, h2⟩ := C84_passages default_built he (C53_default ascii_names) (ps := pieces) (clean_ok (by decide +kernel))
  refine ⟨e, t, ?_, (h2 _ (anywhere hf _ t v) _).mpr (by decide +kernel)⟩
  rw [← h1]
  exact congrArg _ (by decide +kernel)

end Write
end Upon.Demo
