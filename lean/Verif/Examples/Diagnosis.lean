import Verif.Examples.Escaping
import Verif.Props.Diagnosis
import Verif.Proofs.Demo
import Verif.Spec.Chars
/-
Texts that do not compile, with the errors they give: the hypotheses of C51 hold of them.
-/
namespace Upon.Demo
open Spec

/-- A source, the message of its error, and the line, column and width it points at. -/
structure Wrong where
  source : String
  message : String
  line : Nat
  column : Nat
  width : Nat

/-- The text does not compile, and that is the error. -/
def Wrong.holds (a : AC.Auto) (w : Wrong) : Bool :=
  match Parser.parseTemplate ⟨asciiEnv, a, w.source.toList⟩ with
  | .err ⟨.syntax, none, some m, some p⟩ => m == w.message && p.ln == w.line && p.col == w.column && p.width == w.width
  | _ => false

/-- One or more for each case of `Diagnosis`, in its order. -/
def wrongs : List Wrong :=
  [⟨"a\n{{ a.b c }}", "expected end expression, found identifier", 1, 7, 1⟩,
   ⟨"{% for in xs %}", "expected identifier, found keyword", 0, 7, 2⟩,
   ⟨"{{ a | f: }}", "expected expression, found end expression", 0, 10, 2⟩,
   ⟨"{{ if }}", "unexpected keyword `if`", 0, 3, 2⟩,
   ⟨"{% with a in %}", "expected keyword `as`, found keyword `in`", 0, 10, 2⟩,
   ⟨"{{ 0b12 }}", "invalid digit for base 2 literal", 0, 6, 1⟩,
   ⟨"{{ -0b12 }}", "invalid digit for base 2 literal", 0, 6, 1⟩,
   ⟨"{{ 0xffff_ffff_ffff_ffff }}", "base 16 literal out of range for 64-bit integer", 0, 3, 21⟩,
   ⟨"{{ \"a\\n\\q\" }}", "unknown escape character", 0, 8, 1⟩,
   ⟨"{{ a |", "expected identifier, found EOF", 0, 6, 1⟩,
   ⟨"{##}", "expected raw template, found end comment", 0, 2, 2⟩,
   ⟨"{# a", "expected end comment, found EOF", 0, 4, 1⟩,
   ⟨"{% for a in b %}{% else %}", "unexpected `else` block", 0, 16, 10⟩,
   ⟨"{% endwith %}", "unexpected `endwith` block", 0, 0, 13⟩,
   ⟨"{% if a %}{% endif %}{% if b %}{% for a in b %}{% endfor %}{% else %}", "unclosed `if` block", 0, 21, 10⟩,
   ⟨"{{ a {{", "unclosed begin expression", 0, 0, 2⟩,
   ⟨"{{ 'a", "unexpected character", 0, 3, 1⟩,
   ⟨"{{ \"a", "undelimited string", 0, 3, 2⟩]

set_option maxRecDepth 100000 in
theorem wrongs_hold : (AC.new Syn.default).map (fun a => wrongs.all (Wrong.holds a)) = some true := by decide +kernel

/-- All the sources meet the hypotheses of `C51_diagnosis`. -/
example : ∃ a, ∀ w ∈ wrongs, Setup defaultBuilder ⟨asciiEnv, a, w.source.toList⟩ ∧ Tidy defaultBuilder.build w.source.toList ∧
    ∃ e, compileSource ⟨asciiEnv, a, w.source.toList⟩ = .err e ∧ e.reason = some w.message ∧
      ∃ p, e.pretty = some p ∧ p.ln = w.line ∧ p.col = w.column ∧ p.width = w.width := by
  obtain ⟨a, ha, _⟩ := C02_total default_built
  refine ⟨a, fun w hw => ⟨⟨default_built, ha⟩, default_tidy _, ?_⟩⟩
  have hc := wrongs_hold
  rw [show AC.new Syn.default = some a from ha] at hc
  have hk := List.all_eq_true.mp (Option.some.inj hc) _ hw
  unfold Wrong.holds at hk
  split at hk
  · rename_i m p he
    simp only [Bool.and_eq_true, beq_iff_eq] at hk
    exact ⟨_, by rw [compileSource_eq, he]; rfl, by rw [hk.1.1.1], p, rfl, hk.1.1.2, hk.1.2, hk.2⟩
  · cases hk

end Upon.Demo

namespace Upon
open Spec Demo

set_option maxRecDepth 100000 in
/-- **C51** is false if "points at the malformed digit" is meant also of numbers with a sign: in `{{ -0b12 }}` the error is
that a digit is invalid, and it points at the `1`. -/
theorem C51_false_signed : ∃ a e p, Setup defaultBuilder ⟨asciiEnv, a, "{{ -0b12 }}".toList⟩ ∧
    compileSource ⟨asciiEnv, a, "{{ -0b12 }}".toList⟩ = .err e ∧ e.reason = some "invalid digit for base 2 literal" ∧
    e.pretty = some p ∧ p.text[p.col]? = some '1' ∧ p.width = 1 := by
  obtain ⟨a, ha, _⟩ := C02_total default_built
  have hc : (AC.new Syn.default).map (fun a => match Parser.parseTemplate ⟨asciiEnv, a, "{{ -0b12 }}".toList⟩ with
      | .err e => decide (e.reason = some "invalid digit for base 2 literal") && match e.pretty with
        | some p => decide (p.text[p.col]? = some '1') && decide (p.width = 1)
        | none => false
      | _ => false) = some true := by decide +kernel
  rw [show AC.new Syn.default = some a from ha] at hc
  have hk := Option.some.inj hc
  simp only at hk
  split at hk
  · rename_i e he
    rw [Bool.and_eq_true] at hk
    obtain ⟨k1, k2⟩ := hk
    split at k2
    · rename_i p hp
      simp only [Bool.and_eq_true, decide_eq_true_eq] at k1 k2
      exact ⟨a, e, p, ⟨default_built, ha⟩, by rw [compileSource_eq, he]; rfl, k1, hp, k2.1, k2.2⟩
    · cases k2
  · cases hk

end Upon
