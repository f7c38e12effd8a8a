import Verif.Examples.Diagnosis
import Verif.Props.Features
import Verif.Proofs.Demo
/-
Concrete cases for C56.
-/
namespace Upon.Demo
open Spec

/-- Tables that take everything outside of ASCII for letters, two columns wide. -/
def wideEnv : Env :=
  { asciiEnv with xidStart := fun c => c.isAlpha || decide (128 ≤ c.toNat), xidContinue := fun c => c.isAlphanum || c == '_' || decide (128 ≤ c.toNat),
                  width := fun s => (s.map fun c => if 128 ≤ c.toNat then 2 else 1).sum }

theorem wide_names : AsciiNames wideEnv := by
  intro c h
  have : decide (128 ≤ c.toNat) = false := by simp; omega
  simp [wideEnv, this]

theorem wide_widths : AsciiWidths wideEnv := by
  intro s h
  change (s.map fun c => if 128 ≤ c.toNat then 2 else 1).sum = s.length
  induction s with
  | nil => rfl
  | cons c s ih =>
    have h1 : ¬ 128 ≤ c.toNat := by
      have : c.toNat ≤ '~'.toNat := (h c (by simp)).2
      have : '~'.toNat = 126 := rfl
      omega
    rw [List.map_cons, List.sum_cons, ih fun d hd => h d (by simp [hd]), if_neg h1, List.length_cons]
    omega

/-- Whether a text compiles with the given tables. -/
def accepts (env : Env) (a : AC.Auto) (s : String) : Bool :=
  match Parser.parseTemplate ⟨env, a, s.toList⟩ with
  | .ok _ => true
  | _ => false

/-- A text with letters outside of ASCII, none of them in a name. -/
def letters : String := "é{# é #}{{ x | f: \"é\" }}{% include \"é\" %}"

/-- The same with a name, and one where a name runs into another letter. -/
def named : List String := ["é{{ é }}", "{{ aé }}"]

set_option maxRecDepth 100000 in
theorem letters_hold : (AC.new Syn.default).map (fun a => accepts wideEnv.plain a letters &&
    named.all fun s => accepts wideEnv a s && !accepts wideEnv.plain a s) = some true := by decide +kernel

/-- The text compiles without the feature, and so it does with it. -/
example : ∃ (e : Engine) (t : Template), Engine.new wideEnv = some e ∧ e.compile wideEnv.plain letters.toList = .ok t ∧
    e.compile wideEnv letters.toList = .ok t := by
  obtain ⟨a, ha, _⟩ := C02_total default_built
  have ha' : AC.new Syn.default = some a := ha
  have hc := letters_hold
  rw [ha'] at hc
  have hk := (Bool.and_eq_true_iff.mp (Option.some.inj hc)).1
  unfold accepts at hk
  split at hk
  · rename_i ast h
    obtain ⟨t, ht⟩ : ∃ t, (⟨a, fmtDefault wideEnv, [], [], 64⟩ : Engine).compile wideEnv.plain letters.toList = .ok t := by
      rw [Engine.compile, compileSource, h, Res.ok_bind, Compiler.compileTemplate_eq]; exact ⟨_, rfl⟩
    refine ⟨⟨a, fmtDefault wideEnv, [], [], 64⟩, _, by rw [Engine.new, Engine.withSyntax, ha']; rfl, ht, ?_⟩
    refine C56_upgrade (b := defaultBuilder) ⟨default_built, ha⟩ (default_tidy _) ?_ wide_names ht
    have : ∀ p ∈ defaultBuilder.build, ∀ c ∈ p.2, c.toNat < 128 := by decide
    exact fun p hp c r e => this p hp c (by rw [e]; simp)
  · cases hk

/-- A syntax whose closing delimiter is a letter. -/
def letterSyntax : SyntaxBuilder := { SyntaxBuilder.new with expr := some ("{{".toList, "é".toList) }

set_option maxRecDepth 100000 in
theorem letter_holds : (AC.new letterSyntax.build).map (fun a => accepts wideEnv.plain a "{{aé" && !accepts wideEnv a "{{aé") = some true := by decide +kernel

/-- An error in printable ASCII. -/
example : AsciiLines "a\n{{ a.b c }}".toList ∧ AsciiNames wideEnv ∧ AsciiWidths wideEnv :=
  ⟨by unfold AsciiLines Printable; decide, wide_names, wide_widths⟩

end Upon.Demo

namespace Upon
open Spec Demo

/-- **C56** Names outside of ASCII need the feature. -/
theorem C56_names_need_unicode : ∃ (a : AC.Auto), AC.new Syn.default = some a ∧
    ∀ s ∈ named, accepts wideEnv a s = true ∧ accepts wideEnv.plain a s = false := by
  obtain ⟨a, ha, _⟩ := C02_total default_built
  have ha' : AC.new Syn.default = some a := ha
  have hc := letters_hold
  rw [ha'] at hc
  have hk := (Bool.and_eq_true_iff.mp (Option.some.inj hc)).2
  refine ⟨a, ha', fun s hs => ?_⟩
  have := List.all_eq_true.mp hk s hs
  simpa using this

/-- **C56** `C56_upgrade` needs its condition on the delimiters: with a letter for a closing delimiter, a name runs into it. -/
theorem C56_false_delimiters : ∃ a, Setup letterSyntax ⟨wideEnv, a, "{{aé".toList⟩ ∧ AsciiNames wideEnv ∧
    accepts wideEnv.plain a "{{aé" = true ∧ accepts wideEnv a "{{aé" = false := by
  have hb : Built letterSyntax := .expr (x := "{{".toList) (y := "é".toList) .new rfl
  obtain ⟨a, ha, _⟩ := C02_total hb
  have hc := letter_holds
  rw [ha] at hc
  have hk := Bool.and_eq_true_iff.mp (Option.some.inj hc)
  exact ⟨a, ⟨hb, ha⟩, wide_names, hk.1, by simpa using hk.2⟩

end Upon
