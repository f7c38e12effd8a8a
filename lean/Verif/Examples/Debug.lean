import Verif.Props.Debug
import Verif.Examples.Whole
/-
Concrete cases for C74 and C75.
-/
namespace Upon.Demo.Dbg
open Spec

/-- Printable ASCII. -/
def ascii (c : Char) : Bool := decide (32 ≤ c.toNat) && decide (c.toNat < 127)

/-- A way to show floats: their bits as a number, and one text for all that are no numbers. -/
def bits (f : BitVec 64) : Str := if f64IsNan f then ['N', 'a', 'N'] else showInt (f.toNat : Nat)

theorem bits_shows : ShowsFloats bits where
  apart f g h := by
    unfold bits at h
    have hm : ∀ n : Nat, ['N', 'a', 'N'] ≠ showInt (n : Int) := by
      intro n e
      rw [showInt_ofNat] at e
      exact absurd ((numeral_toDigits n).digits 'N' (by rw [← e]; simp)) (by decide)
    cases hf : f64IsNan f <;> cases hg : f64IsNan g <;> simp only [hf, hg, if_true, if_false, Bool.false_eq_true] at h
    · have := C32_integer_inj h
      exact .inl (BitVec.eq_of_toNat_eq (by omega))
    · exact absurd h.symm (hm _)
    · exact absurd h (hm _)
    · exact .inr ⟨Upon.Dbg.nan_iff.mp hf, Upon.Dbg.nan_iff.mp hg⟩
  nan f g hf hg := by
    unfold bits
    rw [if_pos (Upon.Dbg.nan_iff.mpr hf), if_pos (Upon.Dbg.nan_iff.mpr hg)]
  closed f := by
    unfold bits
    split
    · decide
    · exact Upon.Dbg.int_closed _

/-- `[true, "a\"b\n"]`. -/
def sample : Value := .list [.bool true, .string ['a', '"', 'b', '\n']]

example : sample.debug ascii bits = "List([Bool(true), String(\"a\\\"b\\n\")])".toList := by decide +kernel
example : (Value.map [(['k'], .integer (-3)), (['l'], .none)]).debug ascii bits = "Map({\"k\": Integer(-3), \"l\": None})".toList := by decide +kernel
example : debugStr ascii ['é'] = "\"\\u{e9}\"".toList := by decide +kernel

/-- The two floats that are no numbers look alike, and no other value looks like them. -/
example : (Value.float 0x7ff8000000000000#64).debug ascii bits = (Value.float 0xfff8000000000001#64).debug ascii bits :=
  (C74_value bits_shows _ _).mpr (.nan (Upon.Dbg.nan_iff.mp (by decide)) (Upon.Dbg.nan_iff.mp (by decide)))

/-- The engine of the other examples. -/
example (a : AC.Auto) : (engine a 64).debug ascii =
    "Engine { searcher: .., default_formatter: .., functions: {\"add\": Filter}, templates: {\"b\": <compiled>, \"d\": <compiled>, \"f\": <compiled>, \"h\": <compiled>}, max_include_depth: 64 }".toList := by
  have : (engine a 64).debug ascii = (engine [] 64).debug ascii := rfl
  rw [this]
  decide +kernel

/-- The searcher and the default formatter are not shown. -/
example (a a' : AC.Auto) (f : Formatter) : (engine a 64).debug ascii = { engine a' 64 with defaultFormatter := f }.debug ascii := (C74_engine _ _).mpr rfl
example (a : AC.Auto) : (engine a 64).debug ascii ≠ (engine a 65).debug ascii := by
  intro h
  have h1 := (C74_engine _ _).mp h
  have h2 : 64 = 65 := congrArg (fun z => z.2.2) h1
  omega

/-- I/O errors that show a number and a bracket. -/
theorem readable : Readable (fun n => showInt (n : Nat) ++ [')']) := by
  intro m n x y h
  simp only [List.append_assoc, List.cons_append, List.nil_append] at h
  obtain ⟨h1, h2⟩ := Upon.Dbg.up_to (Upon.Dbg.int_closed _) (Upon.Dbg.int_closed _) h
  have := C32_integer_inj h1
  exact ⟨by omega, h2⟩

example : ∃ fields : Err → Str, fields (Err.maxIncludeDepth 3) ≠ fields (Err.maxIncludeDepth 4) := by
  obtain ⟨fields, _, h⟩ := C74_error (printable := ascii) asciiEnv readable
  refine ⟨fields, fun e => ?_⟩
  exact absurd (h _ _ e) (by decide +kernel)

/-- A value that is not equal to itself. -/
example : (Value.list [.float 0x7ff8000000000000#64]).eq (.list [.float 0x7ff8000000000000#64]) = false := by decide

example : sample.eq sample = true := (C75_reflexive sample).mpr (by
  intro f h
  cases h with
  | item hm hp =>
    simp only [List.mem_cons, List.not_mem_nil, or_false] at hm
    rcases hm with rfl | rfl <;> cases hp)

example : sample = sample := C75_identical (v := sample) (w := sample) (by decide) (by
  intro f h
  cases h with
  | item hm hp =>
    simp only [List.mem_cons, List.not_mem_nil, or_false] at hm
    rcases hm with rfl | rfl <;> cases hp)

/-- Zero and minus zero, as Rust shows them. -/
def zeroEnv : Env := { asciiEnv with showF64 := fun f => if f = 0 then [['0']] else [['-'], ['0']] }

def zeroEngine (a : AC.Auto) : Engine := ⟨a, fmtDefault zeroEnv, [], [], 64⟩

def zeroRun (v : Value) : Option (RunRes Str) :=
  Upon.run ⟨zeroEnv, fmtDefault zeroEnv, [], [], none, 64, stringSink⟩ 20 (initVM (code d) none (.scope (.borrowed v)) [])

theorem zero_run : zeroRun (globals [("a", .float 0#64)]) = some (.ok ⟨['0'], []⟩) := by decide +kernel
theorem minus_run : zeroRun (globals [("a", .float 0x8000000000000000#64)]) = some (.ok ⟨['-', '0'], []⟩) := by decide +kernel

end Upon.Demo.Dbg

namespace Upon

open Spec Demo Demo.Dbg in
/-- **C75** Equal values need not give the same text: zero and minus zero are equal. -/
theorem C75_false_zero (a : AC.Auto) : ∃ v w : Value, v.eq w = true ∧
    (Renderer.new (zeroEngine a) (code d) none (.borrowed v)).ToString zeroEnv (.ok ['0']) ∧
    (Renderer.new (zeroEngine a) (code d) none (.borrowed w)).ToString zeroEnv (.ok ['-', '0']) :=
  ⟨globals [("a", .float 0#64)], globals [("a", .float 0x8000000000000000#64)], by decide +kernel,
    .ok (.scope (.borrowed (globals [("a", .float 0#64)]))) ⟨['0'], []⟩ rfl ⟨20, zero_run⟩,
    .ok (.scope (.borrowed (globals [("a", .float 0x8000000000000000#64)]))) ⟨['-', '0'], []⟩ rfl ⟨20, minus_run⟩⟩

end Upon
