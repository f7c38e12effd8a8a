import Verif.Props.Globals
import Verif.Examples.Whole
/-
C48: concrete cases that meet the hypotheses, and the counterexample for arguments that are taken by reference.
-/
namespace Upon
namespace Demo
open Spec

theorem answers (v : Value) : AnswersFrom (Given.answering v) v := Given.answers v

theorem owned_args (a : AC.Auto) (T : Tree) (nm : Option Str) (v : Value) : OwnedArgs (renderer a 64 T nm v).engine := by
  intro n f hf t ht h
  have hf : (n, EngFn.filter f) ∈ [("add".toList, EngFn.filter add)] := get_some_mem hf
  simp only [List.mem_cons, Prod.mk.injEq, List.not_mem_nil, or_false] at hf
  obtain ⟨_, hf⟩ := hf
  cases hf
  simp only [add, List.mem_cons, List.not_mem_nil, or_false] at ht
  subst ht
  rcases h with h | h | h | h <;> cases h

/-- The template with a loop, a filter and an include, rendered with a function. -/
example (a : AC.Auto) : ({ renderer a 64 main none people with globals := .fn (Given.answering people) } : Renderer).ToString asciiEnv
    (.ok "2,42,[true]".toList) :=
  (C48_same_text (r := renderer a 64 main none people) (.inl rfl) (answers people) (owned_args a main none people)
    (parsed (by simp [all])) tree_parsed _).mpr (main_string a)

example (a : AC.Auto) : ({ renderer a 64 main none people with globals := .owned (.ok people) } : Renderer).ToString asciiEnv
    (.ok "2,42,[true]".toList) := (C48_data (renderer a 64 main none people) people _).mpr (main_string a)

set_option synthInstance.maxSize 2000 in
/-- To a disk with room for 6 bytes: the render fails at the same point with a function as with the value. -/
example (a : AC.Auto) : ∃ e, ({ renderer a 64 main none people with globals := .fn (Given.answering people) } : Renderer).ToWriter asciiEnv
    (recording (disk 6)) ([], []) (.err e)
    (utf8 "2,42,[".toList, [(utf8 "true".toList, some 28), (utf8 "[".toList, none), (utf8 ",".toList, none), (utf8 "42".toList, none),
      (utf8 ",".toList, none), (utf8 "2".toList, none)]) := by
  obtain ⟨res', h1, h2⟩ := C48_to_writer (r := renderer a 64 main none people) (.inl rfl) (answers people) (owned_args a main none people)
    (parsed (by simp [all])) tree_parsed (disk_run a)
  rcases h2 with ⟨h, _⟩ | ⟨h, _⟩ | ⟨e, e', _, rfl, _⟩
  · cases h
  · cases h
  · exact ⟨e', h1⟩

/-- A filter that takes its argument by reference. -/
def pick : Filter := ⟨.value, [.valueRef], fun
  | _, [.value b] => .ok b
  | _, _ => .error "no"⟩

/-- The renderer with that filter under the name `add`. -/
def picking (a : AC.Auto) (g : Globals) : Renderer :=
  .new { engine a 64 with functions := [("add".toList, .filter pick)] } (code j) none g

/-- The configuration of that renderer. -/
def pickCfg : RenderCfg Str := ⟨asciiEnv, fmtDefault asciiEnv, [("add".toList, .filter pick)],
    [(['b'], code b), (['d'], code d), (['f'], code f), (['h'], code h)], none, 64, stringSink⟩

def table : Value := globals [("m", globals [("p", .integer 3), ("q", .integer 4)])]

/-- `{{ v | add: 1 | add: v }}` shows `v` if the globals are a value… -/
theorem pick_value : ∃ s, Upon.run pickCfg 50 (initVM (code j) none (.scope (.borrowed table)) []) = some (.ok ⟨s, []⟩) :=
  ⟨"3q".toList, by decide +kernel⟩

def failed : Option (RunRes Str) → Bool
  | some (.err _ _) => true
  | _ => false

theorem pick_fn : failed (Upon.run pickCfg 50 (initVM (code j) none (.valueFn (Given.answering table)) [])) = true := by decide +kernel

end Demo
open Spec Demo

/-- **C48** If a filter takes an argument by reference, a template can be rendered with a value and not with a function that answers from it. -/
theorem C48_false_by_reference (a : AC.Auto) : ∃ (r : Renderer) (v : Value) (f : ValueFn), GivenAs r.globals v ∧ AnswersFrom f v ∧
    (∃ s, r.ToString asciiEnv (.ok s)) ∧ ∃ e, ({ r with globals := .fn f } : Renderer).ToString asciiEnv (.err e) := by
  refine ⟨picking a (.borrowed table), table, Given.answering table, .inl rfl, answers table, ?_, ?_⟩
  · obtain ⟨s, h⟩ := pick_value
    exact ⟨s, .ok (.scope (.borrowed table)) ⟨s, []⟩ rfl ⟨50, h⟩⟩
  · have h := pick_fn
    cases hr : Upon.run pickCfg 50 (initVM (code j) none (.valueFn (Given.answering table)) []) with
    | none => rw [hr] at h; cases h
    | some res =>
      rw [hr] at h
      cases res with
      | err e w => exact ⟨e, .err (.valueFn (Given.answering table)) e w rfl ⟨50, hr⟩⟩
      | ok w => cases h
      | crash => cases h

end Upon
