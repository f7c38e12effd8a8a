import Verif.Props.Size
import Verif.Examples.Whole
/-
Concrete cases for C59.
-/
namespace Upon.Demo
open Spec

/-- The machine after a number of steps. -/
def afterSteps {σ : Type} (cfg : RenderCfg σ) : Nat → VM σ → Option (VM σ)
  | 0, vm => some vm
  | n + 1, vm => match Upon.step cfg vm with
    | .next vm' => afterSteps cfg n vm'
    | .halt _ => none

theorem afterSteps_reachable {σ : Type} {cfg : RenderCfg σ} : ∀ {n : Nat} {vm vm' : VM σ}, afterSteps cfg n vm = some vm' → Reachable cfg vm vm'
  | 0, vm, vm', h => by cases h; exact .refl
  | n + 1, vm, vm', h => by
    rw [afterSteps] at h
    cases hs : Upon.step cfg vm with
    | next v => rw [hs] at h; exact Reachable.head hs (afterSteps_reachable h)
    | halt r => rw [hs] at h; cases h

/-- The sizes of two templates: the one with a loop, a filter and an include has 9 instructions for 65 bytes, and its blocks are one deep. -/
example : (code main).instrs.length = 9 ∧ blen main.source = 65 ∧ nesting main.body = 1 := by decide +kernel
example : (code main).instrs.length ≤ blen (code main).source := C59_size (compiled (T := main) (by simp [all]))

/-- During a render of `i`, which includes `b` with a value, at most three scopes are open: neither template has blocks. -/
example (a : AC.Auto) {vm : VM Str} (h : Reachable ((renderer a 2 i none people).cfg asciiEnv stringSink) (initVM (code i) none (.scope (.borrowed people)) []) vm) :
    vm.stack.length ≤ 3 := by
  have h0 : ∀ t, Includable ((renderer a 2 i none people).cfg asciiEnv stringSink) t → nesting (tree t).body ≤ 0 := by
    intro t ht
    rcases includable ht with ⟨_, h2⟩ | ⟨_, h2⟩ | ⟨_, h2⟩ | ⟨_, h2⟩ <;> rw [h2] <;> decide
  have := C59_stack (r := renderer a 2 i none people) (T := i) tree_parsed (parsed (by simp [all])) (N := 0) (by decide) h0 h
  have h2 : vm.frames.length ≤ 2 := this.2
  omega

/-- And three are: the bound is reached. -/
example (a : AC.Auto) : ∃ vm : VM Str, Reachable ((renderer a 2 i none people).cfg asciiEnv stringSink) (initVM (code i) none (.scope (.borrowed people)) []) vm ∧
    vm.stack.length = 3 ∧ vm.frames.length = 2 := by
  have h : (afterSteps ⟨asciiEnv, fmtDefault asciiEnv, [("add".toList, .filter add)],
      [(['b'], code b), (['d'], code d), (['f'], code f), (['h'], code Demo.h)], none, 2, stringSink⟩ 2
      (initVM (code i) none (.scope (.borrowed people)) [])).map (fun vm => (vm.stack.length, vm.frames.length)) = some (3, 2) := by decide +kernel
  cases hv : afterSteps ⟨asciiEnv, fmtDefault asciiEnv, [("add".toList, .filter add)],
      [(['b'], code b), (['d'], code d), (['f'], code f), (['h'], code Demo.h)], none, 2, stringSink⟩ 2
      (initVM (code i) none (.scope (.borrowed people)) []) with
  | none => rw [hv] at h; cases h
  | some vm =>
    rw [hv] at h
    have h := Option.some.inj h
    exact ⟨vm, afterSteps_reachable hv, (Prod.mk.inj h).1, (Prod.mk.inj h).2⟩

/-- The template that includes itself, in an engine with the limit 3: never more than 61 scopes. -/
example (a : AC.Auto) {vm : VM Str} (h : Reachable ((renderer a 3 h none people).cfg asciiEnv stringSink) (initVM (code Demo.h) none (.scope (.borrowed people)) []) vm) :
    vm.stack.length ≤ 1 + 3 * 20 := by
  have hh := healthy a 3 (T := Demo.h) (by simp [all]) none people
  refine C59_bound (r := renderer a 3 Demo.h none people) (N := 18) (sink := stringSink) ?_ (compiled (by simp [all])) (show blen Demo.h.source ≤ 18 by decide) ?_ h
  · intro t ht
    rcases includable ht with ⟨h1, _⟩ | ⟨h1, _⟩ | ⟨h1, _⟩ | ⟨h1, _⟩ <;> rw [h1] <;> exact compiled (by simp [all])
  · intro t ht
    rcases includable ht with ⟨h1, _⟩ | ⟨h1, _⟩ | ⟨h1, _⟩ | ⟨h1, _⟩ <;> rw [h1] <;> decide

end Upon.Demo
