import Verif.Props.Cost
import Verif.Props.Volume
import Verif.Examples.Whole
/-
Concrete cases for C60.
-/
namespace Upon.Demo
open Spec

theorem add_within {n : Nat} {a : AC.Auto} {dp : Nat} : FiltersKeep (Within n) (engine a dp).functions := by
  intro m f x xs v hf _ _ hv
  have hf : (m, EngFn.filter f) ∈ [("add".toList, EngFn.filter add)] := get_some_mem hf
  simp only [List.mem_cons, Prod.mk.injEq, List.not_mem_nil, or_false, EngFn.filter.injEq] at hf
  rw [hf.2] at hv
  simp only [add] at hv
  split at hv
  · cases hv; simp [Within]
  · cases hv

theorem people_loops (a : AC.Auto) : LoopsAtMost ((renderer a 2 main none people).cfg asciiEnv stringSink) (initVM (code main) none (.scope (.borrowed people)) []) 3 := by
  have hh := healthy a 2 (T := main) (by simp [all]) none people
  refine C60_loops (r := renderer a 2 main none people) (hh.all _) (compiled (by simp [all])) (by omega) ?_ add_within (b := .scope (.borrowed people)) rfl []
  show Within 3 people
  simp [people, globals, Within, WithinMap, WithinList]

/-- The template with a loop, a filter and an include, in an engine with the limit 2, takes at most 68644 steps with any data whose lists have at most three
elements. -/
example (a : AC.Auto) : ∃ res, Upon.run ((renderer a 2 main none people).cfg asciiEnv stringSink) 68644 (initVM (code main) none (.scope (.borrowed people)) []) = some res := by
  have h := C60_steps (r := renderer a 2 main none people) (T := main) (M := 65) (N := 1) (sink := stringSink) tree_parsed (parsed (by simp [all])) (by decide)
    (fun t ht => by rcases includable ht with ⟨_, h2⟩ | ⟨_, h2⟩ | ⟨_, h2⟩ | ⟨_, h2⟩ <;> rw [h2] <;> decide) (by decide)
    (fun t ht => by rcases includable ht with ⟨_, h2⟩ | ⟨_, h2⟩ | ⟨_, h2⟩ | ⟨_, h2⟩ <;> rw [h2] <;> decide) (people_loops a)
  rwa [show (65 * (3 + 1) ^ 1 + 2) ^ max 1 ((renderer a 2 main none people).cfg asciiEnv stringSink).maxIncludeDepth = 68644 from by
    show (65 * (3 + 1) ^ 1 + 2) ^ max 1 2 = 68644; decide] at h

/-- It takes 23 with this data. -/
example : (run 2 main none people 22).isNone ∧ (run 2 main none people 23).isSome := by decide +kernel

/-- `loop` is a map with three entries, so that a loop over it has three rounds even if all data is smaller. -/
example : items (loopMap 0 0) = 3 := by decide

/-! The output -/

/-- A template with a loop, in an engine without filters. -/
def bare (a : AC.Auto) (v : Value) : Renderer := { renderer a 2 g none v with engine := { engine a 2 with functions := [] } }

/-- Three items with a string. -/
def three (s : Str) : Value := globals [("us", .list [globals [("m", .string s)], globals [("m", .string s)], globals [("m", .string s)]])]

/-- No literals at all. -/
def noLits (T : Tree) : Bool := (stmtsExprs T.body).all fun e => (exprLits e).isEmpty

theorem lits_none {T : Tree} (h : noLits T = true) (P : Value → Prop) (v : Value) (hv : HasLit T v) : P v := by
  obtain ⟨e, he, hv⟩ := hv
  have := List.isEmpty_iff.mp (List.all_eq_true.mp h e he)
  rw [this] at hv
  cases hv

theorem bare_stocked (a : AC.Auto) {L : Nat} (hL : 5 ≤ L) {s : Str} (hs : blen s ≤ L) : Stocked asciiEnv tree g (bare a (three s)) (Sized asciiEnv 3 L) where
  data := by
    show Sized asciiEnv 3 L (three s)
    simp only [three, globals, Sized, SizedMap, SizedList, List.map, and_true, true_and, List.length_cons, List.length_nil]
    have h2 : blen "us".toList ≤ L := Nat.le_trans (by decide) hL
    have h1 : blen "m".toList ≤ L := Nat.le_trans (by decide) hL
    simp only [h1, h2, hs]
    decide
  lits := lits_none (by decide) _
  included t ht := by
    rcases includable (a := a) (dp := 2) (T := g) (nm := none) (v := three s) ht with ⟨_, h2⟩ | ⟨_, h2⟩ | ⟨_, h2⟩ | ⟨_, h2⟩ <;> rw [h2] <;>
      exact lits_none (by decide) _

/-- The text is bounded, whatever the string in the data is. -/
example (a : AC.Auto) (s o : Str) (hs : 5 ≤ blen s) (h : (bare a (three s)).ToString asciiEnv (.ok o)) :
    blen o ≤ (39 * (3 + 1) ^ 39 + 2) ^ max 1 2 * max 39 (blen s) :=
  C60_output_default (r := bare a (three s)) (T := g) (n := 3) (M := 39) (L := blen s) (by omega) hs
    (Nat.le_trans (by decide : 3 ≤ 10 ^ 5) (Nat.pow_le_pow_right (by omega) hs)) (bare_stocked a hs (Nat.le_refl _))
    (tree_parsed (a := a) (dp := 2) (T := g) (nm := none) (v := three s)) (parsed (by simp [all])) (fun _ _ _ _ _ h => by cases h) (by decide)
    (fun t ht => by
      rcases includable (a := a) (dp := 2) (T := g) (nm := none) (v := three s) ht with ⟨_, h2⟩ | ⟨_, h2⟩ | ⟨_, h2⟩ | ⟨_, h2⟩ <;> rw [h2] <;> decide) rfl
    (fun _ _ h => by cases h) h

/-- A writer that counts the bytes it is given, and fails when they are too many. -/
def counting (max : Nat) : IoWriter Nat := ⟨fun n bs => (n + bs.length, if n + bs.length ≤ max then none else some 0)⟩

/-- The same on that writer, also when it fails. -/
example (a : AC.Auto) (s : Str) (hs : 5 ≤ blen s) (max' : Nat) (res : Res Unit) (hc : res ≠ .crash) (n : Nat)
    (h : (bare a (three s)).ToWriter asciiEnv (counting max') 0 res n) : n ≤ 0 + (39 * (3 + 1) ^ 39 + 2) ^ max 1 2 * max 39 (blen s) :=
  C60_written (r := bare a (three s)) (T := g) (n := 3) (M := 39) (L := blen s) (P := Sized asciiEnv 3 (blen s)) (io := counting max') (μ := id)
    (fun _ _ => Nat.le_refl _) (Vals.sized_hereditary (by omega) hs (Nat.le_trans (by decide : 3 ≤ 10 ^ 5) (Nat.pow_le_pow_right (by omega) hs)))
    Vals.items_sized (bare_stocked a hs (Nat.le_refl _)) (tree_parsed (a := a) (dp := 2) (T := g) (nm := none) (v := three s)) (parsed (by simp [all])) (fun _ _ _ _ _ h => by cases h) (by decide)
    (fun t ht => by
      rcases includable (a := a) (dp := 2) (T := g) (nm := none) (v := three s) ht with ⟨_, h2⟩ | ⟨_, h2⟩ | ⟨_, h2⟩ | ⟨_, h2⟩ <;> rw [h2] <;> decide)
    ⟨fun v hv => Vals.default_atMost hs v hv, fun _ _ h => by cases h⟩ h hc

/-- It is rendered. -/
example (a : AC.Auto) : (bare a (three "abcde".toList)).ToString asciiEnv (.ok "abcdeabcdeabcde".toList) := by
  refine .ok _ ⟨"abcdeabcdeabcde".toList, []⟩ rfl ⟨40, ?_⟩
  show Upon.run ⟨asciiEnv, fmtDefault asciiEnv, [], [(['b'], code b), (['d'], code d), (['f'], code f), (['h'], code h)], none, 2, stringSink⟩ 40
    (initVM (code g) none (.scope (.borrowed (three "abcde".toList))) []) = _
  decide +kernel

end Upon.Demo
