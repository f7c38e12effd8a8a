import Verif.Props.Provenance
import Verif.Examples.Cost
import Verif.Examples.Escaping
import Verif.Examples.Related
/-
Concrete cases for C63.
-/
namespace Upon.Demo
open Spec

/-- A string that is not empty and in which there is nothing to escape. -/
def Harmless (s : Str) : Prop := s ≠ [] ∧ ∀ c ∈ s, entity c = none

instance (s : Str) : Decidable (Harmless s) := by unfold Harmless; infer_instance

mutual
/-- All strings and all keys in the value are harmless. -/
def HarmlessIn : Value → Prop
  | .string s => Harmless s
  | .list l => HarmlessList l
  | .map m => HarmlessMap m
  | _ => True
def HarmlessList : List Value → Prop
  | [] => True
  | v :: vs => HarmlessIn v ∧ HarmlessList vs
def HarmlessMap : List (Str × Value) → Prop
  | [] => True
  | (k, v) :: ps => Harmless k ∧ HarmlessIn v ∧ HarmlessMap ps
end

theorem harmlessList {l : List Value} (h : HarmlessList l) : ∀ v ∈ l, HarmlessIn v := by
  induction l with
  | nil => intro v hv; cases hv
  | cons x l ih =>
    rw [HarmlessList] at h
    intro v hv
    rcases List.mem_cons.mp hv with rfl | hv
    · exact h.1
    · exact ih h.2 v hv

theorem harmlessMap {m : List (Str × Value)} (h : HarmlessMap m) : ∀ p ∈ m, Harmless p.1 ∧ HarmlessIn p.2 := by
  induction m with
  | nil => intro v hv; cases hv
  | cons x m ih =>
    obtain ⟨k, x⟩ := x
    rw [HarmlessMap] at h
    intro v hv
    rcases List.mem_cons.mp hv with rfl | hv
    · exact ⟨h.1, h.2.1⟩
    · exact ih h.2.2 v hv

theorem harmless_hereditary : Hereditary HarmlessIn where
  item l h := harmlessList (by rwa [HarmlessIn] at h)
  entry m h p hp := (harmlessMap (by rwa [HarmlessIn] at h) p hp).2
  key m h p hp := by rw [HarmlessIn]; exact (harmlessMap (by rwa [HarmlessIn] at h) p hp).1
  loop _ i r _ _ := by
    rw [loopMap_eq]
    simp only [HarmlessIn, HarmlessMap, and_true, true_and]
    decide
  none := by simp [HarmlessIn]

theorem add_harmless {a : AC.Auto} {dp : Nat} : FiltersKeep HarmlessIn (engine a dp).functions := by
  intro m f x xs v hf _ _ hv
  have hf : (m, EngFn.filter f) ∈ [("add".toList, EngFn.filter add)] := get_some_mem hf
  simp only [List.mem_cons, Prod.mk.injEq, List.not_mem_nil, or_false, EngFn.filter.injEq] at hf
  rw [hf.2] at hv
  simp only [add] at hv
  split at hv
  · cases hv; simp [HarmlessIn]
  · cases hv

/-- A check that suffices. -/
def onlyInts (T : Tree) : Bool := (stmtsExprs T.body).all fun e => (exprLits e).all fun v => match v with | .integer _ => true | _ => false

theorem lits_harmless {T : Tree} (h : onlyInts T = true) (v : Value) (hv : HasLit T v) : HarmlessIn v := by
  obtain ⟨e, he, hv⟩ := hv
  have := List.all_eq_true.mp (List.all_eq_true.mp h e he) v hv
  cases v <;> first | (simp [HarmlessIn]; done) | cases this

theorem stocked {a : AC.Auto} {dp : Nat} {s : Str} (hs : Harmless s) : Stocked asciiEnv tree main (renderer a dp main none (tagged s)) HarmlessIn where
  data := by
    show HarmlessIn (tagged s)
    simp only [tagged, globals, HarmlessIn, HarmlessMap, HarmlessList, List.map, and_true, true_and]
    refine ⟨by decide, ⟨by decide, hs⟩, by decide, ?_⟩
    decide
  lits := lits_harmless (by decide)
  included t ht := by
    rcases includable ht with ⟨_, h2⟩ | ⟨_, h2⟩ | ⟨_, h2⟩ | ⟨_, h2⟩ <;> rw [h2] <;> exact lits_harmless (by decide)

theorem escapeFrom_none (last s : Str) (h : ∀ c ∈ s, entity c = none) : escapeFrom last s = escapeFrom (last ++ s) [] := by
  induction s generalizing last with
  | nil => rw [List.append_nil]
  | cons c s ih =>
    have e : escapeFrom last (c :: s) = escapeFrom (last ++ [c]) s := by rw [escapeFrom.eq_def]; simp only [h c (by simp)]
    rw [e, ih _ fun c hc => h c (by simp [hc])]
    simp

/-- What the formatters do with harmless values. -/
theorem shown_alike {v : Value} (h : HarmlessIn v) : fmtDefault asciiEnv v = escapeHtml asciiEnv v := by
  cases v with
  | string s =>
    rw [HarmlessIn] at h
    show FmtProg.writeAll [s] = escapeFrom [] s
    rw [escapeFrom_none [] s h.2, List.nil_append, escapeFrom, if_neg h.1]
    rfl
  | _ => rfl

theorem both_alike (a : AC.Auto) (dp : Nat) : AlikeOn HarmlessIn (engine a dp)
    { engine a dp with defaultFormatter := escapeHtml asciiEnv, functions := (engine a dp).functions } := by
  refine ⟨fun v hv => shown_alike hv, fun n => ?_⟩
  show FnAlikeOn _ (BMap.get (engine a dp).functions n) (BMap.get (engine a dp).functions n)
  cases hx : BMap.get (engine a dp).functions n with
  | none => exact .none
  | some g =>
    cases g with
    | formatter f => exact .formatter fun _ _ => rfl
    | filter f => exact .filter rfl rfl fun _ _ _ _ => rfl

/-- Whether an engine escapes or not makes no difference if there is nothing to escape in the data (and the literals in the templates are numbers). -/
example (a : AC.Auto) (s : Str) (hs : Harmless s) (res : Res Str) : (renderer a 64 main none (tagged s)).ToString asciiEnv res ↔
    ({ renderer a 64 main none (tagged s) with engine := { engine a 64 with defaultFormatter := escapeHtml asciiEnv, functions := (engine a 64).functions } } : Renderer).ToString asciiEnv res :=
  C63_to_string harmless_hereditary (stocked hs) tree_parsed (parsed (by simp [all])) add_harmless (both_alike a 64) res

example {ω : Type} (io : IoWriter ω) (w₀ w : ω) (a : AC.Auto) (s : Str) (hs : Harmless s) (res : Res Unit) :
    (renderer a 64 main none (tagged s)).ToWriter asciiEnv io w₀ res w ↔
    ({ renderer a 64 main none (tagged s) with engine := { engine a 64 with defaultFormatter := escapeHtml asciiEnv, functions := (engine a 64).functions } } : Renderer).ToWriter asciiEnv io w₀ res w :=
  C63_to_writer harmless_hereditary (stocked hs) tree_parsed (parsed (by simp [all])) add_harmless (both_alike a 64) io w₀ res w

/-- A check that suffices. -/
def textClean (T : Tree) : Bool := (stmtsRaws T.body).all fun sp => match sp.of T.source with | some s => decide (Clean s) | none => true

theorem text_clean {T : Tree} (h : textClean T = true) (s : Str) (hs : HasText T s) : Clean s := by
  obtain ⟨sp, hsp, hs⟩ := hs
  have h := List.all_eq_true.mp h sp hsp
  rw [hs] at h
  exact of_decide_eq_true h

theorem main_text {a : AC.Auto} {dp : Nat} {v : Value} (U : Tree) (h : Needs ((renderer a dp main none v).cfg asciiEnv stringSink) tree main U) :
    textClean U = true := by
  cases h with
  | self => decide +kernel
  | registered _ _ _ h =>
    rcases includable (a := a) (dp := dp) (T := main) (nm := none) (v := v) ⟨_, h⟩ with ⟨_, h2⟩ | ⟨_, h2⟩ | ⟨_, h2⟩ | ⟨_, h2⟩ <;> rw [h2] <;> decide +kernel
  | provided _ _ h1 => cases h1

/-- The default formatter, which is not safe in general, is if the data is. -/
example (a : AC.Auto) (s : Str) (hs : Harmless s) {o : Str} (ho : (renderer a 64 main none (tagged s)).ToString asciiEnv (.ok o)) : Clean o :=
  C63_output (Q := Clean) harmless_hereditary (stocked hs) tree_parsed (parsed (by simp [all])) add_harmless (fun U hU => text_clean (main_text U hU))
    (fun v hv => by show OnlyWrites Clean (fmtDefault asciiEnv v); rw [shown_alike hv]; exact escapeHtml_writes v)
    (fun _ _ n f _ hg => absurd hg (no_formatters a 64 n f)) (by intro c h; cases h) (fun _ _ => Clean.append) ho

/-- It is rendered. -/
example (a : AC.Auto) : (renderer a 64 main none (tagged ['A'])).ToString asciiEnv (.ok "2,42,[A]".toList) :=
  .ok (.scope (.borrowed _)) _ rfl (halts tagged_run)

/-- If there is something to escape, it does make a difference. -/
example : ((escapeHtml asciiEnv (.string ['<'])).run stringSink []).1 = "&lt;".toList ∧ ((fmtDefault asciiEnv (.string ['<'])).run stringSink []).1 = ['<'] := by
  decide +kernel

end Upon.Demo
