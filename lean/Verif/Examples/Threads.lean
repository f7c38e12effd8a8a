import Verif.Props.Threads
import Verif.Props.Ways
import Verif.Examples.Whole
/-
Concrete cases for C57.
-/
namespace Upon.Demo
open Spec

/-- Three renders with one engine: the template with a loop, a filter and an include, twice, and one that includes itself. -/
def crew (a : AC.Auto) : List Renderer := [renderer a 64 main none people, renderer a 64 main (some ['m']) people, renderer a 3 h none people]

/-- If the threads take turns often enough, in whatever order, the first two return the text and the third an error. -/
example (a : AC.Auto) : ∃ n, ∀ schedule : List Nat, (∀ k < 3, n ≤ schedule.count k) →
    returned ((inStrings asciiEnv (crew a)).run schedule) 0 = some (.ok "2,42,[true]".toList) ∧
    returned ((inStrings asciiEnv (crew a)).run schedule) 2 = some (.err (Err.maxIncludeDepth 3)) := by
  obtain ⟨n, hn⟩ := C57_progress (main_string a)
  obtain ⟨m, hm⟩ := C57_progress (r := renderer a 3 h none people) (env := asciiEnv) (res := .err (Err.maxIncludeDepth 3))
    (.err (.scope (.borrowed people)) _ _ rfl (halts h_run))
  refine ⟨n + m, fun s hs => ⟨hn (crew a) 0 s rfl ?_, hm (crew a) 2 s rfl ?_⟩⟩
  · have := hs 0 (by omega); omega
  · have := hs 2 (by omega); omega

/-- There are such schedules: round after round. -/
example (n : Nat) : ∃ schedule : List Nat, ∀ k < 3, n ≤ schedule.count k := by
  refine ⟨(List.replicate n [0, 1, 2]).flatten, fun k hk => ?_⟩
  induction n with
  | zero => simp
  | succ n ih =>
    rw [List.replicate_succ, List.flatten_cons, List.count_append]
    have : k = 0 ∨ k = 1 ∨ k = 2 := by omega
    rcases this with rfl | rfl | rfl <;> simp at ih ⊢ <;> omega

/-- A vector that the three share. -/
example (a : AC.Auto) (schedule : List Nat) (h : wroteShared ((toOneWriter asciiEnv (crew a) vec []).run schedule) 0 = some (.ok ())) :
    writtenBy 0 ((toOneWriter asciiEnv (crew a) vec []).run schedule).out.wrote = utf8 "2,42,[true]".toList := by
  rcases (C57_shared vec_accepts [] (rs := crew a) (k := 0) rfl schedule h).2 with ⟨_, s, h1, h2⟩ | ⟨e, h1, _⟩ | ⟨h1, _⟩
  · cases to_string_unique h1 (main_string a); exact h2
  · cases h1
  · cases h1

/-- The one that fails has by then written what it writes alone. -/
example (a : AC.Auto) (schedule : List Nat) (e : Err) (h : wroteShared ((toOneWriter asciiEnv (crew a) vec []).run schedule) 2 = some (.err e)) :
    (renderer a 3 Demo.h none people).ToWriter asciiEnv vec [] (.err e) (writtenBy 2 ((toOneWriter asciiEnv (crew a) vec []).run schedule).out.wrote) :=
  C57_shared_alone vec_accepts [] (rs := crew a) (k := 2) rfl schedule h

/-- Turns that are taken: thread 0 writes `x`, then thread 1 `b`. -/
def duet : Threads (Shared (List UInt8)) :=
  .run ⟨⟨[], [], fun _ => none⟩, [.running ⟨asciiEnv, fmtDefault asciiEnv, [], [], none, 64, sharedSink vec 0⟩ (initVM ⟨['x'], [.emitRaw ⟨0, 1⟩]⟩ none (.scope (.borrowed .none)) ⟨[], [], fun _ => none⟩),
    .running ⟨asciiEnv, fmtDefault asciiEnv, [], [], none, 64, sharedSink vec 1⟩ (initVM ⟨['b', 'y'], [.emitRaw ⟨0, 1⟩, .emitRaw ⟨1, 2⟩]⟩ none (.scope (.borrowed .none)) ⟨[], [], fun _ => none⟩)]⟩
    [1, 0, 1, 0, 1, 1, 0, 0]
example : duet.out.writer = utf8 "bxy".toList ∧ duet.out.wrote = [(1, utf8 ['b']), (0, utf8 ['x']), (1, utf8 ['y'])] := by decide +kernel
example : wroteShared duet 0 = some (.ok ()) ∧ wroteShared duet 1 = some (.ok ()) := ⟨by rfl, by rfl⟩

/-- Even the sign and the digits of two numbers may be mixed. -/
def mixed : Threads (Shared (List UInt8)) :=
  .run ⟨⟨[], [], fun _ => none⟩, [.running ⟨asciiEnv, fmtDefault asciiEnv, [], [], none, 64, sharedSink vec 0⟩ (initVM ⟨['x'], [.exprStartLit (.integer (-5)), .emit ⟨0, 1⟩]⟩ none (.scope (.borrowed .none)) ⟨[], [], fun _ => none⟩),
    .running ⟨asciiEnv, fmtDefault asciiEnv, [], [], none, 64, sharedSink vec 1⟩ (initVM ⟨['x'], [.exprStartLit (.integer (-7)), .emit ⟨0, 1⟩]⟩ none (.scope (.borrowed .none)) ⟨[], [], fun _ => none⟩)]⟩
    [0, 1, 0, 1, 0, 1, 0, 1, 0, 1, 0, 1, 0, 1]
example : mixed.out.writer = utf8 "--57".toList ∧ writtenBy 0 mixed.out.wrote = utf8 "-5".toList ∧ writtenBy 1 mixed.out.wrote = utf8 "-7".toList := by
  decide +kernel
example : wroteShared mixed 0 = some (.ok ()) ∧ wroteShared mixed 1 = some (.ok ()) := ⟨by rfl, by rfl⟩

end Upon.Demo
