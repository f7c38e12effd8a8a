import Verif.Props.Interrupted
import Verif.Examples.Threads
/-
Concrete cases for C71.
-/
namespace Upon.Demo
open Spec

/-- The three renders of `crew`, each on a vector of its own; wherever the first is interrupted, its vector holds the beginning of the text. -/
example (a : AC.Auto) (schedule : List Nat) : ∃ p, p <+: "2,42,[true]".toList ∧
    writerOf ((toOwnWriters asciiEnv (crew a) (fun _ => vec) fun _ => []).run schedule) 0 = utf8 p := by
  obtain ⟨p, h1, h2⟩ := C71_text (rs := crew a) (k := 0) rfl (fun _ => vec) vec_accepts (fun _ => []) schedule (main_string a)
  exact ⟨p, h1, h2⟩

/-- After twelve turns only the first number is there. -/
example : writerOf (Threads.run ⟨fun _ => ([], none), [.running ⟨asciiEnv, fmtDefault asciiEnv, [("add".toList, .filter add)],
    [(['b'], code b), (['d'], code d), (['f'], code f), (['h'], code h)], none, 64, ownSink (fun _ => writerSink vec) 0⟩
    (initVM (code main) none (.scope (.borrowed people)) fun _ => ([], none))]⟩ (List.replicate 12 0)) 0 = utf8 "2,".toList := by
  decide +kernel

/-- The third, which fails, interrupted or not. -/
example (a : AC.Auto) (schedule : List Nat) {e : Err} {w : List UInt8} (h : (renderer a 3 Demo.h none people).ToWriter asciiEnv vec [] (.err e) w) :
    writerOf ((toOwnWriters asciiEnv (crew a) (fun _ => vec) fun _ => []).run schedule) 2 <+: w :=
  C71_prefix (rs := crew a) (k := 2) rfl (fun _ => vec) (log := id) vec_accepts (fun _ => []) schedule h (by simp)

/-- Two threads that share a vector, stopped before the second has written its last letter. -/
example : (Threads.run ⟨⟨[], [], fun _ => none⟩, [.running ⟨asciiEnv, fmtDefault asciiEnv, [], [], none, 64, sharedSink vec 0⟩ (initVM ⟨['x'], [.emitRaw ⟨0, 1⟩]⟩ none (.scope (.borrowed .none)) ⟨[], [], fun _ => none⟩),
    .running ⟨asciiEnv, fmtDefault asciiEnv, [], [], none, 64, sharedSink vec 1⟩ (initVM ⟨['b', 'y'], [.emitRaw ⟨0, 1⟩, .emitRaw ⟨1, 2⟩]⟩ none (.scope (.borrowed .none)) ⟨[], [], fun _ => none⟩)]⟩
    [1, 0]).out.writer = utf8 "bx".toList := by decide +kernel

end Upon.Demo
