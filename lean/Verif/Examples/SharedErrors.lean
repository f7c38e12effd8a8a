import Verif.Props.SharedErrors
import Verif.Examples.Threads
/-
Two threads and a full disk.
-/
namespace Upon.Demo
open Spec

namespace Full

/-- Two renders, of `x` and of `b`. -/
def two (a : AC.Auto) : List Renderer :=
  [Renderer.new ⟨a, fmtDefault asciiEnv, [], [], 64⟩ ⟨['x'], [.emitRaw ⟨0, 1⟩]⟩ none (.borrowed .none),
    Renderer.new ⟨a, fmtDefault asciiEnv, [], [], 64⟩ ⟨['b'], [.emitRaw ⟨0, 1⟩]⟩ none (.borrowed .none)]

/-- A disk with room for one byte: the thread that comes first has it, and the other gets the error. -/
theorem second (a : AC.Auto) : wroteShared ((toOneWriter asciiEnv (two a) (disk 1) []).run [0, 1, 0, 1, 0, 1]) 0 = some (.ok ()) ∧
    wroteShared ((toOneWriter asciiEnv (two a) (disk 1) []).run [0, 1, 0, 1, 0, 1]) 1 = some (.err (Err.ofIo 28)) := ⟨by rfl, by rfl⟩
theorem first (a : AC.Auto) : wroteShared ((toOneWriter asciiEnv (two a) (disk 1) []).run [1, 0, 0, 1, 0, 1]) 0 = some (.err (Err.ofIo 28)) ∧
    wroteShared ((toOneWriter asciiEnv (two a) (disk 1) []).run [1, 0, 0, 1, 0, 1]) 1 = some (.ok ()) := ⟨by rfl, by rfl⟩

example (a : AC.Auto) : ((toOneWriter asciiEnv (two a) (disk 1) []).run [0, 1, 0, 1, 0, 1]).out.err 1 = some 28 ∧
    ((toOneWriter asciiEnv (two a) (disk 1) []).run [0, 1, 0, 1, 0, 1]).out.err 0 = none := ⟨by rfl, by rfl⟩

/-- The error is the writer's. -/
example (a : AC.Auto) := C57_shared_own (env := asciiEnv) (rs := two a) (k := 1) (io := disk 1) [] [0, 1, 0, 1, 0, 1] (second a).2
example (a : AC.Auto) : ∃ bs w w', (1, bs) ∈ ((toOneWriter asciiEnv (two a) (disk 1) []).run [0, 1, 0, 1, 0, 1]).out.wrote ∧ (disk 1).writeAll w bs = (w', some 28) :=
  C57_shared_error [] [0, 1, 0, 1, 0, 1] (by rfl)

end Full
end Upon.Demo
