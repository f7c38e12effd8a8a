import Verif.Model.Threads
/-
Vocabulary for C57: how the renders in threads have ended.
-/
namespace Upon.Spec
variable {ω : Type}

/-- What the call of `to_string` in thread `k` has returned, if it has: the text is the one in its own string. -/
def returned (t : Threads (Nat → Str)) (k : Nat) : Option (Res Str) :=
  match t.jobs[k]? with
  | some (.done (.ok _)) => some (.ok (t.out k))
  | some (.done (.err e _)) => some (.err e)
  | some (.done .crash) => some .crash
  | _ => none

/-- What the call of `to_writer` in thread `k` has returned, if it has; an error that its writer has stored takes precedence. -/
def wrote (t : Threads (Nat → ω × Option Nat)) (k : Nat) : Option (Res Unit) :=
  match t.jobs[k]? with
  | some (.done (.ok _)) => some (.ok ())
  | some (.done (.err e _)) => some (.err (((t.out k).2.map Err.ofIo).getD e))
  | some (.done .crash) => some .crash
  | _ => none

/-- The same for threads that share a writer. -/
def wroteShared (t : Threads (Shared ω)) (k : Nat) : Option (Res Unit) :=
  match t.jobs[k]? with
  | some (.done (.ok _)) => some (.ok ())
  | some (.done (.err e _)) => some (.err (((t.out.err k).map Err.ofIo).getD e))
  | some (.done .crash) => some .crash
  | _ => none

/-- All that was written, in order. -/
def everything (l : List (Nat × List UInt8)) : List UInt8 := l.flatMap (·.2)

/-- What thread `k` has written, in order. -/
def writtenBy (k : Nat) (l : List (Nat × List UInt8)) : List UInt8 := everything (l.filter (·.1 = k))

/-- Threads that render to strings. -/
def inStrings (env : Env) (rs : List Renderer) : Threads (Nat → Str) := .start env (ownSink fun _ => stringSink) rs fun _ => []

/-- Threads that render to writers of their own. -/
def toOwnWriters (env : Env) (rs : List Renderer) (io : Nat → IoWriter ω) (w₀ : Nat → ω) : Threads (Nat → ω × Option Nat) :=
  .start env (ownSink fun i => writerSink (io i)) rs fun i => (w₀ i, none)

/-- Threads that render to a writer that they share. -/
def toOneWriter (env : Env) (rs : List Renderer) (io : IoWriter ω) (w₀ : ω) : Threads (Shared ω) :=
  .start env (sharedSink io) rs ⟨w₀, [], fun _ => none⟩

end Upon.Spec
