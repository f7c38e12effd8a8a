import Verif.Model.Engine
/-
Vocabulary for output (C25, C26).
-/
namespace Upon.Spec

/-- A writer that accepts everything; `log` is what it holds. -/
structure Accepts {ω : Type} (io : IoWriter ω) (log : ω → List UInt8) : Prop where
  accepts : ∀ w bs, (io.writeAll w bs).2 = none
  keeps : ∀ w bs, log (io.writeAll w bs).1 = log w ++ bs

/-- A writer like `Vec<u8>`. -/
def vec : IoWriter (List UInt8) where
  writeAll w bs := (w ++ bs, none)

/-- An attempt to write: the bytes and the failure, if any. -/
abbrev Attempt := List UInt8 × Option Nat

/-- The same writer, recording the attempts made, most recent first. -/
def recording {ω : Type} (io : IoWriter ω) : IoWriter (ω × List Attempt) where
  writeAll w bs := (((io.writeAll w.1 bs).1, (bs, (io.writeAll w.1 bs).2) :: w.2), (io.writeAll w.1 bs).2)

/-- All the bytes the attempts tried to write, in order. -/
def attempted : List Attempt → List UInt8
  | [] => []
  | (bs, _) :: older => attempted older ++ bs

/-- The formatter stops with an error as soon as a write fails, as `write!(..)?` does. -/
inductive Careful : FmtProg → Prop
  | done {r} : Careful (.done r)
  | write {s k} : Careful (k true) → (∃ e, k false = .done (.error e)) → Careful (.write s k)

/-- All formatters of the engine are careful. -/
def CarefulEngine (e : Engine) : Prop :=
  (∀ v, Careful (e.defaultFormatter v)) ∧
  ∀ n f, BMap.get e.functions n = some (.formatter f) → ∀ v, Careful (f v)

end Upon.Spec
