import Verif.Props.Typed
import Verif.Examples.Whole
/-
Concrete cases that meet the hypotheses of the theorems of Props/Typed.
-/
namespace Upon.Demo
open Spec

/-- The `i64` of Rust. -/
abbrev I64 := ArgTy.Out asciiEnv (.int .i64)

/-- `fn add(a: i64, b: i64) -> Result<i64, String> { a.checked_add(b).ok_or("overflow".into()) }` -/
def checkedAdd : FnOf asciiEnv [.int .i64, .int .i64] (Except String I64) := fun a b =>
  if h : IntTy.min asciiEnv .i64 ≤ a.val + b.val ∧ a.val + b.val ≤ IntTy.max asciiEnv .i64 then .ok ⟨a.val + b.val, h⟩
  else .error "overflow"

/-- `impl From<i64> for Value` -/
def fromI64 (i : I64) : Value := .integer i.val

/-- `fn between(s: &str, left: &str, right: &str) -> String { left.to_owned() + s + right }` -/
def between : FnOf asciiEnv [.str, .str, .str] Str := fun s left right => (show Str from left) ++ (show Str from s) ++ (show Str from right)

/-- `3 | add: 4` is 7. -/
example : callFilter asciiEnv (.ofFn asciiEnv (.int .i64) [.int .i64] (returnsResult fromI64) checkedAdd) src st ⟨⟨17, 20⟩⟩
    (.borrowed (.integer 3)) [.lit ⟨.integer 4, ⟨0, 1⟩⟩] = .ok (.integer 7) :=
  C54_returns_ok.mpr ⟨⟨3, by decide⟩, .cons ⟨4, by decide⟩ .nil, ⟨7, by decide⟩, rfl, .cons (.lit rfl) .nil, rfl, rfl⟩

/-- An engine with these functions. -/
def cfgT : RenderCfg Str := { cfg 64 with functions :=
  [("add".toList, .filter (.ofFn asciiEnv (.int .i64) [.int .i64] (returnsResult fromI64) checkedAdd)),
    ("twice".toList, .filter (.ofFn asciiEnv .str [.str, .str] (returns Value.string) between))] }

/-- `9223372036854775807 | add: 1` fails with the function's message, at the filter's name. -/
example : valueOf cfgT src st (.call ⟨⟨17, 20⟩⟩ (some ⟨[.lit ⟨.integer 1, ⟨0, 1⟩⟩], ⟨0, 1⟩⟩)
      (.base (.lit ⟨.integer 9223372036854775807, ⟨0, 1⟩⟩)) ⟨0, 1⟩) = .err ⟨.filter, none, some "overflow", some ⟨0, 17, 3, src⟩⟩ := by
  refine C54_value_err (cfg := cfgT) (val := .int .i64) (ts := [.int .i64]) (into := fromI64) (f := checkedAdd) (v := .owned (.integer 9223372036854775807)) rfl
    (n := "add".toList) (by decide +kernel) rfl (x := ⟨9223372036854775807, by decide⟩) (xs := .cons ⟨1, by decide⟩ .nil) rfl
    (by exact .cons (.lit rfl) .nil) rfl (by decide +kernel)

/-- `s | twice: "<", ">"` where `s` is `hi`. -/
example : valueOf cfgT src st (.call ⟨⟨21, 26⟩⟩ (some ⟨[.lit ⟨.string "<".toList, ⟨0, 1⟩⟩, .lit ⟨.string ">".toList, ⟨0, 1⟩⟩], ⟨0, 1⟩⟩)
      s_ ⟨0, 1⟩) = .ok (.owned (.string "<hi>".toList)) := by
  refine C54_value (cfg := cfgT) (val := .str) (ts := [.str, .str]) (into := Value.string) (f := between) (v := .borrowed (.string "hi".toList)) (by decide +kernel)
    (n := "twice".toList) (by decide +kernel) rfl (x := "hi".toList) (xs := .cons "<".toList (.cons ">".toList .nil)) rfl
    (by exact .cons (.lit rfl) (.cons (.lit rfl) .nil))

/-- `"b" | add: 1` does not call `add`. -/
example (g : FnOf asciiEnv [.int .i64, .int .i64] Value) :
    callFilter asciiEnv (.ofFn asciiEnv (.int .i64) [.int .i64] (returnsResult fromI64) checkedAdd) src st ⟨⟨17, 20⟩⟩
      (.borrowed (.string "b".toList)) [.lit ⟨.integer 4, ⟨0, 1⟩⟩] =
    callFilter asciiEnv (.ofFn asciiEnv (.int .i64) [.int .i64] (returns id) g) src st ⟨⟨17, 20⟩⟩
      (.borrowed (.string "b".toList)) [.lit ⟨.integer 4, ⟨0, 1⟩⟩] :=
  C54_not_called _ _ fun _ _ h => absurd h id

/-- `"b" | between: "a", "c"` is `abc`. -/
example : callFilter asciiEnv (.ofFn asciiEnv .str [.str, .str] (returns Value.string) between) src st ⟨⟨17, 20⟩⟩
    (.owned (.string "b".toList)) [.lit ⟨.string "a".toList, ⟨0, 1⟩⟩, .lit ⟨.string "c".toList, ⟨0, 1⟩⟩] =
    .ok (.string "abc".toList) :=
  C54_returns.mpr ⟨"b".toList, .cons "a".toList (.cons "c".toList .nil), rfl, .cons (.lit rfl) (.cons (.lit rfl) .nil), rfl⟩

end Upon.Demo
