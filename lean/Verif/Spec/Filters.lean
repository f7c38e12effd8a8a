import Verif.Spec.Params
import Verif.Spec.Errors
import Verif.Model.Fmt
import Verif.Spec.Grammar
/-
Vocabulary for filters and formatting (C31, C32, C34).
-/
namespace Upon.Spec

/-- A value can be passed for a parameter of a type: kinds must agree exactly, and an integer must fit. -/
inductive Converts (env : Env) : ArgTy → Value → ArgVal → Prop
  | unit : Converts env .unit .none .unit
  | bool {b} : Converts env .bool (.bool b) (.bool b)
  | int {t i} : Fits env t i → Converts env (.int t) (.integer i) (.int i)
  | f32 {f} : Converts env .f32 (.float f) (.f32 (env.toF32 f))
  | f64 {f} : Converts env .f64 (.float f) (.f64 f)
  | string {s} : Converts env .string (.string s) (.str s)
  | str {s} : Converts env .str (.string s) (.str s)
  | list {l} : Converts env .list (.list l) (.list l)
  | listRef {l} : Converts env .listRef (.list l) (.list l)
  | map {m} : Converts env .map (.map m) (.map m)
  | mapRef {m} : Converts env .mapRef (.map m) (.map m)
  | value {v} : Converts env .value v (.value v)
  | valueRef {v} : Converts env .valueRef v (.value v)

/-- An argument of a call can be passed for a parameter: a literal by its value; a variable by the value
found for it, which a parameter that borrows accepts only if it is borrowed itself. -/
inductive Passes (env : Env) (src : Str) (st : Stack) (t : ArgTy) : BaseExpr → ArgVal → Prop
  | lit {l a} : Converts env t l.value a → Passes env src st t (.lit l) a
  | borrowed {v x a} : lookupVar env src st v = .ok (.borrowed x) → Converts env t x a → Passes env src st t (.var v) a
  | owned {v x a} : lookupVar env src st v = .ok (.owned x) → ¬ ByRef t → Converts env t x a →
      Passes env src st t (.var v) a

/-- All arguments can be passed, one for each parameter. -/
inductive PassAll (env : Env) (src : Str) (st : Stack) : List ArgTy → List BaseExpr → List ArgVal → Prop
  | nil : PassAll env src st [] [] []
  | cons {t ts x xs a as} : Passes env src st t x a → PassAll env src st ts xs as →
      PassAll env src st (t :: ts) (x :: xs) (a :: as)

/-- The first argument that cannot be passed is `x`, for a parameter of type `t`. -/
inductive FirstBad (env : Env) (src : Str) (st : Stack) : List ArgTy → List BaseExpr → ArgTy → BaseExpr → Prop
  | here {t ts x xs} : (∀ a, ¬ Passes env src st t x a) → FirstBad env src st (t :: ts) (x :: xs) t x
  | later {t ts x xs a t' x'} : Passes env src st t x a → FirstBad env src st ts xs t' x' →
      FirstBad env src st (t :: ts) (x :: xs) t' x'

/-- The message when an argument cannot be passed for a parameter: the value that the argument denotes has
the wrong kind or range, or it is not borrowed and the parameter borrows. -/
inductive Objects (env : Env) (src : Str) (st : Stack) (t : ArgTy) : BaseExpr → String → Prop
  | lit {l} : (∀ a, ¬ Converts env t l.value a) → Objects env src st t (.lit l) (objection .argument t l.value)
  | var {v c} : lookupVar env src st v = .ok c → (∀ a, ¬ Converts env t c.val a) →
      Objects env src st t (.var v) (objection .argument t c.val)
  | loan {v x a} : lookupVar env src st v = .ok (.owned x) → ByRef t → Converts env t x a →
      Objects env src st t (.var v) (noLoan t)

/-! Numbers as text -/

/-- The usual decimal numeral of a natural number: digits, no leading zero. -/
structure Numeral (n : Nat) (s : Str) : Prop where
  digits : ∀ c ∈ s, '0' ≤ c ∧ c ≤ '9'
  value : decimal s = n
  leading : ∀ c r, s = c :: r → c = '0' → r = []
  some : s ≠ []

/-- The decimal text of an integer. -/
inductive IntText : Int → Str → Prop
  | nonneg {n : Nat} {s} : Numeral n s → IntText n s
  | neg {n : Nat} {s} : 0 < n → Numeral n s → IntText (-n) ('-' :: s)

/-- What the default formatter prints. -/
inductive Prints (env : Env) : Value → Str → Prop
  | none : Prints env .none []
  | true_ : Prints env (.bool true) "true".toList
  | false_ : Prints env (.bool false) "false".toList
  | integer {i s} : IntText i s → Prints env (.integer i) s
  | float {f} : Prints env (.float f) (env.showF64 f).flatten
  | string {s} : Prints env (.string s) s

/-- Texts are written one after the other, stopping at the first write that fails: where that leaves the output and whether
all writes succeeded. -/
inductive Writes {σ : Type} (sink : Sink σ) : σ → List Str → σ → Bool → Prop
  | done {s} : Writes sink s [] s true
  | next {s t ts s' ok} : (sink.write s t).2 = true → Writes sink (sink.write s t).1 ts s' ok → Writes sink s (t :: ts) s' ok
  | fail {s t ts} : (sink.write s t).2 = false → Writes sink s (t :: ts) (sink.write s t).1 false

end Upon.Spec
