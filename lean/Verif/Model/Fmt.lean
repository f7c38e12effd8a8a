import Verif.Model.Value
/-
Formatters and output sinks (src/fmt.rs).
-/
namespace Upon

/-- What a formatter function does with the `&mut Formatter` it gets: any finite sequence of writes,
each continuation depending on whether the write succeeded, ending in `fmt::Result`
(`Error(Option<String>)`, src/fmt.rs:90-95). Models values of
`dyn Fn(&mut Formatter<'_>, &Value) -> Result` (src/fmt.rs:83) applied to a value: `write_str`,
`write_char` and `write_fmt` (src/fmt.rs:115-130) all end in writes of text. -/
inductive FmtProg where
  | done (r : Except (Option String) Unit)
  | write (s : Str) (k : Bool → FmtProg)

/-- Models `FormatFn`, src/fmt.rs:83. -/
abbrev Formatter := Value → FmtProg

/-- An output sink: `fmt::Write::write_str` on the underlying buffer; `false` is
`Err(fmt::Error)`. -/
structure Sink (σ : Type) where
  write : σ → Str → σ × Bool

/-- Run a formatter program on a sink. -/
def FmtProg.run {σ : Type} (sink : Sink σ) : FmtProg → σ → σ × Except (Option String) Unit
  | .done r, s => (s, r)
  | .write t k, s => (k (sink.write s t).2).run sink (sink.write s t).1

/-- `write!(f, "{x}")?` then `Ok(())`, where the `Display` of `x` writes the given pieces one after
the other: the first failure ends it and is propagated as `Error(None)` (`From<fmt::Error>`,
src/fmt.rs:161-165). -/
def FmtProg.writeAll : List Str → FmtProg
  | [] => .done (.ok ())
  | s :: ss => .write s (fun ok => if ok then .writeAll ss else .done (.error none))

/-- The text of `Display for i64`. -/
def showInt (i : Int) : Str := (toString i).toList

/-- The pieces `Display for i64` writes (`Formatter::pad_integral` of `std`): the sign of a negative
number, then the digits. -/
def intPieces (i : Int) : List Str := if i < 0 then [['-'], showInt i.natAbs] else [showInt i]

/-- Models `fmt::default`, src/fmt.rs:214-230. -/
def fmtDefault (env : Env) : Formatter
  | .none => .done (.ok ())
  | .bool b => .writeAll [if b then "true".toList else "false".toList]
  | .integer n => .writeAll (intPieces n)
  | .float f => .writeAll (env.showF64 f)
  | .string s => .writeAll [s]
  | v => .done (.error (some s!"expression evaluated to unformattable type {v.human}"))

/-- The `String` sink of `Formatter::with_string` (src/fmt.rs:103-105): appending never fails. -/
def stringSink : Sink Str where
  write s t := (s ++ t, true)

/-- An arbitrary `W: io::Write` as seen through `write_all` (src/fmt.rs:186, 195): the writer's next
state and the I/O error, if any. -/
structure IoWriter (ω : Type) where
  writeAll : ω → List UInt8 → ω × Option Nat

/-- Models `impl fmt::Write for Writer<W>`, src/fmt.rs:180-201: the writer and the stored error
(`Writer::err`, src/fmt.rs:97-100). -/
def writerSink {ω : Type} (w : IoWriter ω) : Sink (ω × Option Nat) where
  write s t :=
    match w.writeAll s.1 (utf8 t) with
    | (s', none) => ((s', s.2), true)
    | (s', some e) => ((s', some e), false)

end Upon
