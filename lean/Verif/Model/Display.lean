import Verif.Model.Fmt
/-
How errors are displayed (src/error.rs, src/fmt.rs).
-/
namespace Upon

/-- The message of each kind of error, src/error.rs:192-201. -/
def ErrKind.message : ErrKind → Str
  | .syntax => "invalid syntax".toList
  | .render => "render error".toList
  | .filter => "filter error".toList
  | .format => "format error".toList
  | .serialize => "serialize error".toList
  | .io _ => "io error".toList

/-- The format specification `{s:w$}` applied to a string (left-aligned, padded with spaces to `w`
characters), as used at src/error.rs:267-272. -/
def padRight (w : Nat) (s : Str) : Str := s ++ List.replicate (w - s.length) ' '

/-- The format specification `{s:>w$}` (right-aligned), as used at src/error.rs:269. -/
def padLeft (w : Nat) (s : Str) : Str := List.replicate (w - s.length) ' ' ++ s

/-- Models `Pretty::fmt_with_reason`, src/error.rs:247-275: the text written. The line number is an
`usize` and printed as one. -/
def Pretty.withReason (env : Env) (p : Pretty) (name : Option Str) (reason : Str) : Str :=
  let num := showInt (p.ln + 1 : Nat)
  let col := showInt (p.col + 1 : Nat)
  let pad := env.width num
  let align := p.col + p.width
  let pipe := ['|']
  let equals := ['=']
  let underline := List.replicate p.width '^'
  let extra := List.replicate (3 - p.width) '-'
  let name := name.getD "<anonymous>".toList
  "\n\n ".toList ++ padRight pad [] ++ "--> ".toList ++ name ++ ":".toList ++ num ++ ":".toList ++ col
    ++ "\n ".toList ++ padRight pad [] ++ " ".toList ++ pipe
    ++ "\n ".toList ++ padLeft 0 num ++ " ".toList ++ pipe ++ " ".toList ++ p.text
    ++ "\n ".toList ++ padRight pad [] ++ " ".toList ++ pipe ++ " ".toList ++ padLeft align underline ++ extra
    ++ "\n ".toList ++ padRight pad [] ++ " ".toList ++ pipe
    ++ "\n ".toList ++ padRight pad [] ++ " ".toList ++ equals ++ " reason: ".toList ++ reason ++ "\n".toList

/-- Models `impl Display for Error`, src/error.rs:190-211: the text of `{e}` (`alternate := false`) or
`{e:#}` (`alternate := true`). -/
def Err.display (env : Env) (alternate : Bool) (e : Err) : Str :=
  let msg := e.kind.message
  match e.reason, e.pretty with
  | some r, some p =>
    if alternate then msg ++ p.withReason env e.name r.toList else msg ++ ": ".toList ++ r.toList
  | some r, none => msg ++ ": ".toList ++ r.toList
  | none, _ => msg

/-- The names of the variants of `ErrorKind`, as its derived `Debug` shows them, src/error.rs:22-60. `io` is how the I/O error shows itself. -/
def ErrKind.debug (io : Nat → Str) : ErrKind → Str
  | .syntax => "Syntax".toList
  | .render => "Render".toList
  | .filter => "Filter".toList
  | .format => "Format".toList
  | .serialize => "Serialize".toList
  | .io x => "Io(".toList ++ io x ++ ")".toList

/-- The derived `Debug` of an option. -/
def debugOption {α : Type} (f : α → Str) : Option α → Str
  | some x => "Some(".toList ++ f x ++ ")".toList
  | none => "None".toList

/-- The derived `Debug` of `Pretty`, src/error.rs:217-228, in one line. `quote` is the `Debug` of a string. -/
def Pretty.debug (quote : Str → Str) (p : Pretty) : Str :=
  "Pretty { ln: ".toList ++ showInt (p.ln : Nat) ++ ", col: ".toList ++ showInt (p.col : Nat) ++ ", width: ".toList ++ showInt (p.width : Nat) ++
    ", text: ".toList ++ quote p.text ++ " }".toList

/-- Models `impl Debug for Error`, src/error.rs:174-188: the text of `{e:?}`. Simplified: how strings and I/O errors show themselves are parameters (they
are code of the standard library), and the indented form `{e:#?}`, which shows just the fields, is not modelled. -/
def Err.debug (env : Env) (quote : Str → Str) (io : Nat → Str) (e : Err) : Str :=
  e.display env true ++ "\n".toList ++
    ("Error { kind: ".toList ++ e.kind.debug io ++ ", name: ".toList ++ debugOption quote e.name ++
      ", reason: ".toList ++ debugOption (fun r => quote r.toList) e.reason ++ ", pretty: ".toList ++ debugOption (Pretty.debug quote) e.pretty ++ " }".toList)

/-- Models `Error::source`, src/error.rs:165-172: the underlying I/O error. -/
def Err.source (e : Err) : Option Nat :=
  match e.kind with
  | .io x => some x
  | _ => none

/-- Models `impl Display for fmt::Error`, src/fmt.rs:140-147; the error is its optional message. -/
def fmtErrorDisplay : Option String → Str
  | some msg => msg.toList
  | none => "format error".toList

end Upon
