import Verif.Model.Text
/-
Errors (src/error.rs) and the outcome type of fallible Rust functions.
-/
namespace Upon

/-- Functions of external crates / std that the model leaves abstract; every theorem
quantifies over them.
* `xidStart`, `xidContinue`: `unicode_ident::is_xid_start/continue` (src/compile/lex.rs:533-541)
* `width`: `unicode_width::UnicodeWidthStr::width` (src/error.rs:293-296)
* `parseF64`: `str::parse::<f64>` (src/compile/parse.rs:712), as the IEEE bits
* `showF64`: `Display for f64` (src/fmt.rs:219), as the pieces of text it writes, in order
* `toF32`: `f64 as f32` (src/filters/args.rs:110)
* `usizeBits`: `usize::BITS` (src/compile/parse.rs:582)
* `ofF32`: `f64::from(f32)` (src/value/ser/mod.rs:105, src/value/from.rs:34) -/
structure Env where
  xidStart : Char → Bool
  xidContinue : Char → Bool
  width : Str → Nat
  parseF64 : Str → Option (BitVec 64)
  showF64 : BitVec 64 → List Str
  toF32 : BitVec 64 → BitVec 32
  ofF32 : BitVec 32 → BitVec 64
  usizeBits : Nat

/-- Models `enum ErrorKind`, src/error.rs:22-60. The `std::io::Error` payload is identified by
an arbitrary number. -/
inductive ErrKind where
  | syntax
  | serialize
  | render
  | filter
  | format
  | io (e : Nat)
deriving DecidableEq, Repr

/-- Models `struct Pretty`, src/error.rs:217-228. -/
structure Pretty where
  ln : Nat
  col : Nat
  width : Nat
  text : Str
deriving DecidableEq, Repr

/-- Models `struct Error`, src/error.rs:6-20. -/
structure Err where
  kind : ErrKind
  name : Option Str
  reason : Option String
  pretty : Option Pretty
deriving DecidableEq, Repr

/-- The outcome of a Rust function returning `Result<α>`: a value, an error, or `crash`, which
stands for a Rust panic *or* for a loop of the model running out of the fuel given to it
(so that "never crashes" includes termination). -/
inductive Res (α : Type) where
  | ok (a : α)
  | err (e : Err)
  | crash
deriving Repr

namespace Res

/-- Rust's `?` operator. -/
def bind {α β : Type} : Res α → (α → Res β) → Res β
  | ok a, f => f a
  | err e, _ => err e
  | crash, _ => crash

instance : Monad Res where
  pure := ok
  bind := bind

@[simp] theorem ok_bind {α β : Type} (a : α) (f : α → Res β) : (Res.ok a >>= f) = f a := rfl
@[simp] theorem err_bind {α β : Type} (e : Err) (f : α → Res β) : (Res.err e >>= f) = Res.err e := rfl
@[simp] theorem crash_bind {α β : Type} (f : α → Res β) : (Res.crash >>= f) = Res.crash := rfl
@[simp] theorem pure_eq {α : Type} (a : α) : (pure a : Res α) = Res.ok a := rfl

/-- A partial operation whose failure is a Rust panic (indexing, `unwrap`). -/
def ofOption {α : Type} : Option α → Res α
  | some a => ok a
  | none => crash

/-- `Result::map_err`. -/
def mapErr {α : Type} (f : Err → Err) : Res α → Res α
  | ok a => ok a
  | err e => err (f e)
  | crash => crash

end Res

/-- Models `str::split_terminator('\n')`, used at src/error.rs:232; `cur` is the line being
read (reversed). -/
def splitLinesAux : Str → Str → List Str
  | [], [] => []
  | [], cur => [cur.reverse]
  | c :: s, cur => if c = '\n' then cur.reverse :: splitLinesAux s [] else splitLinesAux s (c :: cur)

/-- Models `source.split_terminator('\n').collect()`, src/error.rs:232. -/
def splitLines (s : Str) : List Str := splitLinesAux s []

/-- The loop of `to_ln_col`, src/error.rs:279-286, from line number `i` with `n` columns
consumed; `none` when the loop ends without returning. -/
def toLnColLoop (env : Env) (offset : Nat) : Nat → Nat → List Str → Option (Nat × Nat)
  | _, _, [] => none
  | i, n, line :: rest =>
    let len := env.width line + 1
    if n + len > offset then some (i, offset - n) else toLnColLoop env offset (i + 1) (n + len) rest

/-- Models `to_ln_col`, src/error.rs:278-291. -/
def toLnCol (env : Env) (lines : List Str) (offset : Nat) : Nat × Nat :=
  match toLnColLoop env offset 0 0 lines with
  | some p => p
  | none => (lines.length, (lines.getLast?.map env.width).getD 0)

/-- Models `Pretty::build`, src/error.rs:231-245. `none` is a panic: of the slice `source[span]`
or of `lines.last().unwrap()` on an empty source. -/
def Pretty.build (env : Env) (source : Str) (span : Span) : Option Pretty := do
  let lines := splitLines source
  let (ln, col) := toLnCol env lines span.m
  let sel ← span.of source
  let width := max 1 (env.width sel)
  let text ← (lines[ln]?).or lines.getLast?
  some { ln, col, width, text }

/-- Models `Error::syntax` / `Error::render` / `Error::format`, src/error.rs:62-81,117-124 (they
differ in the kind and, for `format`, in the reason being optional), as the outcome `Err(..)`. -/
def throwAt {α : Type} (env : Env) (kind : ErrKind) (reason : Option String) (source : Str) (span : Span) :
    Res α :=
  match Pretty.build env source span with
  | some p => .err { kind, name := none, reason, pretty := some p }
  | none => .crash

/-- Models `Error::syntax`, src/error.rs:63-71. -/
def errSyntax {α : Type} (env : Env) (reason : String) (source : Str) (span : Span) : Res α :=
  throwAt env .syntax (some reason) source span

/-- Models `Error::render`, src/error.rs:73-81. -/
def errRender {α : Type} (env : Env) (reason : String) (source : Str) (span : Span) : Res α :=
  throwAt env .render (some reason) source span

/-- Models `Error::max_include_depth`, src/error.rs:83-91. -/
def Err.maxIncludeDepth (max : Nat) : Err :=
  { kind := .render, name := none, reason := some s!"reached maximum include depth ({max})",
    pretty := none }

/-- Models `Error::with_template_name`, src/error.rs:93-97. -/
def Err.withTemplateName (e : Err) (name : Str) : Err :=
  { e with name := some (e.name.getD name) }

/-- Models the closure at src/render/core.rs:53-56, 68-71, 80-83: attach the name of the running
template if it has one. -/
def Err.attachName (e : Err) : Option Str → Err
  | some s => e.withTemplateName s
  | none => e

/-- Models `Error::enrich`, src/error.rs:99-105, applied to an error outcome (src/render/core.rs:156,
245); building the location may panic. -/
def enrich {α : Type} (env : Env) (source : Str) (span : Span) : Res α → Res α
  | .err e =>
    match e.pretty with
    | some _ => .err e
    | none =>
      match Pretty.build env source span with
      | some p => .err { e with pretty := some p }
      | none => .crash
  | r => r

/-- Models `Error::filter`, src/error.rs:107-115. -/
def Err.filter (reason : String) : Err :=
  { kind := .filter, name := none, reason := some reason, pretty := none }

/-- Models `impl From<std::io::Error> for Error`, src/error.rs:127-136. -/
def Err.ofIo (e : Nat) : Err := { kind := .io e, name := none, reason := none, pretty := none }

/-- Models `impl From<std::fmt::Error> for Error`, src/error.rs:138-147. -/
def Err.ofFmt : Err := { kind := .format, name := none, reason := none, pretty := none }

/-- Models `serde::ser::Error::custom`, src/error.rs:149-163. -/
def Err.custom (reason : String) : Err :=
  { kind := .serialize, name := none, reason := some reason, pretty := none }

end Upon
