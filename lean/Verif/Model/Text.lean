/-
Text, byte offsets and slicing.

Rust's `str` is a UTF-8 byte sequence that is sliced by byte offset; slicing panics when an
offset is out of range or not on a character boundary.  The model keeps text as a list of
Unicode scalar values (Lean's `Char` is exactly Rust's `char`) and computes byte offsets with
Lean core's UTF-8 encoder.
-/
namespace Upon

/-- Models Rust's `str`/`String` (used throughout /repo/src): a list of scalar values. -/
abbrev Str := List Char

/-- The bytes of a string: models `str::as_bytes` (used in src/compile/search/mod.rs:17-25 via
`AsRef<[u8]>`). Lean core's `String.utf8EncodeChar` is the encoder. -/
def utf8 (s : Str) : List UInt8 := s.flatMap String.utf8EncodeChar

/-- `str::len` (bytes). -/
def blen : Str → Nat
  | [] => 0
  | c :: s => c.utf8Size + blen s

/-- Models `&s[n..]`: the text from byte offset `n`; `none` is Rust's slice panic
(out of range, or not on a character boundary). -/
def dropB : Str → Nat → Option Str
  | s, 0 => some s
  | [], _ + 1 => none
  | c :: s, n + 1 => if c.utf8Size ≤ n + 1 then dropB s (n + 1 - c.utf8Size) else none

/-- Models `&s[..n]`; `none` is Rust's slice panic. -/
def takeB : Str → Nat → Option Str
  | _, 0 => some []
  | [], _ + 1 => none
  | c :: s, n + 1 =>
    if c.utf8Size ≤ n + 1 then (takeB s (n + 1 - c.utf8Size)).map (c :: ·) else none

/-- Models `&s[m..n]`, in particular `impl Index<Span> for str` (src/types/span.rs:21-28);
`none` is Rust's slice panic, including `m > n`. -/
def slice (s : Str) (m n : Nat) : Option Str :=
  if m ≤ n then (dropB s m).bind (fun t => takeB t (n - m)) else none

/-- Models Rust's `char::is_whitespace` (Unicode `White_Space`), used by `str::trim_start` and
`str::trim_end` in src/compile/lex.rs:176,181. -/
def isWhite (c : Char) : Bool :=
  let n := c.toNat
  (9 ≤ n && n ≤ 13) || n == 0x20 || n == 0x85 || n == 0xA0 || n == 0x1680 ||
  (0x2000 ≤ n && n ≤ 0x200A) || n == 0x2028 || n == 0x2029 || n == 0x202F || n == 0x205F ||
  n == 0x3000

/-- Models `str::trim_start`. -/
def trimStart (s : Str) : Str := s.dropWhile isWhite

/-- Models `str::trim_end`. -/
def trimEnd (s : Str) : Str := (s.reverse.dropWhile isWhite).reverse

/-- A byte range in the template source. Models src/types/span.rs:7-11. -/
structure Span where
  m : Nat
  n : Nat
deriving DecidableEq, Repr, Inhabited

/-- Models `Span::combine`, src/types/span.rs:13-19. -/
def Span.combine (a b : Span) : Span := ⟨min a.m b.m, max a.n b.n⟩

/-- Models `&source[span]`, src/types/span.rs:21-28. -/
def Span.of (sp : Span) (s : Str) : Option Str := slice s sp.m sp.n

end Upon
