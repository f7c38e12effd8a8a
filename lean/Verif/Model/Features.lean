import Verif.Model.Engine
/-
The crate built without its feature `unicode`.
-/
namespace Upon

/-- The characters of names without the feature `unicode`: models `is_ident_start` and `is_ident`, src/compile/lex.rs:543-551. -/
def isAsciiWord (c : Char) : Bool := ('0' ≤ c && c ≤ '9') || ('A' ≤ c && c ≤ 'Z') || ('a' ≤ c && c ≤ 'z') || c == '_'

/-- The external functions in a build without the feature `unicode`: the tables of the Unicode crates are replaced by
`is_ident_start` and `is_ident`, src/compile/lex.rs:543-551, and by `display_width`, src/error.rs:298-301. (In the model
`is_ident_start` is `c = '_' || xidStart c`, which is the same function.) -/
def Env.plain (env : Env) : Env :=
  { env with xidStart := isAsciiWord, xidContinue := isAsciiWord, width := List.length }

end Upon
