import Verif.Spec.Rendering
/-
Vocabulary for C44: what a template says, apart from how it is laid out.
-/
namespace Upon.Spec

/-- One thing a template says: a character of text, a delimiter or punctuation mark, or a name, keyword, number
or string. -/
inductive Item where
  | char (c : Char)
  | sign (t : Token)
  | word (t : Token) (text : Str)
deriving DecidableEq

/-- The text in the byte range. -/
def textAt (src : Str) (sp : Span) : Str := (sp.of src).getD []

/-- What a token says. -/
def saying (src : Str) : Tok → List Item
  | (.raw, sp) => (textAt src sp).map .char
  | (.ident, sp) => [.word .ident (textAt src sp)]
  | (.keyword, sp) => [.word .keyword (textAt src sp)]
  | (.index, sp) => [.word .index (textAt src sp)]
  | (.number, sp) => [.word .number (textAt src sp)]
  | (.string, sp) => [.word .string (textAt src sp)]
  | (tk, _) => [.sign tk]

/-- What the tokens of a template say; comments say nothing. -/
def words (src : Str) : List Tok → List Item
  | (.beginComment, _) :: (.raw, _) :: (.endComment, _) :: ts => words src ts
  | t :: ts => saying src t ++ words src ts
  | [] => []

/-- An engine compiled `t`; `T` is the text and its tree according to the grammar, and its tokens say `ws`. -/
def Says (env : Env) (t : Template) (T : Tree) (ws : List Item) : Prop :=
  ∃ b a ts, Setup b ⟨env, a, T.source⟩ ∧ Tidy b.build T.source ∧ compileSource ⟨env, a, T.source⟩ = .ok t ∧
    Layout b.build env T.source (.text false) 0 ts ∧ GStmts env T.source ts T.body ∧ words T.source ts = ws

/-- `ws'` is `ws` with some of the tags `{% include "b" %}` replaced by `wb`. -/
inductive Inlined (b : Str) (wb : List Item) : List Item → List Item → Prop
  | nil : Inlined b wb [] []
  | keep {ws ws'} (i : Item) : Inlined b wb ws ws' → Inlined b wb (i :: ws) (i :: ws')
  | inline {raw ws ws'} : StrLit raw b → Inlined b wb ws ws' →
      Inlined b wb (.sign .beginBlock :: .word .keyword "include".toList :: .word .string raw :: .sign .endBlock :: ws) (wb ++ ws')

/-- The error without the place. -/
def unplaced (e : Err) : Err := { e with pretty := none }

/-- The result without the places of errors. -/
def Unplaced {α : Type} : Res α → Res α
  | .ok a => .ok a
  | .err e => .err (unplaced e)
  | .crash => .crash

/-- The result without the places of errors and the names of templates in errors. -/
def Bare {α : Type} : Res α → Res α
  | .ok a => .ok a
  | .err e => .err { e with name := none, pretty := none }
  | .crash => .crash

/-- One result, then the other: the texts one after the other, or the first failure. -/
def OneByOne : Res Str → Res Str → Res Str
  | .ok x, .ok y => .ok (x ++ y)
  | .ok _, r => r
  | r, _ => r

end Upon.Spec
