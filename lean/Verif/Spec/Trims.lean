import Verif.Spec.Texts
/-
Vocabulary for C83: what a template says before white space is trimmed.
-/
namespace Upon.Spec

/-- Where the next token starts, or where the text ends. -/
def startOf (src : Str) : List Tok → Nat
  | [] => blen src
  | (_, sp) :: _ => sp.m

/-- What the tokens of a template say, when the text before a tag is all that stands between the tags, whatever the trim markers: the previous token ended
at byte `i`. Comments say nothing. -/
def fullWords (src : Str) : Nat → List Tok → List Item
  | _, (.beginComment, _) :: (.raw, _) :: (.endComment, sp) :: ts => fullWords src sp.n ts
  | i, (.raw, _) :: ts => (textAt src ⟨i, startOf src ts⟩).map .char ++ fullWords src (startOf src ts) ts
  | _, (tk, sp) :: ts => saying src (tk, sp) ++ fullWords src sp.n ts
  | _, [] => []

/-- An engine compiled `t`; `T` is the text and its tree according to the grammar, and without regard to trim markers its tokens say `ws`. -/
def Spells (env : Env) (t : Template) (T : Tree) (ws : List Item) : Prop :=
  ∃ b a ts, Setup b ⟨env, a, T.source⟩ ∧ Tidy b.build T.source ∧ compileSource ⟨env, a, T.source⟩ = .ok t ∧
    Layout b.build env T.source (.text false) 0 ts ∧ GStmts env T.source ts T.body ∧ fullWords T.source 0 ts = ws

end Upon.Spec
