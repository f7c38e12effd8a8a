import Verif.Model.Features
import Verif.Spec.Print
import Verif.Spec.Location
/-
C56: builds with other Unicode tables, or with none.
-/
namespace Upon.Spec

/-- Two builds of the crate that differ only in the Unicode tables: in what a name may contain and in how wide text is. -/
structure Rebuilt (env env' : Env) : Prop where
  parse : env'.parseF64 = env.parseF64
  show_ : env'.showF64 = env.showF64
  to32 : env'.toF32 = env.toF32
  of32 : env'.ofF32 = env.ofF32
  bits : env'.usizeBits = env.usizeBits

/-- Both builds take the same characters of this text for characters of names. (A digit never starts a name.) -/
def NamesAgree (env env' : Env) (src : Str) : Prop :=
  ∀ c ∈ src, env'.xidContinue c = env.xidContinue c ∧ (isDigit c = true ∨ isIdentStart env' c = isIdentStart env c)

/-- The same error: the same kind, the same reason, the same template and, if it has one, the same place in the same text; only
the line, column and width of that place are counted by each build's own table. -/
structure SameError (env env' : Env) (P : Str → Prop) (e e' : Err) : Prop where
  kind : e'.kind = e.kind
  name : e'.name = e.name
  reason : e'.reason = e.reason
  place : (e.pretty = none ∧ e'.pretty = none) ∨
    ∃ src sp p p', P src ∧ Pretty.build env src sp = some p ∧ Pretty.build env' src sp = some p' ∧ e.pretty = some p ∧ e'.pretty = some p'

/-- The same outcome, up to how places are counted. -/
inductive SameOutcome {α : Type} (env env' : Env) (P : Str → Prop) : Res α → Res α → Prop
  | ok (a : α) : SameOutcome env env' P (.ok a) (.ok a)
  | err {e e' : Err} : SameError env env' P e e' → SameOutcome env env' P (.err e) (.err e')
  | crash : SameOutcome env env' P .crash .crash

/-- Text in ASCII. -/
def Ascii (s : Str) : Prop := ∀ c ∈ s, c.toNat < 128

/-- The second table knows all names of the first, and nothing new in ASCII. (What starts a name can also go on with it.) -/
structure TablesGrow (env env' : Env) : Prop where
  starts : ∀ c, isDigit c = false → isIdentStart env c = true → isIdentStart env' c = true
  chars : ∀ c, isIdentChar env c = true → isIdentChar env' c = true
  ascii : ∀ c : Char, c.toNat < 128 → isIdentChar env' c = isIdentChar env c
  goesOn : ∀ c, isIdentStart env c = true → isIdentChar env c = true

/-- Both builds find each line of the text, and each part of a line, equally wide. -/
def WidthsAgree (env env' : Env) (src : Str) : Prop := ∀ s, (∀ c ∈ s, c ∈ src) → '\n' ∉ s → env'.width s = env.width s

/-- The same place in a text, as both builds describe it. -/
def SamePlace (p p' : Pretty) : Prop := p'.ln = p.ln ∧ p'.col = p.col ∧ p'.text = p.text

end Upon.Spec
