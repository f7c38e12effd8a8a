import Verif.Model.Macro
import Verif.Spec.Serial
/-
Vocabulary for the `value!` macro (C42): which token sequences are accepted and what they stand for.
-/
namespace Upon.Spec

/-- What is written: nothing, a list, a map with its entries in order, or a Rust expression. -/
inductive Written where
  | none
  | list (l : List Written)
  | map (l : List (Str × Written))
  | expr (v : SV)

mutual
/-- How a value is written, in one token tree. -/
inductive Spelled : Written → TT → Prop
  | none {v} : Spelled .none (.ident "None".toList v)
  | word {n v} : n ≠ "None".toList → Spelled (.expr v) (.ident n v)
  | expr {v} : Spelled (.expr v) (.expr v)
  | list {n l ts} : Elems l ts → Spelled (.list l) (.brackets (List.replicate n .comma ++ ts))
  | map {l ts} : Entries l ts → Spelled (.map l) (.braces ts)
/-- Elements with commas between them; a comma after the last one is optional. -/
inductive Elems : List Written → List TT → Prop
  | nil : Elems [] []
  | last {w t} : Spelled w t → Elems [w] [t]
  | more {w t ws ts} : Spelled w t → Elems ws ts → Elems (w :: ws) (t :: .comma :: ts)
/-- Entries `key: value` with commas between them; a comma after the last one is optional. -/
inductive Entries : List (Str × Written) → List TT → Prop
  | nil : Entries [] []
  | last {k v w t} : Spelled w t → Entries [(k, w)] [.ident k v, .colon, t]
  | more {k v w t ws ts} : Spelled w t → Entries ws ts → Entries ((k, w) :: ws) (.ident k v :: .colon :: t :: .comma :: ts)
end

mutual
/-- What it stands for. -/
inductive Means (env : Env) : Written → Value → Prop
  | none : Means env .none .none
  | list {l vs} : MeansAll env l vs → Means env (.list l) (.list vs)
  | map {l pairs m} : MeansEntries env l pairs → MapOf pairs m → Means env (.map l) (.map m)
  | expr {s v} : Becomes env s v → Means env (.expr s) v
inductive MeansAll (env : Env) : List Written → List Value → Prop
  | nil : MeansAll env [] []
  | cons {w ws v vs} : Means env w v → MeansAll env ws vs → MeansAll env (w :: ws) (v :: vs)
inductive MeansEntries (env : Env) : List (Str × Written) → List (Str × Value) → Prop
  | nil : MeansEntries env [] []
  | cons {k w ws v vs} : Means env w v → MeansEntries env ws vs → MeansEntries env ((k, w) :: ws) ((k, v) :: vs)
end

mutual
/-- The Rust expressions in it. -/
inductive Mentions : Written → SV → Prop
  | expr {s} : Mentions (.expr s) s
  | list {l s} : MentionsAny l s → Mentions (.list l) s
  | map {l s} : MentionsEntry l s → Mentions (.map l) s
inductive MentionsAny : List Written → SV → Prop
  | head {w ws s} : Mentions w s → MentionsAny (w :: ws) s
  | tail {w ws s} : MentionsAny ws s → MentionsAny (w :: ws) s
inductive MentionsEntry : List (Str × Written) → SV → Prop
  | head {k w ws s} : Mentions w s → MentionsEntry ((k, w) :: ws) s
  | tail {k w ws s} : MentionsEntry ws s → MentionsEntry ((k, w) :: ws) s
end

mutual
/-- The program the macro should expand to. -/
def Written.code : Written → MacroCode
  | .none => .none
  | .list l => .list (Written.codes l)
  | .map l => .map (Written.entryCodes l)
  | .expr v => .convert v
def Written.codes : List Written → List MacroCode
  | [] => []
  | w :: ws => w.code :: Written.codes ws
def Written.entryCodes : List (Str × Written) → List (Str × MacroCode)
  | [] => []
  | (k, w) :: ws => (k, w.code) :: Written.entryCodes ws
end

end Upon.Spec
