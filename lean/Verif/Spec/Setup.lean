import Verif.Spec.History
/-
Vocabulary for C80: what the calls that set up an engine are about.
-/
namespace Upon.Spec

/-- What a call is about: the template of a name, the function of a name (a filter or a formatter), the default formatter, or the limit. -/
inductive Topic where
  | template (name : Str)
  | function (name : Str)
  | formatter
  | limit
deriving DecidableEq

/-- What the call is about. -/
def Op.topic : Op → Topic
  | .addTemplate n _ => .template n
  | .removeTemplate n => .template n
  | .addFilter n _ => .function n
  | .addFormatter n _ => .function n
  | .removeFunction n => .function n
  | .setDefaultFormatter _ => .formatter
  | .setMaxIncludeDepth _ => .limit

/-- The call does not fail: only the addition of a text that does not compile fails. -/
def Op.Succeeds (env : Env) (e : Engine) : Op → Prop
  | .addTemplate _ src => ∃ t, e.compile env src = .ok t
  | _ => True

/-- The call is the last one about that topic in the history (most recent first) that did not fail. -/
def LastAbout (env : Env) (e : Engine) (ops : List Op) (t : Topic) (op : Op) : Prop :=
  ∃ newer older, ops = newer ++ op :: older ∧ op.topic = t ∧ op.Succeeds env e ∧ ∀ o ∈ newer, o.topic = t → ¬ o.Succeeds env e

/-- The call removes something. -/
def Op.Removes : Op → Prop
  | .removeTemplate _ => True
  | .removeFunction _ => True
  | _ => False

/-- The histories have the same last call about each topic, where a last call that removes something is as good as none. -/
def SameLast (env : Env) (e : Engine) (ops ops' : List Op) : Prop :=
  ∀ t op, ¬ op.Removes → (LastAbout env e ops t op ↔ LastAbout env e ops' t op)

/-- The histories have the same calls about each topic, in the same order; calls about different topics may be in any order. -/
def SameByTopic (ops ops' : List Op) : Prop := ∀ t, ops.filter (fun o => decide (o.topic = t)) = ops'.filter (fun o => decide (o.topic = t))

/-! The calls on a syntax builder -/

/-- A call that sets delimiters. -/
inductive SetOp where
  | expr (begin_ end_ : Str)
  | block (begin_ end_ : Str)
  | comment (begin_ end_ : Str)

/-- The builder after a call; `none` is a panic. -/
def SetOp.apply (b : SyntaxBuilder) : SetOp → Option SyntaxBuilder
  | .expr x y => b.setExpr x y
  | .block x y => b.setBlock x y
  | .comment x y => b.setComment x y

/-- The builder after a history of calls on a new one, the most recent call first; `none` if one of them panicked. -/
def builder : List SetOp → Option SyntaxBuilder
  | [] => some .new
  | op :: older => (builder older).bind fun b => op.apply b

/-- Neither delimiter is empty. -/
def SetOp.Allowed : SetOp → Prop
  | .expr x y | .block x y | .comment x y => x ≠ [] ∧ y ≠ []

/-- The delimiters that the call sets, if it is one for expressions. -/
def SetOp.exprs : SetOp → Option (Str × Str)
  | .expr x y => some (x, y)
  | _ => none
/-- … for blocks. -/
def SetOp.blocks : SetOp → Option (Str × Str)
  | .block x y => some (x, y)
  | _ => none
/-- … for comments. -/
def SetOp.comments : SetOp → Option (Str × Str)
  | .comment x y => some (x, y)
  | _ => none

end Upon.Spec
