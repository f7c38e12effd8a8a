import Verif.Model.Lexer
import Verif.Model.Value
/-
What messages call tokens and values (C51, C52, C24 and the errors of rendering).
-/
namespace Upon.Spec

/-- The name of a token in messages. -/
def tokenName : Token → String
  | .raw => "raw template"
  | .beginExpr => "begin expression"
  | .endExpr => "end expression"
  | .beginBlock => "begin block"
  | .endBlock => "end block"
  | .beginComment => "begin comment"
  | .endComment => "end comment"
  | .dot => "member access operator"
  | .questionDot => "optional member access operator"
  | .pipe => "pipe"
  | .comma => "comma"
  | .colon => "colon"
  | .minus => "minus"
  | .plus => "plus"
  | .whitespace => "whitespace"
  | .keyword => "keyword"
  | .ident => "identifier"
  | .index => "index"
  | .string => "string"
  | .number => "number"

/-- The name of the type of a value in messages. -/
def typeName : Value → String
  | .none => "none"
  | .bool _ => "bool"
  | .integer _ => "integer"
  | .float _ => "float"
  | .string _ => "string"
  | .list _ => "list"
  | .map _ => "map"

end Upon.Spec

namespace Upon

theorem human_token (t : Token) : t.human = Spec.tokenName t := by cases t <;> rfl

theorem human_value (v : Value) : v.human = Spec.typeName v := by cases v <;> rfl

end Upon
