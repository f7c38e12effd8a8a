import Verif.Model.Api
import Verif.Model.Fmt
/-
`Debug` of the public types, and the derived equality of values.
-/
namespace Upon

/-- Models how a character shows itself inside the `Debug` of a string (`char::escape_debug_ext` of the standard library). Which characters are
printable is a parameter. -/
def debugChar (printable : Char → Bool) (c : Char) : Str :=
  if c = '\x00' then ['\\', '0']
  else if c = '\t' then ['\\', 't']
  else if c = '\r' then ['\\', 'r']
  else if c = '\n' then ['\\', 'n']
  else if c = '\\' then ['\\', '\\']
  else if c = '"' then ['\\', '"']
  else if printable c then [c]
  else ['\\', 'u', '{'] ++ (Nat.toDigits 16 c.toNat ++ ['}'])

/-- Models `Debug for str` of the standard library. -/
def debugStr (printable : Char → Bool) (s : Str) : Str := '"' :: (s.flatMap (debugChar printable) ++ ['"'])

/-- The derived `Debug` of a variant without fields. -/
def debugUnit (name : String) : Str := name.toList

/-- The derived `Debug` of a variant with one field, in one line (`DebugTuple` of the standard library). -/
def debugTuple (name : String) (field : Str) : Str := name.toList ++ ('(' :: (field ++ [')']))

/-- `Debug` of a boolean. -/
def debugBool : Bool → Str
  | true => "true".toList
  | false => "false".toList

mutual
/-- Models the derived `Debug` of `Value`, src/value/mod.rs:16-25, in one line. `float` is how an `f64` shows itself. -/
def Value.debug (printable : Char → Bool) (float : BitVec 64 → Str) : Value → Str
  | .none => debugUnit "None"
  | .bool b => debugTuple "Bool" (debugBool b)
  | .integer i => debugTuple "Integer" (showInt i)
  | .float f => debugTuple "Float" (float f)
  | .string s => debugTuple "String" (debugStr printable s)
  | .list l => debugTuple "List" ('[' :: (debugItems printable float true l ++ [']']))
  | .map m => debugTuple "Map" ('{' :: (debugEntries printable float true m ++ ['}']))
/-- `DebugList::entries` of the standard library, for the values of a list. -/
def debugItems (printable : Char → Bool) (float : BitVec 64 → Str) (first : Bool) : List Value → Str
  | [] => []
  | v :: vs => (if first then [] else [',', ' ']) ++ (v.debug printable float ++ debugItems printable float false vs)
/-- `DebugMap::entries` of the standard library, for the entries of a map. -/
def debugEntries (printable : Char → Bool) (float : BitVec 64 → Str) (first : Bool) : List (Str × Value) → Str
  | [] => []
  | (k, v) :: m => (if first then [] else [',', ' ']) ++ (debugStr printable k ++ ([':', ' '] ++ (v.debug printable float ++ debugEntries printable float false m)))
end

/-- `DebugMap::entries` of the standard library, for maps whose values show themselves as `show_`. -/
def debugMap {V : Type} (printable : Char → Bool) (show_ : V → Str) (first : Bool) : BMap V → Str
  | [] => []
  | (k, v) :: m => (if first then [] else [',', ' ']) ++ (debugStr printable k ++ ([':', ' '] ++ (show_ v ++ debugMap printable show_ false m)))

/-- Models `Debug for EngineBoxFn`, src/lib.rs:551-560. -/
def EngFn.debug : EngFn → Str
  | .filter _ => "Filter".toList
  | .formatter _ => "Formatter".toList

/-- Models `Debug for program::Template`, src/types/program.rs:66-71. -/
def compiledDebug (_ : Template) : Str := "<compiled>".toList

/-- Models `Debug for Engine`, src/lib.rs:529-539, in one line. -/
def Engine.debug (printable : Char → Bool) (e : Engine) : Str :=
  "Engine { searcher: .., default_formatter: .., functions: {".toList ++ (debugMap printable EngFn.debug true e.functions ++
    ("}, templates: {".toList ++ (debugMap printable compiledDebug true e.templates ++
      ("}, max_include_depth: ".toList ++ (showInt (e.maxIncludeDepth : Nat) ++ " }".toList)))))

/-- Models `Debug for Template`, src/lib.rs:612-619, in one line. -/
def Template.debug (t : Template) : Str := "Template { engine: .., template: ".toList ++ (compiledDebug t ++ " }".toList)

/-- Models `Debug for TemplateRef`, src/lib.rs:672-680, in one line. -/
def TemplateRef.debug (printable : Char → Bool) (t : TemplateRef) : Str :=
  "TemplateRef { engine: .., name: ".toList ++ (debugStr printable t.name ++ (", template: ".toList ++ (compiledDebug t.template ++ " }".toList)))

/-- Whether an `f64`, given by its bits, is not a number. -/
def f64IsNan (f : BitVec 64) : Bool := decide (0x7ff0000000000000 < f.toNat % 0x8000000000000000)

/-- Models `==` of `f64`. -/
def f64Eq (f g : BitVec 64) : Bool := !f64IsNan f && !f64IsNan g && (f == g || (f64IsZero f && f64IsZero g))

mutual
/-- Models the derived `PartialEq` of `Value`, src/value/mod.rs:16-25. -/
def Value.eq : Value → Value → Bool
  | .none, .none => true
  | .bool a, .bool b => a == b
  | .integer i, .integer j => i == j
  | .float f, .float g => f64Eq f g
  | .string s, .string t => s == t
  | .list l, .list l' => eqItems l l'
  | .map m, .map m' => eqEntries m m'
  | _, _ => false
/-- Models `PartialEq for Vec<Value>`. -/
def eqItems : List Value → List Value → Bool
  | [], [] => true
  | v :: vs, w :: ws => v.eq w && eqItems vs ws
  | _, _ => false
/-- Models `PartialEq for BTreeMap<String, Value>`. -/
def eqEntries : List (Str × Value) → List (Str × Value) → Bool
  | [], [] => true
  | (k, v) :: m, (k', v') :: m' => (k == k' && v.eq v') && eqEntries m m'
  | _, _ => false
end

end Upon
