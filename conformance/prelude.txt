import Verif
open Upon

namespace Conf

def symbol (c : Char) : Bool := 0x2000 ≤ c.toNat && c.toNat ≤ 0x2BFF
/-- Enough of Unicode for the tests. -/
def isIdStart (c : Char) : Bool := c.isAlpha || c.toNat ≥ 0xAA && c.toNat ≠ 0xD7 && !symbol c
def trimZeros (s : String) : String :=
  if s.contains '.' then
    let r := s.toList.reverse.dropWhile (· == '0')
    String.ofList ((match r with | '.' :: r => r | r => r).reverse)
  else s
/-- `str::parse::<f64>` on the texts of the tests, by way of Lean's scientific literals. -/
def parseFloat (s : List Char) : Option (BitVec 64) := do
  let (neg, s) := match s with | '-' :: r => (true, r) | '+' :: r => (false, r) | r => (false, r)
  let mant := s.takeWhile (fun c => c ≠ 'e' && c ≠ 'E')
  let ex := (s.dropWhile (fun c => c ≠ 'e' && c ≠ 'E')).drop 1
  let exp : Int ← if ex.isEmpty then some 0 else
    (match ex with | '-' :: r => (String.ofList r).toNat?.map (fun n => -(n : Int)) | '+' :: r => (String.ofList r).toNat?.map Int.ofNat | r => (String.ofList r).toNat?.map Int.ofNat)
  let ip := mant.takeWhile (· ≠ '.')
  let fp := (mant.dropWhile (· ≠ '.')).drop 1
  let digits := ip ++ fp
  if digits.isEmpty || !digits.all Char.isDigit then failure
  let n ← (String.ofList digits).toNat?
  let e := exp - fp.length
  let f := if e < 0 then Float.ofScientific n true e.natAbs else Float.ofScientific n false e.natAbs
  let f := if neg then -f else f
  some f.toBits.toBitVec

def env : Env where
  xidStart := isIdStart
  xidContinue c := isIdStart c || c.isDigit || c == '_'
  width s := s.length + (s.filter symbol).length
  parseF64 := parseFloat
  showF64 b := [(trimZeros (toString (Float.ofBits ⟨b⟩))).toList]
  toF32 b := (Float.ofBits ⟨b⟩).toFloat32.toBits.toBitVec
  ofF32 b := (Float32.ofBits ⟨b⟩).toFloat.toBits.toBitVec
  usizeBits := 64

def S (s : String) : Value := .string s.toList
def F (f : Float) : Value := .float f.toBits.toBitVec
def M (l : List (String × Value)) : Value := .map (BMap.ofList (l.map fun (k, v) => (k.toList, v)))
def falsy : List Value := [.none, .bool false, .integer 0, F 0.0, S "", .list [], .map []]
def truthy : List Value := [.bool true, .integer 1337, F 13.37, S "testing", .list [.integer 1, .integer 2, .integer 3], M [("a", .integer 1), ("b", .integer 2)]]

inductive Setup where
  | tmpl (name src : String)
  | filter (name : String) (f : Filter)
  | formatter (name : String) (f : Formatter)
  | default (f : Formatter)
  | depth (n : Nat)

def setup (e : Engine) : List Setup → Engine
  | [] => e
  | .tmpl n s :: r => setup (e.addTemplate env n.toList s.toList).1 r
  | .filter n f :: r => setup (e.addFilter n.toList f).1 r
  | .formatter n f :: r => setup (e.addFormatter n.toList f).1 r
  | .default f :: r => setup (e.setDefaultFormatter f) r
  | .depth n :: r => setup (e.setMaxIncludeDepth n) r

inductive Src where
  | text (s : String)
  | named (n : String)

/-- Outcomes as the tests see them: output, or the two displays of the error. -/
inductive Out where
  | ok (s : String)
  | err (short long : String)
  | crash
  | timeout
deriving DecidableEq, Repr

def ofErr (e : Err) : Out := .err (String.ofList (e.display env false)) (String.ofList (e.display env true))

def go (b : Option SyntaxBuilder) (ss : List Setup) (src : Src) (g : Globals) (depth : Option Nat) : Out :=
  match (match b with | none => Engine.new env | some b => Engine.withSyntax env b.build) with
  | none => .crash
  | some e =>
    let e := setup e ss
    match (match src with | .text s => (e.compile env s.toList).bind (fun t => .ok (t, none)) | .named n => (e.template n.toList).bind fun t => .ok (t, some n.toList)) with
    | .crash => .crash
    | .err x => ofErr x
    | .ok (t, n) =>
      let r := Renderer.new e t n g
      let r := match depth with | some d => r.withMaxIncludeDepth d | none => r
      match r.base with
      | .crash => .crash
      | .err x => ofErr x
      | .ok b =>
        match run (r.cfg env stringSink) 100000 (initVM r.template r.name b []) with
        | none => .timeout
        | some (.ok w) => .ok (String.ofList w.out)
        | some (.err x _) => ofErr x
        | some .crash => .crash

/-- `to_writer` with the writer of tests/helpers/writer.rs. -/
def goW (max : Nat) (src : String) (g : Globals) : Out × String :=
  match Engine.new env with
  | none => (.crash, "")
  | some e =>
    match e.compile env src.toList with
    | .crash => (.crash, "")
    | .err x => (ofErr x, "")
    | .ok t =>
      let io : IoWriter (Nat × List UInt8) := ⟨fun (c, b) x => if c + 1 > max then ((c + 1, b), some 98) else ((c + 1, b ++ x), none)⟩
      let r := Renderer.new e t none g
      match r.base with
      | .crash => (.crash, "")
      | .err x => (ofErr x, "")
      | .ok b =>
        match run (r.cfg env (writerSink io)) 100000 (initVM r.template r.name b ((0, []), none)) with
        | none => (.timeout, "")
        | some (.ok w) => (.ok "", String.fromUTF8! ⟨w.out.1.2.toArray⟩)
        | some (.err x w) => (ofErr ((w.out.2.map Err.ofIo).getD x), "")
        | some .crash => (.crash, "")

def compiles (b : Option SyntaxBuilder) (s : String) : Out :=
  match (match b with | none => Engine.new env | some b => Engine.withSyntax env b.build) with
  | none => .crash
  | some e => match e.compile env s.toList with | .ok _ => .ok "" | .err x => ofErr x | .crash => .crash

def writes : List String → FmtProg
  | [] => .done (.ok ())
  | s :: ss => .write s.toList fun ok => if ok then writes ss else .done (.error none)

partial def debug : Value → String
  | .none => "None"
  | .bool b => s!"Bool({b})"
  | .integer i => s!"Integer({i})"
  | .float f => s!"Float({Float.ofBits ⟨f⟩})"
  | .string s => s!"String(\"{String.ofList s}\")"
  | .list l => "List([" ++ ", ".intercalate (l.map debug) ++ "])"
  | .map m => "Map({" ++ ", ".intercalate (m.map fun (k, v) => s!"\"{String.ofList k}\": {debug v}") ++ "})"

def text : Value → String
  | .string s => String.ofList s
  | _ => "?"

/-- `format_list` of tests/render.rs. -/
def formatList : Formatter
  | .list l => writes (l.map text |>.intersperse ";")
  | _ => .done (.error (some "expected list"))
def debugFmt : Formatter := fun v => writes [debug v ++ "\n"]
def nothing : Formatter := fun _ => .done (.ok ())

def str1 (t : ArgTy) (f : String → String) : Filter := ⟨t, [], fun v _ => match v with | .str s => .ok (S (f (String.ofList s))) | _ => .error "?"⟩
def strs (t : ArgTy) (ts : List ArgTy) (f : List String → String) : Filter := ⟨t, ts, fun v as =>
  .ok (S (f ((v :: as).map fun | .str s => String.ofList s | _ => "?")))⟩
def id_ (t : ArgTy) (ts : List ArgTy) : Filter := ⟨t, ts, fun v _ => match v with
  | .value v => .ok v | .str s => .ok (.string s) | .bool b => .ok (.bool b) | _ => .error "?"⟩

def valueFn : ValueFn := fun path =>
  let rec go : List String → List ValueMember → Bool → Except String Value
    | [], _, _ => .ok (S "test")
    | _ :: _, [], prev => if prev then .ok .none else .error "not found"
    | s :: ss, m :: ms, _ =>
      let opt := m.op == .optional
      if (match m.access with | .key k => k == s.toList | _ => false) then go ss ms opt
      else if opt then .ok .none else .error "not found"
  go ["ipsum", "dolor"] path false

def check (name : String) (got want : Out) : IO Unit :=
  if got = want then IO.println s!"pass {name}" else IO.println s!"FAIL {name}\n got {repr got}\n want {repr want}"

/-- The tokens of a text in the default syntax, as in the tests of src/compile/lex.rs. -/
def lexAll (src : String) : Out :=
  match AC.new Syn.default with
  | none => .err "automaton" ""
  | some a =>
    let rec go : Nat → Lexer → List (Token × String) → Out
      | 0, _, _ => .err "fuel" ""
      | n + 1, lx, acc => match Upon.Lexer.lex ⟨env, a, src.toList⟩ lx with
        | .ok (some (t, sp), lx) => go n lx (acc ++ [(t, String.ofList ((slice src.toList sp.m sp.n).getD "?".toList))])
        | .ok (none, _) => .ok (toString (repr acc))
        | _ => .err "error" ""
    go (10 * src.length + 10) Lexer.new []
/-- `find_iter`, src/compile/search/ahocorasick/mod.rs:271-290, and `take(10)`. -/
def findAll (ps : List String) (hay : String) : Out :=
  match AC.build ((List.range ps.length).zip (ps.map fun p => utf8 p.toList)) with
  | none => .err "automaton" ""
  | some a =>
    let h := utf8 hay.toList
    let rec go : Nat → Nat → List (Nat × Nat × Nat) → List (Nat × Nat × Nat)
      | 0, _, acc => acc
      | n + 1, pos, acc => if pos > h.length then acc else match AC.findAt a h pos with
        | some (some m) => go n (if m.end_ = pos then pos + 1 else m.end_) (acc ++ [(m.pattern.id, m.end_ - m.pattern.len, m.end_)])
        | _ => acc
    .ok (toString (repr (go 10 0 [])))

end Conf
