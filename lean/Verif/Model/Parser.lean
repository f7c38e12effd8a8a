import Verif.Model.Lexer
import Verif.Model.Ast
/-
The parser (src/compile/parse.rs).
-/
namespace Upon

/-- Models `enum Keyword`, src/compile/parse.rs:73-87. -/
inductive Keyword where
  | if_ | not_ | else_ | endif | for_ | in_ | endfor | with_ | as_ | endwith | include_ | true_ | false_
deriving DecidableEq, Repr

/-- Models `Keyword::human`, src/compile/parse.rs:868-884. -/
def Keyword.human : Keyword → String
  | .if_ => "if" | .not_ => "not" | .else_ => "else" | .endif => "endif" | .for_ => "for"
  | .in_ => "in" | .endfor => "endfor" | .with_ => "with" | .as_ => "as" | .endwith => "endwith"
  | .include_ => "include" | .true_ => "true" | .false_ => "false"

/-- Models `Keyword::from_str`, src/compile/parse.rs:886-903; `none` is `unreachable!()`. -/
def Keyword.fromStr (s : Str) : Option Keyword :=
  if s = "if".toList then some .if_
  else if s = "not".toList then some .not_
  else if s = "else".toList then some .else_
  else if s = "endif".toList then some .endif
  else if s = "for".toList then some .for_
  else if s = "in".toList then some .in_
  else if s = "endfor".toList then some .endfor
  else if s = "with".toList then some .with_
  else if s = "as".toList then some .as_
  else if s = "endwith".toList then some .endwith
  else if s = "include".toList then some .include_
  else if s = "true".toList then some .true_
  else if s = "false".toList then some .false_
  else none

/-- Models `enum Sign`, src/compile/parse.rs:90-93. -/
inductive Sign where
  | neg | pos
deriving DecidableEq, Repr

/-- Models `struct Parser`, src/compile/parse.rs:13-19. -/
structure Parser where
  tokens : Lexer
  peeked : Option (Option (Token × Span))
deriving DecidableEq, Repr

/-- Models `Parser::new`, src/compile/parse.rs:97-102. -/
def Parser.new : Parser := { tokens := Lexer.new, peeked := none }

/-- Models the parser's `enum State`, src/compile/parse.rs:22-56. -/
inductive BlockFrame where
  | if_ (isElseIf : Bool) (not_ : Bool) (cond : Expr) (span : Span) (hasElse : Bool)
  | for_ (vars : LoopVars) (iterable : Expr) (span : Span)
  | with_ (expr : Expr) (name : Ident) (span : Span)
deriving Repr

/-- Models `enum Block`, src/compile/parse.rs:59-69. -/
inductive Block where
  | if_ (not_ : Bool) (cond : Expr)
  | else_
  | elseIf (not_ : Bool) (cond : Expr)
  | endif
  | for_ (vars : LoopVars) (iterable : Expr)
  | endfor
  | with_ (expr : Expr) (name : Ident)
  | endwith
  | include_ (name : AstString) (globals : Option Expr)
deriving Repr

namespace Parser
variable (cx : LexCx)

/-- Models `Parser::next`, src/compile/parse.rs:834-839. -/
def next (p : Parser) : Res (Option (Token × Span) × Parser) :=
  match p.peeked with
  | some v => pure (v, { p with peeked := none })
  | none => do
    let (t, lx) ← Lexer.nextToken cx p.tokens
    pure (t, { p with tokens := lx })

/-- Models `Parser::peek`, src/compile/parse.rs:826-831. -/
def peek (p : Parser) : Res (Option (Token × Span) × Parser) :=
  match p.peeked with
  | some v => pure (v, p)
  | none => do
    let (t, lx) ← Lexer.nextToken cx p.tokens
    pure (t, { tokens := lx, peeked := some t })

/-- Models `err_unexpected_eof`, src/compile/parse.rs:845-848. -/
def errUnexpectedEof {α : Type} (exp : String) : Res α :=
  let n := blen cx.source
  errSyntax cx.env s!"expected {exp}, found EOF" cx.source ⟨n, n⟩

/-- Models `err_unexpected_token`, src/compile/parse.rs:850-853. -/
def errUnexpectedToken {α : Type} (exp : String) (got : Token) (span : Span) : Res α :=
  errSyntax cx.env s!"expected {exp}, found {got.human}" cx.source span

/-- Models `err_unexpected_keyword`, src/compile/parse.rs:855-857. -/
def errUnexpectedKeyword {α : Type} (kw : String) (span : Span) : Res α :=
  errSyntax cx.env s!"unexpected keyword `{kw}`" cx.source span

/-- Models `&self.source()[span]`. -/
def text (span : Span) : Res Str := .ofOption (span.of cx.source)

/-- Models `Parser::parse`, src/compile/parse.rs:795-800. -/
def parse (p : Parser) : Res ((Token × Span) × Parser) := do
  match ← next cx p with
  | (some t, p) => pure (t, p)
  | (none, _) => errUnexpectedEof cx "token"

/-- Models `Parser::expect`, src/compile/parse.rs:803-809. -/
def expect (p : Parser) (exp : Token) : Res (Span × Parser) := do
  match ← next cx p with
  | (some (tk, span), p) =>
    if tk = exp then pure (span, p) else errUnexpectedToken cx exp.human tk span
  | (none, _) => errUnexpectedEof cx exp.human

/-- Models `Parser::is_next`, src/compile/parse.rs:820-822. -/
def isNext (p : Parser) (tk : Token) : Res (Bool × Parser) := do
  match ← peek cx p with
  | (some (t, _), p) => pure (t = tk, p)
  | (none, p) => pure (false, p)

/-- Models `Parser::is_next_keyword`, src/compile/parse.rs:812-817. -/
def isNextKeyword (p : Parser) (exp : Keyword) : Res (Bool × Parser) := do
  match ← peek cx p with
  | (some (t, sp), p) =>
    if t = .keyword then do
      let s ← text cx sp
      let kw ← Res.ofOption (Keyword.fromStr s)
      pure (kw = exp, p)
    else pure (false, p)
  | (none, p) => pure (false, p)

/-- Models `Parser::parse_keyword`, src/compile/parse.rs:782-786. -/
def parseKeyword (p : Parser) : Res ((Keyword × Span) × Parser) := do
  let (span, p) ← expect cx p .keyword
  let s ← text cx span
  let kw ← Res.ofOption (Keyword.fromStr s)
  pure ((kw, span), p)

/-- Models `Parser::expect_keyword`, src/compile/parse.rs:767-779. -/
def expectKeyword (p : Parser) (exp : Keyword) : Res (Span × Parser) := do
  let ((kw, span), p) ← parseKeyword cx p
  if kw ≠ exp then
    errSyntax cx.env s!"expected keyword `{exp.human}`, found keyword `{kw.human}`" cx.source span
  else pure (span, p)

/-- Models `Parser::parse_ident`, src/compile/parse.rs:789-792. -/
def parseIdent (p : Parser) : Res (Ident × Parser) := do
  let (span, p) ← expect cx p .ident
  pure (⟨span⟩, p)

/-- The loop of `parse_string`, src/compile/parse.rs:734-758, over the remaining characters, whose
first one is at byte offset `i`; `acc` is the string built so far (reversed). -/
def unescape (i : Nat) (acc : Str) : Str → Res Str
  | [] => pure acc.reverse
  | c :: rest =>
    if c = '"' then unescape (i + c.utf8Size) acc rest
    else if c = '\\' then
      match rest with
      | [] => .crash
      | esc :: rest' =>
        if esc = 'n' then unescape (i + 1 + esc.utf8Size) ('\n' :: acc) rest'
        else if esc = 'r' then unescape (i + 1 + esc.utf8Size) ('\r' :: acc) rest'
        else if esc = 't' then unescape (i + 1 + esc.utf8Size) ('\t' :: acc) rest'
        else if esc = '\\' then unescape (i + 1 + esc.utf8Size) ('\\' :: acc) rest'
        else if esc = '"' then unescape (i + 1 + esc.utf8Size) ('"' :: acc) rest'
        else
          match rest' with
          | [] => .crash
          | _ :: _ =>
            errSyntax cx.env "unknown escape character" cx.source
              ⟨i + 1, i + 1 + esc.utf8Size⟩
    else unescape (i + c.utf8Size) (c :: acc) rest

/-- Models `Parser::parse_string`, src/compile/parse.rs:729-764. -/
def parseString (span : Span) : Res Str := do
  let raw ← text cx span
  if '\\' ∈ raw then unescape cx span.m [] raw
  else if 1 ≤ blen raw then Res.ofOption (slice raw 1 (blen raw - 1)) else .crash

/-- Models `char::to_digit(radix)`, used at src/compile/parse.rs:684. -/
def toDigit (radix : Nat) (c : Char) : Option Nat :=
  let n := c.toNat
  let d :=
    if '0' ≤ c ∧ c ≤ '9' then some (n - 48)
    else if 'a' ≤ c ∧ c ≤ 'z' then some (n - 97 + 10)
    else if 'A' ≤ c ∧ c ≤ 'Z' then some (n - 65 + 10)
    else none
  d.bind fun d => if d < radix then some d else none

/-- The `try_fold` of `parse_literal_integer`, src/compile/parse.rs:679-705, over the digits that
remain; `j` is the number of digits already seen. The digits are bytes in Rust; number tokens
are ASCII (src/compile/lex.rs:557), so the model uses characters. -/
def foldDigits (span : Span) (sign : Sign) (i radix : Nat) : Nat → Int → Str → Res Int
  | _, acc, [] => pure acc
  | j, acc, d :: rest =>
    if d = '_' then foldDigits span sign i radix (j + 1) acc rest
    else
      match toDigit radix d with
      | none =>
        errSyntax cx.env s!"invalid digit for base {radix} literal" cx.source
          ⟨span.m + i + j, span.m + i + j + 1⟩
      | some x =>
        let value := acc * radix
        if !inI64 value then
          errSyntax cx.env s!"base {radix} literal out of range for 64-bit integer" cx.source span
        else
          let value' := match sign with
            | .pos => value + x
            | .neg => value - x
          if !inI64 value' then
            errSyntax cx.env s!"base {radix} literal out of range for 64-bit integer" cx.source span
          else foldDigits span sign i radix (j + 1) value' rest

/-- The radix prefix, src/compile/parse.rs:673-678. -/
def radixOf : Str → Nat × Nat
  | '0' :: 'b' :: _ => (2, 2)
  | '0' :: 'o' :: _ => (2, 8)
  | '0' :: 'x' :: _ => (2, 16)
  | _ => (0, 10)

/-- Models `parse_literal_integer`, src/compile/parse.rs:671-708. -/
def parseLiteralInteger (raw : Str) (span : Span) (sign : Sign) : Res Literal := do
  let (i, radix) := radixOf raw
  let int ← foldDigits cx span sign i radix 0 0 (raw.drop i)
  pure { value := .integer int, span }

/-- Negation of an `f64` given by its bits: the sign bit is flipped. -/
def negF64 (f : BitVec 64) : BitVec 64 := f ^^^ 0x8000000000000000#64

/-- Models `parse_literal_float`, src/compile/parse.rs:711-720. -/
def parseLiteralFloat (raw : Str) (span : Span) (sign : Sign) : Res Literal :=
  match cx.env.parseF64 raw with
  | none => errSyntax cx.env "invalid float literal" cx.source span
  | some f =>
    pure { value := .float (match sign with | .neg => negF64 f | .pos => f), span }

/-- Models `parse_literal_number`, src/compile/parse.rs:649-668. -/
def parseLiteralNumber (raw : Str) (span : Span) (sign : Sign) : Res Literal :=
  match parseLiteralInteger cx raw span sign with
  | .ok lit => .ok lit
  | .crash => .crash
  | .err err =>
    match parseLiteralFloat cx raw span sign with
    | .ok lit => .ok lit
    | .crash => .crash
    | .err err2 => if '.' ∈ raw ∨ '-' ∈ raw ∨ '+' ∈ raw then .err err2 else .err err

/-- Models `parse_literal_string`, src/compile/parse.rs:723-726. -/
def parseLiteralString (span : Span) : Res Literal := do
  let s ← parseString cx span
  pure { value := .string s, span }

/-- Models `parse_literal_bool`, src/compile/parse.rs:636-646. -/
def parseLiteralBool (span : Span) : Res Literal := do
  let s ← text cx span
  if s = "false".toList then pure { value := .bool false, span }
  else if s = "true".toList then pure { value := .bool true, span }
  else errUnexpectedKeyword cx (String.ofList s) span

/-- Models `str::parse::<usize>` on a string of ASCII digits, as used at src/compile/parse.rs:576;
`none` is the overflow error. -/
def parseUsize (env : Env) (s : Str) : Option Nat :=
  let n := s.foldl (fun acc c => acc * 10 + (c.toNat - 48)) 0
  if n < 2 ^ env.usizeBits then some n else none

/-- Models `parse_access`, src/compile/parse.rs:573-594. -/
def parseAccess (p : Parser) : Res (Access × Parser) := do
  match ← parse cx p with
  | ((.index, span), p) =>
    let s ← text cx span
    match parseUsize cx.env s with
    | some value => pure (.index ⟨value, span⟩, p)
    | none =>
      errSyntax cx.env
        s!"base 10 literal out of range for unsigned {cx.env.usizeBits}-bit integer" cx.source span
  | ((.ident, span), p) => pure (.key ⟨span⟩, p)
  | ((tk, span), _) => errUnexpectedToken cx "identifier or index" tk span

/-- The loop of `parse_var`, src/compile/parse.rs:535-560, with fuel; `path` are the members after
the first. -/
def parseVarLoop : Nat → List Member → Parser → Res (List Member × Parser)
  | 0, _, _ => .crash
  | fuel + 1, path, p => do
    match ← peek cx p with
    | (some (.dot, sp), p) => do
      let (_, p) ← expect cx p .dot
      let (access, p) ← parseAccess cx p
      parseVarLoop fuel (path ++ [{ op := .direct, access, span := sp.combine access.span }]) p
    | (some (.questionDot, sp), p) => do
      let (_, p) ← expect cx p .questionDot
      let (access, p) ← parseAccess cx p
      parseVarLoop fuel (path ++ [{ op := .optional, access, span := sp.combine access.span }]) p
    | (_, p) => pure (path, p)

/-- Enough fuel for any loop of the parser that consumes a token per iteration. -/
def fuel : Nat := blen cx.source + 2

/-- Models `parse_var`, src/compile/parse.rs:534-561. -/
def parseVar (first : Member) (p : Parser) : Res (Var × Parser) := do
  let (rest, p) ← parseVarLoop cx (fuel cx) [] p
  pure ({ first, rest }, p)

/-- Models `parse_base_expr`, src/compile/parse.rs:479-524. -/
def parseBaseExpr (p : Parser) : Res (BaseExpr × Parser) := do
  match ← parse cx p with
  | ((.keyword, span), p) => do
    let lit ← parseLiteralBool cx span
    pure (.lit lit, p)
  | ((.minus, sign), p) => do
    let (span, p) ← expect cx p .number
    let raw ← text cx span
    let lit ← parseLiteralNumber cx raw (sign.combine span) .neg
    pure (.lit lit, p)
  | ((.plus, sign), p) => do
    let (span, p) ← expect cx p .number
    let raw ← text cx span
    let lit ← parseLiteralNumber cx raw (sign.combine span) .pos
    pure (.lit lit, p)
  | ((.number, span), p) => do
    let raw ← text cx span
    let lit ← parseLiteralNumber cx raw span .pos
    pure (.lit lit, p)
  | ((.string, span), p) => do
    let lit ← parseLiteralString cx span
    pure (.lit lit, p)
  | ((.ident, span), p) => do
    let (var, p) ← parseVar cx { op := .direct, access := .key ⟨span⟩, span } p
    pure (.var var, p)
  | ((tk, span), _) => errUnexpectedToken cx "expression" tk span

/-- The loop of `parse_args`, src/compile/parse.rs:603-610, with fuel. -/
def parseArgsLoop : Nat → List BaseExpr → Parser → Res (List BaseExpr × Parser)
  | 0, _, _ => .crash
  | fuel + 1, values, p => do
    let (e, p) ← parseBaseExpr cx p
    let values := values ++ [e]
    let (b, p) ← isNext cx p .comma
    if !b then pure (values, p)
    else do
      let (_, p) ← expect cx p .comma
      parseArgsLoop fuel values p

/-- Models `parse_args`, src/compile/parse.rs:602-613. -/
def parseArgs (span : Span) (p : Parser) : Res (Args × Parser) := do
  let (values, p) ← parseArgsLoop cx (fuel cx) [] p
  let last ← Res.ofOption values.getLast?
  pure ({ values, span := span.combine last.span }, p)

/-- The loop of `parse_expr`, src/compile/parse.rs:446-463, with fuel. -/
def parseExprLoop : Nat → Expr → Parser → Res (Expr × Parser)
  | 0, _, _ => .crash
  | fuel + 1, expr, p => do
    let (b, p) ← isNext cx p .pipe
    if !b then pure (expr, p)
    else do
      let (_, p) ← expect cx p .pipe
      let (name, p) ← parseIdent cx p
      let (c, p) ← isNext cx p .colon
      if c then do
        let (span, p) ← expect cx p .colon
        let (args, p) ← parseArgs cx span p
        parseExprLoop fuel (.call name (some args) expr (expr.span.combine args.span)) p
      else
        parseExprLoop fuel (.call name none expr (expr.span.combine name.span)) p

/-- Models `parse_expr`, src/compile/parse.rs:444-465. -/
def parseExpr (p : Parser) : Res (Expr × Parser) := do
  let (b, p) ← parseBaseExpr cx p
  parseExprLoop cx (fuel cx) (.base b) p

/-- Models `parse_if_cond`, src/compile/parse.rs:427-436. -/
def parseIfCond (p : Parser) : Res ((Bool × Expr) × Parser) := do
  let (b, p) ← isNextKeyword cx p .not_
  if b then do
    let (_, p) ← expectKeyword cx p .not_
    let (e, p) ← parseExpr cx p
    pure ((true, e), p)
  else do
    let (e, p) ← parseExpr cx p
    pure ((false, e), p)

/-- Models `parse_loop_vars`, src/compile/parse.rs:624-633. -/
def parseLoopVars (p : Parser) : Res (LoopVars × Parser) := do
  let (key, p) ← parseIdent cx p
  let (b, p) ← isNext cx p .comma
  if !b then pure (.item key, p)
  else do
    let (_, p) ← expect cx p .comma
    let (value, p) ← parseIdent cx p
    pure (.keyValue key value (key.span.combine value.span), p)

/-- Models `parse_block`, src/compile/parse.rs:374-419. -/
def parseBlock (p : Parser) : Res (Block × Parser) := do
  let ((kw, span), p) ← parseKeyword cx p
  match kw with
  | .if_ => do
    let ((not_, e), p) ← parseIfCond cx p
    pure (.if_ not_ e, p)
  | .else_ => do
    let (b, p) ← isNextKeyword cx p .if_
    if b then do
      let (_, p) ← expectKeyword cx p .if_
      let ((not_, e), p) ← parseIfCond cx p
      pure (.elseIf not_ e, p)
    else pure (.else_, p)
  | .endif => pure (.endif, p)
  | .for_ => do
    let (vars, p) ← parseLoopVars cx p
    let (_, p) ← expectKeyword cx p .in_
    let (iterable, p) ← parseExpr cx p
    pure (.for_ vars iterable, p)
  | .endfor => pure (.endfor, p)
  | .with_ => do
    let (e, p) ← parseExpr cx p
    let (_, p) ← expectKeyword cx p .as_
    let (name, p) ← parseIdent cx p
    pure (.with_ e name, p)
  | .endwith => pure (.endwith, p)
  | .include_ => do
    let (span, p) ← expect cx p .string
    let name ← parseString cx span
    let (b, p) ← isNextKeyword cx p .with_
    if b then do
      let (_, p) ← expectKeyword cx p .with_
      let (g, p) ← parseExpr cx p
      pure (.include_ ⟨name, span⟩ (some g), p)
    else pure (.include_ ⟨name, span⟩ none, p)
  | kw => errUnexpectedKeyword cx kw.human span

/-- The two stacks of `parse_template`, src/compile/parse.rs:110-111: the open blocks and the
statement lists being collected. Both are kept with the top (Rust's last element) first, and
statement lists reversed (a push is a cons). -/
structure Stacks where
  blocks : List BlockFrame
  scopes : List (List Stmt)
deriving Repr

/-- Models `scopes.last_mut().unwrap().stmts.push(stmt)`, src/compile/parse.rs:338 and 246. -/
def pushStmt (scopes : List (List Stmt)) (s : Stmt) : Res (List (List Stmt)) :=
  match scopes with
  | [] => .crash
  | top :: rest => pure ((s :: top) :: rest)

/-- The loop that closes an `if` and its `else if` clauses, src/compile/parse.rs:226-250; the
result is the finished statement and the remaining stacks. `err` is the error to raise. -/
def closeIf (err : Res (Stmt × Stacks)) : List BlockFrame → List (List Stmt) → Res (Stmt × Stacks)
  | [], _ => err
  | .if_ isElseIf not_ cond _ hasElse :: blocks, scopes => do
    let (else_, scopes) ← (if hasElse then
        match scopes with
        | [] => Res.crash
        | s :: scopes => pure (some s.reverse, scopes)
      else pure (none, scopes) : Res (Option (List Stmt) × List (List Stmt)))
    match scopes with
    | [] => .crash
    | then_ :: scopes =>
      let stmt := Stmt.ifElse not_ cond then_.reverse else_
      if !isElseIf then pure (stmt, { blocks, scopes })
      else do
        let scopes ← pushStmt scopes stmt
        closeIf err blocks scopes
  | _ :: _, _ => err

/-- Models the `match block` of `parse_template`, src/compile/parse.rs:139-332: either a finished
statement (to be pushed) or `continue` (`none`). -/
def handleBlock (span : Span) (st : Stacks) : Block → Res (Option Stmt × Stacks)
  | .if_ not_ cond =>
    pure (none, { blocks := .if_ false not_ cond span false :: st.blocks, scopes := [] :: st.scopes })
  | .elseIf not_ cond =>
    match st.blocks with
    | .if_ ie nt c sp false :: blocks =>
      pure (none, { blocks := .if_ true not_ cond span false :: .if_ ie nt c sp true :: blocks,
                    scopes := [] :: [] :: st.scopes })
    | _ => errSyntax cx.env "unexpected `else if` block" cx.source span
  | .else_ =>
    match st.blocks with
    | .if_ ie nt c sp false :: blocks =>
      pure (none, { blocks := .if_ ie nt c sp true :: blocks, scopes := [] :: st.scopes })
    | _ => errSyntax cx.env "unexpected `else` block" cx.source span
  | .endif => do
    let (stmt, st) ← closeIf (errSyntax cx.env "unexpected `endif` block" cx.source span)
      st.blocks st.scopes
    pure (some stmt, st)
  | .for_ vars iterable =>
    pure (none, { blocks := .for_ vars iterable span :: st.blocks, scopes := [] :: st.scopes })
  | .endfor =>
    match st.blocks with
    | .for_ vars iterable _ :: blocks =>
      match st.scopes with
      | [] => .crash
      | body :: scopes => pure (some (.forLoop vars iterable body.reverse), { blocks, scopes })
    | _ => errSyntax cx.env "unexpected `endfor` block" cx.source span
  | .with_ e name =>
    pure (none, { blocks := .with_ e name span :: st.blocks, scopes := [] :: st.scopes })
  | .endwith =>
    match st.blocks with
    | .with_ e name _ :: blocks =>
      match st.scopes with
      | [] => .crash
      | body :: scopes => pure (some (.with_ e name body.reverse), { blocks, scopes })
    | _ => errSyntax cx.env "unexpected `endwith` block" cx.source span
  | .include_ name globals => pure (some (.include_ name globals), st)

/-- One iteration of the loop of `parse_template`, src/compile/parse.rs:113-338, given its token. -/
def parseItem (tk : Token) (sp : Span) (st : Stacks) (p : Parser) : Res (Stacks × Parser) :=
  match tk with
  | .raw => do
    let scopes ← pushStmt st.scopes (.raw sp)
    pure ({ st with scopes }, p)
  | .beginComment => do
    let (_, p) ← expect cx p .raw
    let (_, p) ← expect cx p .endComment
    pure (st, p)
  | .beginExpr => do
    let (e, p) ← parseExpr cx p
    let (end_, p) ← expect cx p .endExpr
    let scopes ← pushStmt st.scopes (.inlineExpr e (sp.combine end_))
    pure ({ st with scopes }, p)
  | .beginBlock => do
    let (block, p) ← parseBlock cx p
    let (end_, p) ← expect cx p .endBlock
    match ← handleBlock cx (sp.combine end_) st block with
    | (some stmt, st) => do
      let scopes ← pushStmt st.scopes stmt
      pure ({ st with scopes }, p)
    | (none, st) => pure (st, p)
  | _ => .crash

/-- The span and message for an unclosed block, src/compile/parse.rs:341-348. -/
def BlockFrame.unclosed : BlockFrame → String × Span
  | .if_ _ _ _ sp _ => ("unclosed `if` block", sp)
  | .for_ _ _ sp => ("unclosed `for` block", sp)
  | .with_ _ _ sp => ("unclosed `with` block", sp)

/-- The loop of `parse_template`, src/compile/parse.rs:113-357, with fuel. -/
def parseLoop : Nat → Stacks → Parser → Res (List Stmt)
  | 0, _, _ => .crash
  | fuel + 1, st, p => do
    match ← next cx p with
    | (some (tk, sp), p) => do
      let (st, p) ← parseItem cx tk sp st p
      parseLoop fuel st p
    | (none, _) =>
      match st.blocks.getLast? with
      | some b =>
        let (msg, span) := BlockFrame.unclosed b
        errSyntax cx.env msg cx.source span
      | none =>
        match st.scopes with
        | [scope] => pure scope.reverse
        | _ => .crash

/-- Models `Parser::parse_template`, src/compile/parse.rs:109-358. -/
def parseTemplate : Res (List Stmt) :=
  parseLoop cx (fuel cx) { blocks := [], scopes := [[]] } Parser.new

end Parser
end Upon
