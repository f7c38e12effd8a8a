import Verif.Model.Engine
/-
Every error of the compiler is a syntax error with a location in the source.
-/
namespace Upon

/-- If this fails then with a syntax error located at some range of the source. -/
structure Located (cx : LexCx) {α : Type} (x : Res α) : Prop where
  located : ∀ e, x = .err e → ∃ reason sp p, Pretty.build cx.env cx.source sp = some p ∧
    e = ⟨.syntax, none, some reason, some p⟩

namespace Located
variable {cx : LexCx} {α β : Type}

theorem ok (a : α) : Located cx (.ok a) := ⟨by intro e h; cases h⟩
theorem pure (a : α) : Located cx (Pure.pure a : Res α) := ⟨by intro e h; cases h⟩
theorem crash : Located cx (.crash : Res α) := ⟨by intro e h; cases h⟩
theorem ofOption (o : Option α) : Located cx (Res.ofOption o) := ⟨by intro e h; cases o <;> cases h⟩

theorem err (m : String) (sp : Span) : Located cx (errSyntax cx.env m cx.source sp : Res α) := by
  constructor
  intro e h
  simp only [errSyntax, throwAt] at h
  split at h
  · next p hp => injection h with h; exact ⟨m, sp, p, hp, h.symm⟩
  · cases h

theorem bind {x : Res α} {f : α → Res β} (hx : Located cx x) (hf : ∀ a, Located cx (f a)) :
    Located cx (x >>= f) := by
  constructor
  intro e h
  cases x with
  | ok a => exact (hf a).1 e h
  | err e' => injection h with h; subst h; exact hx.1 _ rfl
  | crash => cases h

end Located

open Located in
macro "located" : tactic => `(tactic| repeat' (first
  | with_reducible exact Located.ok _ | with_reducible exact Located.pure _
  | with_reducible exact Located.crash | with_reducible exact Located.ofOption _
  | with_reducible exact Located.err _ _ | intro _ | with_reducible (apply Located.bind) | split))

variable (cx : LexCx)

namespace Lexer

theorem located_findAt (i : Nat) : Located cx (findAt cx i) := by unfold findAt; located
theorem located_startsWith (i : Nat) : Located cx (startsWith cx i) := by unfold startsWith; located
theorem located_errUnclosed {α : Type} (b : Span) (e : Token) : Located cx (errUnclosed cx b e : Res α) := by
  unfold errUnclosed; located
theorem located_errUnexpectedToken {α : Type} (t : Token) (m n : Nat) :
    Located cx (errUnexpectedToken cx t m n : Res α) := by unfold errUnexpectedToken; located
theorem located_trimRawToken (lx : Lexer) (i j : Nat) (r : Bool) : Located cx (trimRawToken cx lx i j r) := by
  unfold trimRawToken; located

theorem located_lexTemplate (lx : Lexer) (i : Nat) : Located cx (lexTemplate cx lx i) := by
  have h1 := @located_findAt cx
  have h2 := @located_errUnexpectedToken cx
  have h3 := @located_trimRawToken cx
  unfold lexTemplate
  refine .bind (h1 _) fun a => ?_
  split
  · split
    split
    · exact h2 _ _ _
    · refine .bind (.ofOption _) fun a => ?_
      dsimp only
      refine iteInduction (fun _ => .pure _) (fun _ => h3 _ _ _ _)
  · exact h3 _ _ _ _

theorem located_lexString (i : Nat) (rest : Str) : ∀ (c : Char) (j : Nat), Located cx (lexString cx i c j rest) := by
  induction rest with
  | nil => intro c j; unfold lexString errUndelimitedString; located
  | cons d rest ih =>
    intro c j; unfold lexString errUndelimitedString
    split
    · located
    · split
      · located
      · exact ih _ _

theorem located_lexChar (bs : BlockState) (i : Nat) (c : Char) (rest : Str) : Located cx (lexChar cx bs i c rest) := by
  unfold lexChar
  iterate 6 (refine iteInduction (fun _ => .pure _) (fun _ => ?_))
  refine iteInduction (fun _ => ?_) (fun _ => ?_)
  · unfold lexQuestionDot errUnexpectedCharacter; located
  refine iteInduction (fun _ => located_lexString cx _ _ _ _) (fun _ => ?_)
  refine iteInduction (fun _ => ?_) (fun _ => ?_)
  · located
  refine iteInduction (fun _ => .pure _) (fun _ => ?_)
  refine iteInduction (fun _ => ?_) (fun _ => ?_)
  · unfold lexIdentOrKeyword; located
  · unfold errUnexpectedCharacter; located

theorem located_lexBlock (lx : Lexer) (bs : BlockState) (b : Span) (e : Token) (i : Nat) :
    Located cx (lexBlock cx lx bs b e i) := by
  unfold lexBlock
  refine .bind ?_ fun a => .pure _
  refine .bind (located_startsWith cx _) fun a => ?_
  split
  · split
    split
    · exact located_errUnclosed cx _ _
    · split
      · exact located_errUnexpectedToken cx _ _ _
      · exact .pure _
  · refine .bind (.ofOption _) fun a => ?_
    split
    · exact .crash
    · exact .bind (located_lexChar cx _ _ _ _) fun a => .pure _

theorem located_lexComment (lx : Lexer) (b : Span) (e : Token) (i : Nat) : Located cx (lexComment cx lx b e i) := by
  unfold lexComment
  refine .bind (located_findAt cx _) fun a => ?_
  split
  · split
    split
    · exact located_errUnclosed cx _ _
    · split
      · exact located_errUnexpectedToken cx _ _ _
      · split
        · exact .pure _
        · exact .pure _
  · exact .pure _

theorem located_lex (lx : Lexer) : Located cx (lex cx lx) := by
  unfold lex
  split
  · exact .pure _
  · refine .bind (.ofOption _) fun a => ?_
    split
    · exact .pure _
    · split
      · exact located_lexTemplate cx _ _
      · exact located_lexBlock cx _ _ _ _ _
      · exact located_lexBlock cx _ _ _ _ _
      · exact located_lexComment cx _ _ _ _

theorem located_nextLoop (n : Nat) : ∀ lx, Located cx (nextLoop cx n lx) := by
  induction n with
  | zero => intro lx; exact .crash
  | succ n ih =>
    intro lx
    unfold nextLoop
    refine .bind (located_lex cx _) fun a => ?_
    split
    · split
      · exact ih _
      · exact .pure _
    · exact .pure _

theorem located_nextToken (lx : Lexer) : Located cx (nextToken cx lx) := located_nextLoop cx _ lx

end Lexer

namespace Parser
open Lexer

theorem located_next (p : Parser) : Located cx (next cx p) := by
  have := located_nextToken cx
  unfold next; located; exact this _
theorem located_peek (p : Parser) : Located cx (peek cx p) := by
  have := located_nextToken cx
  unfold peek; located; exact this _

theorem located_parse (p : Parser) : Located cx (parse cx p) := by
  unfold parse errUnexpectedEof
  refine .bind (located_next cx _) ?_; located
theorem located_expect (p : Parser) (t : Token) : Located cx (expect cx p t) := by
  unfold expect errUnexpectedEof Parser.errUnexpectedToken
  refine .bind (located_next cx _) ?_; located
theorem located_isNext (p : Parser) (t : Token) : Located cx (isNext cx p t) := by
  unfold isNext
  refine .bind (located_peek cx _) ?_; located
theorem located_isNextKeyword (p : Parser) (t : Keyword) : Located cx (isNextKeyword cx p t) := by
  unfold isNextKeyword text
  refine .bind (located_peek cx _) ?_; located
theorem located_parseKeyword (p : Parser) : Located cx (parseKeyword cx p) := by
  unfold parseKeyword text
  refine .bind (located_expect cx _ _) ?_; located
theorem located_expectKeyword (p : Parser) (t : Keyword) : Located cx (expectKeyword cx p t) := by
  unfold expectKeyword
  refine .bind (located_parseKeyword cx _) ?_; located
theorem located_parseIdent (p : Parser) : Located cx (parseIdent cx p) := by
  unfold parseIdent
  refine .bind (located_expect cx _ _) ?_; located

theorem located_unescape (n : Nat) : ∀ (s : Str), s.length ≤ n → ∀ (i : Nat) (acc : Str),
    Located cx (unescape cx i acc s) := by
  induction n with
  | zero =>
    intro s hs i acc
    have : s = [] := by simpa using hs
    subst this
    rw [unescape.eq_def]; exact .pure _
  | succ n ih =>
    intro s hs i acc
    rw [unescape.eq_def]
    split
    · exact .pure _
    · next c rest =>
      simp at hs
      refine iteInduction (fun _ => ih _ hs _ _) (fun _ => ?_)
      refine iteInduction (fun _ => ?_) (fun _ => ih _ hs _ _)
      split
      · exact .crash
      · simp at hs
        iterate 5 (refine iteInduction (fun _ => ih _ (by omega) _ _) (fun _ => ?_))
        split
        · exact .crash
        · exact .err _ _

theorem located_parseString (sp : Span) : Located cx (parseString cx sp) := by
  have := fun i acc s => located_unescape cx _ s (Nat.le_refl _) i acc
  unfold parseString text
  refine .bind (.ofOption _) fun raw => ?_
  split
  · exact this _ _ _
  · located

theorem located_foldDigits (sp : Span) (sg : Sign) (i r : Nat) (s : Str) : ∀ (j : Nat) (acc : Int),
    Located cx (foldDigits cx sp sg i r j acc s) := by
  induction s with
  | nil => intro j acc; exact .pure _
  | cons d s ih =>
    intro j acc
    rw [foldDigits]
    refine iteInduction (fun _ => ih _ _) (fun _ => ?_)
    split
    · exact .err _ _
    · refine iteInduction (fun _ => .err _ _) (fun _ => ?_)
      refine iteInduction (fun _ => .err _ _) (fun _ => ih _ _)

theorem located_parseLiteralNumber (raw : Str) (sp : Span) (sg : Sign) :
    Located cx (parseLiteralNumber cx raw sp sg) := by
  have h1 : Located cx (parseLiteralInteger cx raw sp sg) := by
    unfold parseLiteralInteger
    exact .bind (located_foldDigits cx _ _ _ _ _ _ _) fun _ => .pure _
  have h2 : Located cx (parseLiteralFloat cx raw sp sg) := by
    unfold parseLiteralFloat
    split
    · exact .err _ _
    · exact .pure _
  unfold parseLiteralNumber
  split
  · exact .ok _
  · exact .crash
  · next e he =>
    split
    · exact .ok _
    · exact .crash
    · next e' he' =>
      split
      · constructor; rintro x ⟨⟩; exact h2.1 _ he'
      · constructor; rintro x ⟨⟩; exact h1.1 _ he

theorem located_parseAccess (p : Parser) : Located cx (parseAccess cx p) := by
  unfold parseAccess text Parser.errUnexpectedToken
  refine .bind (located_parse cx _) ?_; located

theorem located_parseVarLoop (n : Nat) : ∀ path p, Located cx (parseVarLoop cx n path p) := by
  induction n with
  | zero => intro path p; exact .crash
  | succ n ih =>
    intro path p
    unfold parseVarLoop
    refine .bind (located_peek cx _) fun _ => ?_
    split
    · exact .bind (located_expect cx _ _) fun _ => .bind (located_parseAccess cx _) fun _ => ih _ _
    · exact .bind (located_expect cx _ _) fun _ => .bind (located_parseAccess cx _) fun _ => ih _ _
    · exact .pure _

theorem located_parseBaseExpr (p : Parser) : Located cx (parseBaseExpr cx p) := by
  unfold parseBaseExpr text parseLiteralBool parseLiteralString parseVar errUnexpectedKeyword Parser.errUnexpectedToken text
  refine .bind (located_parse cx _) fun _ => ?_
  have h1 := located_parseLiteralNumber cx
  have h2 := located_parseString cx
  have h3 := located_parseVarLoop cx
  have h4 := located_expect cx
  split
  · located
  · exact .bind (h4 _ _) fun _ => .bind (.ofOption _) fun _ => .bind (h1 _ _ _) fun _ => .pure _
  · exact .bind (h4 _ _) fun _ => .bind (.ofOption _) fun _ => .bind (h1 _ _ _) fun _ => .pure _
  · exact .bind (.ofOption _) fun _ => .bind (h1 _ _ _) fun _ => .pure _
  · exact .bind (.bind (h2 _) fun _ => .pure _) fun _ => .pure _
  · exact .bind (.bind (h3 _ _ _) fun _ => .pure _) fun _ => .pure _
  · exact .err _ _

theorem located_parseArgsLoop (n : Nat) : ∀ vs p, Located cx (parseArgsLoop cx n vs p) := by
  induction n with
  | zero => intro vs p; exact .crash
  | succ n ih =>
    intro vs p
    unfold parseArgsLoop
    refine .bind (located_parseBaseExpr cx _) fun _ => .bind (located_isNext cx _ _) fun ⟨_, _⟩ => ?_
    dsimp only
    split
    · exact .pure _
    · exact .bind (located_expect cx _ _) fun _ => ih _ _

theorem located_parseExprLoop (n : Nat) : ∀ e p, Located cx (parseExprLoop cx n e p) := by
  induction n with
  | zero => intro e p; exact .crash
  | succ n ih =>
    intro e p
    unfold parseExprLoop parseArgs
    refine .bind (located_isNext cx _ _) fun ⟨_, _⟩ => ?_
    dsimp only
    split
    · exact .pure _
    · refine .bind (located_expect cx _ _) fun _ => .bind (located_parseIdent cx _) fun _ =>
        .bind (located_isNext cx _ _) fun ⟨_, _⟩ => ?_
      dsimp only
      split
      · refine .bind (located_expect cx _ _) fun _ => .bind ?_ fun _ => ih _ _
        exact .bind (located_parseArgsLoop cx _ _ _) fun _ => .bind (.ofOption _) fun _ => .pure _
      · exact ih _ _

theorem located_parseExpr (p : Parser) : Located cx (parseExpr cx p) := by
  unfold parseExpr
  exact .bind (located_parseBaseExpr cx _) fun _ => located_parseExprLoop cx _ _ _

theorem located_parseIfCond (p : Parser) : Located cx (parseIfCond cx p) := by
  unfold parseIfCond
  refine .bind (located_isNextKeyword cx _ _) fun ⟨_, _⟩ => ?_
  dsimp only
  split
  · exact .bind (located_expectKeyword cx _ _) fun _ => .bind (located_parseExpr cx _) fun _ => .pure _
  · exact .bind (located_parseExpr cx _) fun _ => .pure _

theorem located_parseLoopVars (p : Parser) : Located cx (parseLoopVars cx p) := by
  unfold parseLoopVars
  refine .bind (located_parseIdent cx _) fun _ => .bind (located_isNext cx _ _) fun ⟨_, _⟩ => ?_
  dsimp only
  split
  · exact .pure _
  · exact .bind (located_expect cx _ _) fun _ => .bind (located_parseIdent cx _) fun _ => .pure _

theorem located_parseBlock (p : Parser) : Located cx (parseBlock cx p) := by
  unfold parseBlock errUnexpectedKeyword
  refine .bind (located_parseKeyword cx _) fun ⟨⟨_, _⟩, _⟩ => ?_
  dsimp only
  split
  · exact .bind (located_parseIfCond cx _) fun _ => .pure _
  · refine .bind (located_isNextKeyword cx _ _) fun ⟨_, _⟩ => ?_
    dsimp only
    split
    · exact .bind (located_expectKeyword cx _ _) fun _ => .bind (located_parseIfCond cx _) fun _ => .pure _
    · exact .pure _
  · exact .pure _
  · exact .bind (located_parseLoopVars cx _) fun _ => .bind (located_expectKeyword cx _ _) fun _ =>
      .bind (located_parseExpr cx _) fun _ => .pure _
  · exact .pure _
  · exact .bind (located_parseExpr cx _) fun _ => .bind (located_expectKeyword cx _ _) fun _ =>
      .bind (located_parseIdent cx _) fun _ => .pure _
  · exact .pure _
  · refine .bind (located_expect cx _ _) fun _ => .bind (located_parseString cx _) fun _ =>
      .bind (located_isNextKeyword cx _ _) fun ⟨_, _⟩ => ?_
    dsimp only
    split
    · exact .bind (located_expectKeyword cx _ _) fun _ => .bind (located_parseExpr cx _) fun _ => .pure _
    · exact .pure _
  · exact .err _ _

theorem located_pushStmt (scs : List (List Stmt)) (s : Stmt) : Located cx (pushStmt scs s) := by
  unfold pushStmt; located

theorem located_closeIf {err : Res (Stmt × Stacks)} (he : Located cx err) (bs : List BlockFrame) :
    ∀ scs, Located cx (closeIf err bs scs) := by
  induction bs with
  | nil => intro scs; exact he
  | cons b bs ih =>
    intro scs
    cases b with
    | for_ => exact he
    | with_ => exact he
    | if_ ie n x sp els =>
      unfold closeIf
      refine .bind ?_ fun ⟨_, _⟩ => ?_
      · located
      · dsimp only
        split
        · exact .crash
        · split
          · exact .pure _
          · exact .bind (located_pushStmt cx _ _) fun _ => ih _

theorem located_handleBlock (sp : Span) (st : Stacks) (b : Block) : Located cx (handleBlock cx sp st b) := by
  unfold handleBlock
  split
  all_goals first
    | exact .pure _
    | exact .bind (located_closeIf cx (.err _ _) _ _) fun _ => .pure _
    | skip
  all_goals located

theorem located_parseItem (tk : Token) (sp : Span) (st : Stacks) (p : Parser) :
    Located cx (parseItem cx tk sp st p) := by
  unfold parseItem
  split
  · exact .bind (located_pushStmt cx _ _) fun _ => .pure _
  · exact .bind (located_expect cx _ _) fun _ => .bind (located_expect cx _ _) fun _ => .pure _
  · exact .bind (located_parseExpr cx _) fun _ => .bind (located_expect cx _ _) fun _ =>
      .bind (located_pushStmt cx _ _) fun _ => .pure _
  · refine .bind (located_parseBlock cx _) fun _ => .bind (located_expect cx _ _) fun _ =>
      .bind (located_handleBlock cx _ _ _) fun _ => ?_
    split
    · exact .bind (located_pushStmt cx _ _) fun _ => .pure _
    · exact .pure _
  · exact .crash

theorem located_parseLoop (n : Nat) : ∀ st p, Located cx (parseLoop cx n st p) := by
  induction n with
  | zero => intro st p; exact .crash
  | succ n ih =>
    intro st p
    unfold parseLoop
    refine .bind (located_next cx _) fun _ => ?_
    split
    · exact .bind (located_parseItem cx _ _ _ _) fun _ => ih _ _
    · located

theorem located_parseTemplate : Located cx (parseTemplate cx) := located_parseLoop cx _ _ _

end Parser

theorem located_compileSource : Located cx (compileSource cx) :=
  .bind (Parser.located_parseTemplate cx) fun _ => .ofOption _

end Upon
