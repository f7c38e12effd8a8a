import Verif.Spec.Features
import Verif.Proofs.LexBasic
import Verif.Model.Parser
/-
The compiler does the same in two builds that agree on the characters of names.
-/
namespace Upon
open Spec
variable {env env' : Env} {P : Str → Prop} {α β : Type}

namespace Feat

theorem build_isSome (src : Str) (sp : Span) : (Pretty.build env src sp).isSome = (Pretty.build env' src sp).isSome := by
  have key : ∀ (ls : List Str) (a b : Nat), ((ls[a]?).or ls.getLast?).isSome = ((ls[b]?).or ls.getLast?).isSome := by
    intro ls a b
    cases ls with
    | nil => rfl
    | cons l ls =>
      have : (l :: ls).getLast? = some ((l :: ls).getLast (by simp)) := List.getLast?_eq_getLast_of_ne_nil (by simp)
      rw [this]
      simp
  simp only [Pretty.build]
  cases sp.of src with
  | none => rfl
  | some t =>
    have := key (splitLines src) (toLnCol env (splitLines src) sp.m).1 (toLnCol env' (splitLines src) sp.m).1
    generalize toLnCol env (splitLines src) sp.m = a at *
    generalize toLnCol env' (splitLines src) sp.m = b at *
    obtain ⟨a1, a2⟩ := a
    obtain ⟨b1, b2⟩ := b
    simp only at this
    generalize ((splitLines src)[a1]?).or (splitLines src).getLast? = x at this
    generalize ((splitLines src)[b1]?).or (splitLines src).getLast? = y at this
    cases x <;> cases y <;> simp_all

abbrev S (env env' : Env) (P : Str → Prop) (r r' : Res α) : Prop := SameOutcome env env' P r r'

theorem refl_ok (r : Res α) (h : ∀ e, r ≠ .err e) : S env env' P r r := by
  cases r with
  | ok a => exact .ok a
  | err e => exact absurd rfl (h e)
  | crash => exact .crash

theorem ofOption (o : Option α) : S env env' P (Res.ofOption o) (Res.ofOption o) := by
  cases o
  · exact .crash
  · exact .ok _

theorem pure (a : α) : S env env' P (Pure.pure a : Res α) (Pure.pure a) := .ok a

theorem bind {x x' : Res α} {f f' : α → Res β} (hx : S env env' P x x') (hf : ∀ a, S env env' P (f a) (f' a)) :
    S env env' P (x >>= f) (x' >>= f') := by
  cases hx with
  | ok a => exact hf a
  | err h => exact .err h
  | crash => exact .crash

theorem ite {p : Prop} [Decidable p] {a a' b b' : Res α} (h : p → S env env' P a a') (h' : ¬ p → S env env' P b b') :
    S env env' P (if p then a else b) (if p then a' else b') := by
  by_cases hp : p
  · rw [if_pos hp, if_pos hp]; exact h hp
  · rw [if_neg hp, if_neg hp]; exact h' hp

/-- A bind whose continuation may use how the first part ended. -/
theorem bind' {x x' : Res α} {f f' : α → Res β} (hx : S env env' P x x') (hf : ∀ a, x = .ok a → S env env' P (f a) (f' a)) :
    S env env' P (x >>= f) (x' >>= f') := by
  cases hx with
  | ok a => exact hf a rfl
  | err h => exact .err h
  | crash => exact .crash

theorem throwAt {src : Str} (hp : P src) (k : ErrKind) (m : Option String) (sp : Span) :
    S env env' P (Upon.throwAt env k m src sp : Res α) (Upon.throwAt env' k m src sp) := by
  have := build_isSome (env := env) (env' := env') src sp
  rw [Upon.throwAt, Upon.throwAt]
  cases h : Pretty.build env src sp with
  | none =>
    rw [h] at this
    cases h' : Pretty.build env' src sp with
    | none => exact .crash
    | some p => rw [h'] at this; cases this
  | some p =>
    rw [h] at this
    cases h' : Pretty.build env' src sp with
    | none => rw [h'] at this; cases this
    | some p' => exact .err ⟨rfl, rfl, rfl, .inr ⟨src, sp, p, p', hp, h, h', rfl, rfl⟩⟩

theorem syn {src : Str} (hp : P src) (m : String) (sp : Span) :
    S env env' P (errSyntax env m src sp : Res α) (errSyntax env' m src sp) := throwAt hp _ _ _
theorem ren {src : Str} (hp : P src) (m : String) (sp : Span) :
    S env env' P (errRender env m src sp : Res α) (errRender env' m src sp) := throwAt hp _ _ _

/-- The two compilations. -/
structure Cx (env env' : Env) (P : Str → Prop) (cx cx' : LexCx) : Prop where
  here_env : cx.env = env
  there_env : cx'.env = env'
  searcher : cx'.searcher = cx.searcher
  source : cx'.source = cx.source
  here : P cx.source
  built : Rebuilt env env'
  names : NamesAgree env env' cx.source

variable {cx cx' : LexCx}

macro "same" h:term : tactic => `(tactic| repeat' (first
  | with_reducible exact Feat.pure _ | with_reducible exact SameOutcome.ok _ | with_reducible exact SameOutcome.crash
  | with_reducible exact Feat.ofOption _
  | with_reducible exact Feat.syn $h _ _ | with_reducible refine Feat.bind ?_ (fun _ => ?_) | assumption | split))

/-! The lexer -/

theorem findAt (h : Cx env env' P cx cx') (i : Nat) : Lexer.findAt cx' i = Lexer.findAt cx i := by
  rw [Lexer.findAt, Lexer.findAt, h.searcher, h.source]
theorem startsWith (h : Cx env env' P cx cx') (i : Nat) : Lexer.startsWith cx' i = Lexer.startsWith cx i := by
  rw [Lexer.startsWith, Lexer.startsWith, h.searcher, h.source]

theorem findAt_s (h : Cx env env' P cx cx') (i : Nat) : S env env' P (Lexer.findAt cx i) (Lexer.findAt cx' i) := by
  rw [findAt h]; exact ofOption _
theorem startsWith_s (h : Cx env env' P cx cx') (i : Nat) : S env env' P (Lexer.startsWith cx i) (Lexer.startsWith cx' i) := by
  rw [startsWith h]; exact ofOption _

theorem errS (h : Cx env env' P cx cx') (m : String) (sp : Span) :
    S env env' P (errSyntax cx.env m cx.source sp : Res α) (errSyntax cx'.env m cx'.source sp) := by
  rw [h.here_env, h.there_env, h.source]; exact syn h.here _ _

theorem errUnclosed (h : Cx env env' P cx cx') (b : Span) (e : Token) :
    S env env' P (Lexer.errUnclosed cx b e : Res α) (Lexer.errUnclosed cx' b e) := by
  rw [Lexer.errUnclosed, Lexer.errUnclosed]
  split
  · exact .crash
  · exact errS h _ _

theorem errUnexpectedToken (h : Cx env env' P cx cx') (t : Token) (m n : Nat) :
    S env env' P (Lexer.errUnexpectedToken cx t m n : Res α) (Lexer.errUnexpectedToken cx' t m n) := errS h _ _

theorem errUnexpectedCharacter (h : Cx env env' P cx cx') (m n : Nat) :
    S env env' P (Lexer.errUnexpectedCharacter cx m n : Res α) (Lexer.errUnexpectedCharacter cx' m n) := errS h _ _

theorem errUndelimitedString (h : Cx env env' P cx cx') (m n : Nat) :
    S env env' P (Lexer.errUndelimitedString cx m n : Res α) (Lexer.errUndelimitedString cx' m n) := errS h _ _

theorem trimRawToken (h : Cx env env' P cx cx') (lx : Lexer) (i j : Nat) (t : Bool) :
    S env env' P (lx.trimRawToken cx i j t) (lx.trimRawToken cx' i j t) := by
  have : lx.trimRawToken cx' i j t = lx.trimRawToken cx i j t := by
    unfold Lexer.trimRawToken; rw [h.source]
  rw [this]
  unfold Lexer.trimRawToken
  same h.here

theorem lexTemplate (h : Cx env env' P cx cx') (lx : Lexer) (i : Nat) :
    S env env' P (lx.lexTemplate cx i) (lx.lexTemplate cx' i) := by
  unfold Lexer.lexTemplate
  rw [findAt h, h.source]
  refine bind (ofOption _) fun o => ?_
  split
  · simp only
    split
    · exact errUnexpectedToken h _ _ _
    · refine bind (ofOption _) fun e => ?_
      split
      · exact .ok _
      · exact trimRawToken h _ _ _ _
  · exact trimRawToken h _ _ _ _

theorem lexWhile {p q : Char → Bool} (j : Nat) (s : Str) (h : ∀ c ∈ s, p c = q c) : Lexer.lexWhile p j s = Lexer.lexWhile q j s := by
  induction s generalizing j with
  | nil => rfl
  | cons c s ih =>
    rw [Lexer.lexWhile, Lexer.lexWhile, h c (by simp), ih _ fun d hd => h d (by simp [hd])]

theorem lexQuestionDot (h : Cx env env' P cx cx') (i : Nat) (r : Str) :
    S env env' P (Lexer.lexQuestionDot cx i r) (Lexer.lexQuestionDot cx' i r) := by
  unfold Lexer.lexQuestionDot
  rw [h.source]
  split
  · exact .ok _
  · exact errUnexpectedCharacter h _ _
  · exact errUnexpectedCharacter h _ _

theorem lexString (h : Cx env env' P cx cx') (i : Nat) (c : Char) (j : Nat) (r : Str) :
    S env env' P (Lexer.lexString cx i c j r) (Lexer.lexString cx' i c j r) := by
  induction r generalizing c j with
  | nil => rw [Lexer.lexString, Lexer.lexString, h.source]; exact errUndelimitedString h _ _
  | cons d r ih =>
    rw [Lexer.lexString, Lexer.lexString]
    split
    · exact errUndelimitedString h _ _
    · split
      · exact .ok _
      · exact ih _ _

theorem lexIdentOrKeyword (h : Cx env env' P cx cx') (i j : Nat) {r : Str} (hr : ∀ c ∈ r, c ∈ cx.source) :
    S env env' P (Lexer.lexIdentOrKeyword cx i j r) (Lexer.lexIdentOrKeyword cx' i j r) := by
  have e : Lexer.lexIdentOrKeyword cx' i j r = Lexer.lexIdentOrKeyword cx i j r := by
    unfold Lexer.lexIdentOrKeyword
    rw [h.source, lexWhile (p := isIdentChar cx'.env) (q := isIdentChar cx.env)]
    intro c hc
    rw [h.here_env, h.there_env, isIdentChar, isIdentChar]
    exact (h.names c (hr c hc)).1
  rw [e]
  unfold Lexer.lexIdentOrKeyword
  same h.here

theorem lexChar (h : Cx env env' P cx cx') (bs : BlockState) (i : Nat) {c : Char} {r : Str} (hr : ∀ d ∈ c :: r, d ∈ cx.source) :
    S env env' P (Lexer.lexChar cx bs i c r) (Lexer.lexChar cx' bs i c r) := by
  unfold Lexer.lexChar
  have e : isDigit c ≠ true → isIdentStart cx'.env c = isIdentStart cx.env c := by
    intro hd
    rw [h.here_env, h.there_env]
    rcases (h.names c (hr c (by simp))).2 with h2 | h2
    · exact absurd h2 hd
    · exact h2
  iterate 6 refine ite (fun _ => .ok _) fun _ => ?_
  refine ite (fun _ => lexQuestionDot h _ _) fun _ => ?_
  refine ite (fun _ => lexString h _ _ _ _) fun _ => ?_
  refine ite (fun _ => ?_) fun hd => ?_
  · cases bs <;> exact .ok _
  refine ite (fun _ => .ok _) fun _ => ?_
  rw [e hd]
  refine ite (fun _ => ?_) fun _ => ?_
  · exact lexIdentOrKeyword h _ _ fun d hd => hr d (by simp [hd])
  · exact errUnexpectedCharacter h _ _

theorem mem_of_dropB {s t : Str} {n : Nat} (h : dropB s n = some t) : ∀ c ∈ t, c ∈ s := by
  induction s generalizing n with
  | nil =>
    cases n with
    | zero => rw [dropB] at h; cases h; exact fun _ h => h
    | succ n => rw [dropB] at h; cases h
  | cons d s ih =>
    cases n with
    | zero => rw [dropB] at h; cases h; exact fun _ h => h
    | succ n =>
      rw [dropB] at h
      split at h
      · exact fun c hc => List.mem_cons_of_mem _ (ih h c hc)
      · cases h

theorem lexBlock (h : Cx env env' P cx cx') (lx : Lexer) (bs : BlockState) (b : Span) (e : Token) (i : Nat) :
    S env env' P (lx.lexBlock cx bs b e i) (lx.lexBlock cx' bs b e i) := by
  unfold Lexer.lexBlock
  refine bind ?_ fun _ => .ok _
  rw [startsWith h]
  refine bind (ofOption _) fun o => ?_
  split
  · simp only
    split
    · exact errUnclosed h _ _
    · split
      · exact errUnexpectedToken h _ _ _
      · exact .ok _
  · rw [h.source]
    cases hd : dropB cx.source i with
    | none => exact .crash
    | some t =>
      cases t with
      | nil => exact .crash
      | cons c r =>
        rw [Res.ofOption, Res.ok_bind, Res.ok_bind]
        exact bind (lexChar h bs i (mem_of_dropB hd)) fun _ => .ok _

theorem lexComment (h : Cx env env' P cx cx') (lx : Lexer) (b : Span) (e : Token) (i : Nat) :
    S env env' P (lx.lexComment cx b e i) (lx.lexComment cx' b e i) := by
  unfold Lexer.lexComment
  rw [findAt h, h.source]
  refine bind (ofOption _) fun o => ?_
  split
  · simp only
    split
    · exact errUnclosed h _ _
    · split
      · exact errUnexpectedToken h _ _ _
      · split <;> exact .ok _
  · exact .ok _

theorem lex (h : Cx env env' P cx cx') (lx : Lexer) : S env env' P (lx.lex cx) (lx.lex cx') := by
  unfold Lexer.lex
  split
  · exact .ok _
  · rw [h.source]
    refine bind (ofOption _) fun r => ?_
    split
    · exact .ok _
    · split
      · exact lexTemplate h _ _
      · exact lexBlock h _ _ _ _ _
      · exact lexBlock h _ _ _ _ _
      · exact lexComment h _ _ _ _

theorem nextLoop (h : Cx env env' P cx cx') (n : Nat) (lx : Lexer) : S env env' P (Lexer.nextLoop cx n lx) (Lexer.nextLoop cx' n lx) := by
  induction n generalizing lx with
  | zero => exact .crash
  | succ n ih =>
    rw [Lexer.nextLoop, Lexer.nextLoop]
    refine bind (lex h lx) fun o => ?_
    split
    · split
      · exact ih _
      · exact .ok _
    · exact .ok _

theorem nextToken (h : Cx env env' P cx cx') (lx : Lexer) : S env env' P (lx.nextToken cx) (lx.nextToken cx') := by
  rw [Lexer.nextToken, Lexer.nextToken, h.source]; exact nextLoop h _ _

/-! The parser -/

theorem text (h : Cx env env' P cx cx') (sp : Span) : S env env' P (Parser.text cx sp) (Parser.text cx' sp) := by
  rw [Parser.text, Parser.text, h.source]; exact ofOption _

theorem eof (h : Cx env env' P cx cx') (m : String) :
    S env env' P (Parser.errUnexpectedEof cx m : Res α) (Parser.errUnexpectedEof cx' m) := by
  unfold Parser.errUnexpectedEof
  rw [h.source, h.here_env, h.there_env]
  exact syn h.here _ _

theorem unexpected (h : Cx env env' P cx cx') (m : String) (t : Token) (sp : Span) :
    S env env' P (Parser.errUnexpectedToken cx m t sp : Res α) (Parser.errUnexpectedToken cx' m t sp) := errS h _ _

theorem unexpectedKw (h : Cx env env' P cx cx') (m : String) (sp : Span) :
    S env env' P (Parser.errUnexpectedKeyword cx m sp : Res α) (Parser.errUnexpectedKeyword cx' m sp) := errS h _ _

theorem next (h : Cx env env' P cx cx') (p : Parser) : S env env' P (p.next cx) (p.next cx') := by
  unfold Parser.next
  split
  · exact .ok _
  · exact bind (nextToken h _) fun _ => .ok _

theorem peek (h : Cx env env' P cx cx') (p : Parser) : S env env' P (p.peek cx) (p.peek cx') := by
  unfold Parser.peek
  split
  · exact .ok _
  · exact bind (nextToken h _) fun _ => .ok _

theorem parse (h : Cx env env' P cx cx') (p : Parser) : S env env' P (p.parse cx) (p.parse cx') := by
  unfold Parser.parse
  refine bind (next h p) fun o => ?_
  split
  · exact .ok _
  · exact eof h _

theorem expect (h : Cx env env' P cx cx') (p : Parser) (t : Token) : S env env' P (p.expect cx t) (p.expect cx' t) := by
  unfold Parser.expect
  refine bind (next h p) fun o => ?_
  split
  · refine ite (fun _ => .ok _) fun _ => unexpected h _ _ _
  · exact eof h _

theorem isNext (h : Cx env env' P cx cx') (p : Parser) (t : Token) : S env env' P (p.isNext cx t) (p.isNext cx' t) := by
  unfold Parser.isNext
  refine bind (peek h p) fun o => ?_
  split <;> exact .ok _

theorem isNextKeyword (h : Cx env env' P cx cx') (p : Parser) (k : Keyword) :
    S env env' P (p.isNextKeyword cx k) (p.isNextKeyword cx' k) := by
  unfold Parser.isNextKeyword
  refine bind (peek h p) fun o => ?_
  split
  · refine ite (fun _ => bind (text h _) fun s => bind (ofOption _) fun _ => .ok _) fun _ => .ok _
  · exact .ok _

theorem parseKeyword (h : Cx env env' P cx cx') (p : Parser) : S env env' P (p.parseKeyword cx) (p.parseKeyword cx') := by
  unfold Parser.parseKeyword
  exact bind (expect h p _) fun o => bind (text h _) fun s => bind (ofOption _) fun _ => .ok _

theorem expectKeyword (h : Cx env env' P cx cx') (p : Parser) (k : Keyword) :
    S env env' P (p.expectKeyword cx k) (p.expectKeyword cx' k) := by
  unfold Parser.expectKeyword
  exact bind (parseKeyword h p) fun o => ite (fun _ => errS h _ _) fun _ => .ok _

theorem parseIdent (h : Cx env env' P cx cx') (p : Parser) : S env env' P (p.parseIdent cx) (p.parseIdent cx') := by
  unfold Parser.parseIdent
  exact bind (expect h p _) fun o => .ok _

theorem unescape (h : Cx env env' P cx cx') (i : Nat) (acc : Str) (s : Str) :
    S env env' P (Parser.unescape cx i acc s) (Parser.unescape cx' i acc s) := by
  match s with
  | [] => rw [Parser.unescape, Parser.unescape]; exact .ok _
  | [c] =>
    simp only [Parser.unescape]
    exact ite (fun _ => .ok _) fun _ => ite (fun _ => .crash) fun _ => .ok _
  | c :: esc :: rest =>
    simp only [Parser.unescape]
    refine ite (fun _ => unescape h _ _ (esc :: rest)) fun _ => ite (fun _ => ?_) fun _ => unescape h _ _ (esc :: rest)
    iterate 5 refine ite (fun _ => unescape h _ _ rest) fun _ => ?_
    cases rest with
    | nil => exact .crash
    | cons => exact errS h _ _
termination_by s.length

theorem parseString (h : Cx env env' P cx cx') (sp : Span) : S env env' P (Parser.parseString cx sp) (Parser.parseString cx' sp) := by
  unfold Parser.parseString
  exact bind (text h _) fun raw => ite (fun _ => unescape h _ _ _) fun _ => ite (fun _ => ofOption _) fun _ => .crash

theorem foldDigits (h : Cx env env' P cx cx') (sp : Span) (sg : Sign) (i r j : Nat) (acc : Int) (s : Str) :
    S env env' P (Parser.foldDigits cx sp sg i r j acc s) (Parser.foldDigits cx' sp sg i r j acc s) := by
  induction s generalizing j acc with
  | nil => rw [Parser.foldDigits, Parser.foldDigits]; exact .ok _
  | cons c s ih =>
    rw [Parser.foldDigits, Parser.foldDigits]
    refine ite (fun _ => ih _ _) fun _ => ?_
    split
    · exact errS h _ _
    · exact ite (fun _ => errS h _ _) fun _ => ite (fun _ => errS h _ _) fun _ => ih _ _

theorem parseLiteralInteger (h : Cx env env' P cx cx') (raw : Str) (sp : Span) (sg : Sign) :
    S env env' P (Parser.parseLiteralInteger cx raw sp sg) (Parser.parseLiteralInteger cx' raw sp sg) := by
  unfold Parser.parseLiteralInteger
  exact bind (foldDigits h _ _ _ _ _ _ _) fun _ => .ok _

theorem parseLiteralFloat (h : Cx env env' P cx cx') (raw : Str) (sp : Span) (sg : Sign) :
    S env env' P (Parser.parseLiteralFloat cx raw sp sg) (Parser.parseLiteralFloat cx' raw sp sg) := by
  have e : cx'.env.parseF64 raw = cx.env.parseF64 raw := by rw [h.here_env, h.there_env, h.built.parse]
  unfold Parser.parseLiteralFloat
  rw [e]
  split
  · exact errS h _ _
  · exact .ok _

theorem parseLiteralNumber (h : Cx env env' P cx cx') (raw : Str) (sp : Span) (sg : Sign) :
    S env env' P (Parser.parseLiteralNumber cx raw sp sg) (Parser.parseLiteralNumber cx' raw sp sg) := by
  unfold Parser.parseLiteralNumber
  have h1 := parseLiteralInteger h raw sp sg
  have h2 := parseLiteralFloat h raw sp sg
  generalize Parser.parseLiteralInteger cx raw sp sg = a at *
  generalize Parser.parseLiteralInteger cx' raw sp sg = a' at *
  generalize Parser.parseLiteralFloat cx raw sp sg = b at *
  generalize Parser.parseLiteralFloat cx' raw sp sg = b' at *
  cases h1 with
  | ok a => exact .ok _
  | crash => exact .crash
  | err h1 =>
    cases h2 with
    | ok a => exact .ok _
    | crash => exact .crash
    | err h2 => exact ite (fun _ => .err h2) fun _ => .err h1

theorem parseLiteralString (h : Cx env env' P cx cx') (sp : Span) :
    S env env' P (Parser.parseLiteralString cx sp) (Parser.parseLiteralString cx' sp) := by
  unfold Parser.parseLiteralString
  exact bind (parseString h _) fun _ => .ok _

theorem parseLiteralBool (h : Cx env env' P cx cx') (sp : Span) :
    S env env' P (Parser.parseLiteralBool cx sp) (Parser.parseLiteralBool cx' sp) := by
  unfold Parser.parseLiteralBool
  exact bind (text h _) fun _ => ite (fun _ => .ok _) fun _ => ite (fun _ => .ok _) fun _ => unexpectedKw h _ _

theorem parseAccess (h : Cx env env' P cx cx') (p : Parser) : S env env' P (p.parseAccess cx) (p.parseAccess cx') := by
  have eb : cx'.env.usizeBits = cx.env.usizeBits := by rw [h.here_env, h.there_env, h.built.bits]
  have e : ∀ s, Parser.parseUsize cx'.env s = Parser.parseUsize cx.env s := by
    intro s; unfold Parser.parseUsize; rw [eb]
  unfold Parser.parseAccess
  refine bind (parse h p) fun o => ?_
  split
  · refine bind (text h _) fun s => ?_
    rw [e, eb]
    split
    · exact .ok _
    · exact errS h _ _
  · exact .ok _
  · exact unexpected h _ _ _

theorem parseVarLoop (h : Cx env env' P cx cx') (n : Nat) (ms : List Member) (p : Parser) :
    S env env' P (Parser.parseVarLoop cx n ms p) (Parser.parseVarLoop cx' n ms p) := by
  induction n generalizing ms p with
  | zero => exact .crash
  | succ n ih =>
    rw [Parser.parseVarLoop, Parser.parseVarLoop]
    refine bind (peek h p) fun o => ?_
    split
    · exact bind (expect h _ _) fun _ => bind (parseAccess h _) fun _ => ih _ _
    · exact bind (expect h _ _) fun _ => bind (parseAccess h _) fun _ => ih _ _
    · exact .ok _

theorem fuel (h : Cx env env' P cx cx') : Parser.fuel cx' = Parser.fuel cx := by rw [Parser.fuel, Parser.fuel, h.source]

theorem parseVar (h : Cx env env' P cx cx') (m : Member) (p : Parser) : S env env' P (Parser.parseVar cx m p) (Parser.parseVar cx' m p) := by
  unfold Parser.parseVar
  rw [fuel h]
  exact bind (parseVarLoop h _ _ _) fun _ => .ok _

theorem parseBaseExpr (h : Cx env env' P cx cx') (p : Parser) : S env env' P (p.parseBaseExpr cx) (p.parseBaseExpr cx') := by
  unfold Parser.parseBaseExpr
  refine bind (parse h p) fun o => ?_
  split
  · exact bind (parseLiteralBool h _) fun _ => .ok _
  · exact bind (expect h _ _) fun _ => bind (text h _) fun _ => bind (parseLiteralNumber h _ _ _) fun _ => .ok _
  · exact bind (expect h _ _) fun _ => bind (text h _) fun _ => bind (parseLiteralNumber h _ _ _) fun _ => .ok _
  · exact bind (text h _) fun _ => bind (parseLiteralNumber h _ _ _) fun _ => .ok _
  · exact bind (parseLiteralString h _) fun _ => .ok _
  · exact bind (parseVar h _ _) fun _ => .ok _
  · exact unexpected h _ _ _

theorem parseArgsLoop (h : Cx env env' P cx cx') (n : Nat) (vs : List BaseExpr) (p : Parser) :
    S env env' P (Parser.parseArgsLoop cx n vs p) (Parser.parseArgsLoop cx' n vs p) := by
  induction n generalizing vs p with
  | zero => exact .crash
  | succ n ih =>
    rw [Parser.parseArgsLoop, Parser.parseArgsLoop]
    exact bind (parseBaseExpr h _) fun _ => bind (isNext h _ _) fun _ => ite (fun _ => .ok _) fun _ =>
      bind (expect h _ _) fun _ => ih _ _

theorem parseArgs (h : Cx env env' P cx cx') (sp : Span) (p : Parser) : S env env' P (Parser.parseArgs cx sp p) (Parser.parseArgs cx' sp p) := by
  unfold Parser.parseArgs
  rw [fuel h]
  exact bind (parseArgsLoop h _ _ _) fun _ => bind (ofOption _) fun _ => .ok _

theorem parseExprLoop (h : Cx env env' P cx cx') (n : Nat) (e : Expr) (p : Parser) :
    S env env' P (Parser.parseExprLoop cx n e p) (Parser.parseExprLoop cx' n e p) := by
  induction n generalizing e p with
  | zero => exact .crash
  | succ n ih =>
    rw [Parser.parseExprLoop, Parser.parseExprLoop]
    exact bind (isNext h _ _) fun _ => ite (fun _ => .ok _) fun _ => bind (expect h _ _) fun _ => bind (parseIdent h _) fun _ =>
      bind (isNext h _ _) fun _ => ite (fun _ => bind (expect h _ _) fun _ => bind (parseArgs h _ _) fun _ => ih _ _) fun _ => ih _ _

theorem parseExpr (h : Cx env env' P cx cx') (p : Parser) : S env env' P (p.parseExpr cx) (p.parseExpr cx') := by
  unfold Parser.parseExpr
  rw [fuel h]
  exact bind (parseBaseExpr h _) fun _ => parseExprLoop h _ _ _

theorem parseIfCond (h : Cx env env' P cx cx') (p : Parser) : S env env' P (p.parseIfCond cx) (p.parseIfCond cx') := by
  unfold Parser.parseIfCond
  exact bind (isNextKeyword h _ _) fun _ => ite (fun _ => bind (expectKeyword h _ _) fun _ => bind (parseExpr h _) fun _ => .ok _) fun _ =>
    bind (parseExpr h _) fun _ => .ok _

theorem parseLoopVars (h : Cx env env' P cx cx') (p : Parser) : S env env' P (p.parseLoopVars cx) (p.parseLoopVars cx') := by
  unfold Parser.parseLoopVars
  exact bind (parseIdent h _) fun _ => bind (isNext h _ _) fun _ => ite (fun _ => .ok _) fun _ =>
    bind (expect h _ _) fun _ => bind (parseIdent h _) fun _ => .ok _

theorem parseBlock (h : Cx env env' P cx cx') (p : Parser) : S env env' P (p.parseBlock cx) (p.parseBlock cx') := by
  unfold Parser.parseBlock
  refine bind (parseKeyword h _) fun o => ?_
  obtain ⟨⟨kw, sp⟩, p⟩ := o
  cases kw <;> simp only
  case if_ => exact bind (parseIfCond h _) fun _ => .ok _
  case else_ => exact bind (isNextKeyword h _ _) fun _ => ite (fun _ => bind (expectKeyword h _ _) fun _ => bind (parseIfCond h _) fun _ => .ok _) fun _ => .ok _
  case for_ => exact bind (parseLoopVars h _) fun _ => bind (expectKeyword h _ _) fun _ => bind (parseExpr h _) fun _ => .ok _
  case with_ => exact bind (parseExpr h _) fun _ => bind (expectKeyword h _ _) fun _ => bind (parseIdent h _) fun _ => .ok _
  case include_ =>
    exact bind (expect h _ _) fun _ => bind (parseString h _) fun _ => bind (isNextKeyword h _ _) fun _ =>
      ite (fun _ => bind (expectKeyword h _ _) fun _ => bind (parseExpr h _) fun _ => .ok _) fun _ => .ok _
  all_goals first | exact .ok _ | exact unexpectedKw h _ _

theorem pushStmt (sc : List (List Stmt)) (s : Stmt) : S env env' P (Parser.pushStmt sc s) (Parser.pushStmt sc s) := by
  cases sc
  · exact .crash
  · exact .ok _

theorem closeIf {e e' : Res (Stmt × Parser.Stacks)} (he : S env env' P e e') (bs : List BlockFrame) (sc : List (List Stmt)) :
    S env env' P (Parser.closeIf e bs sc) (Parser.closeIf e' bs sc) := by
  induction bs generalizing sc with
  | nil => exact he
  | cons b bs ih =>
    cases b with
    | if_ ie nt c sp he =>
      simp only [Parser.closeIf]
      refine bind ?_ fun o => ?_
      · refine ite (fun _ => ?_) fun _ => .ok _
        split
        · exact .crash
        · exact .ok _
      · obtain ⟨el, sc⟩ := o
        cases sc with
        | nil => exact .crash
        | cons th sc =>
          simp only
          exact ite (fun _ => .ok _) fun _ => bind (pushStmt _ _) fun _ => ih _
    | for_ => exact he
    | with_ => exact he

theorem handleBlock (h : Cx env env' P cx cx') (sp : Span) (st : Parser.Stacks) (b : Block) :
    S env env' P (Parser.handleBlock cx sp st b) (Parser.handleBlock cx' sp st b) := by
  cases b <;> simp only [Parser.handleBlock]
  case endif => exact bind (closeIf (errS h _ _) _ _) fun _ => .ok _
  all_goals repeat' (first | exact .ok _ | exact .crash | exact errS h _ _ | split)

theorem parseItem (h : Cx env env' P cx cx') (tk : Token) (sp : Span) (st : Parser.Stacks) (p : Parser) :
    S env env' P (Parser.parseItem cx tk sp st p) (Parser.parseItem cx' tk sp st p) := by
  cases tk <;> simp only [Parser.parseItem]
  case raw => exact bind (pushStmt _ _) fun _ => .ok _
  case beginComment => exact bind (expect h _ _) fun _ => bind (expect h _ _) fun _ => .ok _
  case beginExpr => exact bind (parseExpr h _) fun _ => bind (expect h _ _) fun _ => bind (pushStmt _ _) fun _ => .ok _
  case beginBlock =>
    refine bind (parseBlock h _) fun _ => bind (expect h _ _) fun _ => bind (handleBlock h _ _ _) fun o => ?_
    split
    · exact bind (pushStmt _ _) fun _ => .ok _
    · exact .ok _
  all_goals exact .crash

theorem parseLoop (h : Cx env env' P cx cx') (n : Nat) (st : Parser.Stacks) (p : Parser) :
    S env env' P (Parser.parseLoop cx n st p) (Parser.parseLoop cx' n st p) := by
  induction n generalizing st p with
  | zero => exact .crash
  | succ n ih =>
    rw [Parser.parseLoop, Parser.parseLoop]
    refine bind (next h p) fun o => ?_
    split
    · exact bind (parseItem h _ _ _ _) fun _ => ih _ _
    · split
      · exact errS h _ _
      · split
        · exact .ok _
        · exact .crash

theorem parseTemplate (h : Cx env env' P cx cx') : S env env' P (Parser.parseTemplate cx) (Parser.parseTemplate cx') := by
  unfold Parser.parseTemplate
  rw [fuel h]
  exact parseLoop h _ _ _

theorem compileSource (h : Cx env env' P cx cx') : S env env' P (Upon.compileSource cx) (Upon.compileSource cx') := by
  unfold Upon.compileSource
  rw [h.source]
  exact bind (parseTemplate h) fun _ => ofOption _

end Feat
end Upon
