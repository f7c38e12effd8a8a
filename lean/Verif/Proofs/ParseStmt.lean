import Verif.Proofs.ParseBlock
/-
Templates: the parser agrees with the grammar.
-/
namespace Upon
namespace Parser

variable {cx : LexCx}

/-- The open blocks, with the tokens read before and at their opening tags, and the statements
collected outside of them. -/
inductive Open (cx : LexCx) : List Tok → List BlockFrame → List (List Stmt) → Prop
  | top : Open cx [] [] []
  | for_ {u bs scs pre ss tag vs v i us x sp} : Open cx u bs scs → Spec.GStmts cx.env cx.source pre ss →
      Spec.GTag cx.source "for" (vs ++ (.keyword, i) :: us) tag → Spec.GVars vs v →
      Spec.IsKw cx.source (.keyword, i) "in" → Spec.GExpr cx.env cx.source us x →
      Open cx (u ++ pre ++ tag) (.for_ v x sp :: bs) (ss.reverse :: scs)
  | with_ {u bs scs pre ss tag us x a n sp} : Open cx u bs scs → Spec.GStmts cx.env cx.source pre ss →
      Spec.GTag cx.source "with" (us ++ [(.keyword, a), (.ident, n)]) tag → Spec.GExpr cx.env cx.source us x →
      Spec.IsKw cx.source (.keyword, a) "as" →
      Open cx (u ++ pre ++ tag) (.with_ x ⟨n⟩ sp :: bs) (ss.reverse :: scs)
  | if_ {u bs scs pre ss tag us n x sp} : Open cx u bs scs → Spec.GStmts cx.env cx.source pre ss →
      Spec.GTag cx.source "if" us tag → Spec.GCond cx.env cx.source us n x →
      Open cx (u ++ pre ++ tag) (.if_ false n x sp false :: bs) (ss.reverse :: scs)
  | else_ {u ie n x sp bs scs body ss tag} : Open cx u (.if_ ie n x sp false :: bs) scs →
      Spec.GStmts cx.env cx.source body ss → Spec.GTag cx.source "else" [] tag →
      Open cx (u ++ body ++ tag) (.if_ ie n x sp true :: bs) (ss.reverse :: scs)
  | elseIf {u ie n x sp bs scs body ss tag i us n' x' sp'} : Open cx u (.if_ ie n x sp false :: bs) scs →
      Spec.GStmts cx.env cx.source body ss → Spec.GTag cx.source "else" ((.keyword, i) :: us) tag →
      Spec.IsKw cx.source (.keyword, i) "if" → Spec.GCond cx.env cx.source us n' x' →
      Open cx (u ++ body ++ tag) (.if_ true n' x' sp' false :: .if_ ie n x sp true :: bs)
        ([] :: ss.reverse :: scs)

/-- The parser has read the tokens `used`. -/
def State (cx : LexCx) (used : List Tok) (st : Stacks) : Prop :=
  ∃ u cur ss scs, used = u ++ cur ∧ Open cx u st.blocks scs ∧ Spec.GStmts cx.env cx.source cur ss ∧
    st.scopes = ss.reverse :: scs

/-- What `closeIf` does after building the statement of the innermost clause. -/
def finish (err : Res (Stmt × Stacks)) (ie : Bool) (stmt : Stmt) (bs : List BlockFrame)
    (scs : List (List Stmt)) : Res (Stmt × Stacks) :=
  if !ie then .ok (stmt, { blocks := bs, scopes := scs })
  else do
    let scs ← pushStmt scs stmt
    closeIf err bs scs

theorem closeIf_noElse (err : Res (Stmt × Stacks)) (ie n : Bool) (x : Expr) (sp : Span)
    (bs : List BlockFrame) (s : List Stmt) (scs : List (List Stmt)) :
    closeIf err (.if_ ie n x sp false :: bs) (s :: scs) = finish err ie (.ifElse n x s.reverse none) bs scs := by
  simp [closeIf, finish]

theorem closeIf_else (err : Res (Stmt × Stacks)) (ie n : Bool) (x : Expr) (sp : Span)
    (bs : List BlockFrame) (s s' : List Stmt) (scs : List (List Stmt)) :
    closeIf err (.if_ ie n x sp true :: bs) (s' :: s :: scs) =
      finish err ie (.ifElse n x s.reverse (some s'.reverse)) bs scs := by
  simp [closeIf, finish]

/-- Closing an `if` with all its clauses. -/
theorem finish_spec {u : List Tok} {blocks : List BlockFrame} {scs : List (List Stmt)} (err : Res (Stmt × Stacks))
    (h : Open cx u blocks scs) :
    ∀ {ie n : Bool} {x : Expr} {sp : Span} {bs : List BlockFrame} {body : List Tok} {ss : List Stmt}
      {tail : List Tok} {els : Option (List Stmt)}, blocks = .if_ ie n x sp false :: bs →
      Spec.GStmts cx.env cx.source body ss → Spec.GElse cx.env cx.source tail els →
      ∃ stmt st, finish err ie (.ifElse n x ss els) bs scs = .ok (stmt, st) ∧ (∀ b ∈ st.blocks, b ∈ bs) ∧
        ∃ scopes, pushStmt st.scopes stmt = .ok scopes ∧
          State cx (u ++ body ++ tail) { st with scopes } := by
  induction h with
  | top => intro ie n x sp bs body ss tail els e; cases e
  | for_ => intro ie n x sp bs body ss tail els e; cases e
  | with_ => intro ie n x sp bs body ss tail els e; cases e
  | else_ => intro ie n x sp bs body ss tail els e; cases e
  | @if_ u bs scs pre ss tag us n x sp ho hs ht hc _ =>
    intro ie n' x' sp' bs' body ss' tail els e hb he
    cases e
    refine ⟨_, _, by simp [finish]; exact ⟨rfl, rfl⟩, ?_, ?_⟩
    · intro b hb; exact hb
    · refine ⟨(.ifElse n x ss' els :: ss.reverse) :: scs, by simp [pushStmt], u, pre ++ (tag ++ body ++ tail ++ []),
        ss ++ [.ifElse n x ss' els], scs, by simp, ho, gstmts_append hs (.if_ ht hc hb he .nil), by simp⟩
  | @elseIf u ie n x sp bs scs body ss tag i us n' x' sp' ho hs ht hi hc ih =>
    intro ie1 n1 x1 sp1 bs1 body1 ss1 tail1 els1 e hb1 he1
    cases e
    obtain ⟨stmt, st, h1, h2, h3⟩ := ih (ie := ie) (n := n) (x := x) (sp := sp) (bs := bs) rfl hs
      (.elseIf ht hi hc hb1 he1)
    refine ⟨stmt, st, ?_, ?_, ?_⟩
    · rw [← h1, finish]
      simp only [Bool.not_true, Bool.false_eq_true, if_false, pushStmt, Res.pure_eq, Res.ok_bind]
      rw [closeIf_else]
      simp
    · intro b hb
      exact List.mem_cons_of_mem _ (h2 b hb)
    · simpa using h3

/-- Frames carry spans that can be reported. -/
def FramesOK (cx : LexCx) (bs : List BlockFrame) : Prop :=
  ∀ b ∈ bs, SpanOK cx.source (BlockFrame.unclosed b).2

theorem FramesOK.cons {b : BlockFrame} {bs : List BlockFrame} (h1 : SpanOK cx.source (BlockFrame.unclosed b).2)
    (h2 : FramesOK cx bs) : FramesOK cx (b :: bs) := by
  intro x hx
  rcases List.mem_cons.mp hx with rfl | hx
  · exact h1
  · exact h2 x hx

theorem FramesOK.tail {b : BlockFrame} {bs : List BlockFrame} (h : FramesOK cx (b :: bs)) : FramesOK cx bs :=
  fun x hx => h x (List.mem_cons_of_mem _ hx)

theorem FramesOK.flip {ie n : Bool} {x : Expr} {sp : Span} {bs : List BlockFrame}
    (h : FramesOK cx (.if_ ie n x sp false :: bs)) : FramesOK cx (.if_ ie n x sp true :: bs) := by
  have h1 : SpanOK cx.source sp := h _ List.mem_cons_self
  exact FramesOK.cons h1 h.tail

/-- Adding a finished statement. -/
theorem State.push {used : List Tok} {st : Stacks} (h : State cx used st) {item : List Tok} {s : Stmt}
    (hi : Spec.GStmts cx.env cx.source item [s]) :
    ∃ scopes, pushStmt st.scopes s = .ok scopes ∧ State cx (used ++ item) { st with scopes } := by
  obtain ⟨u, cur, ss, scs, rfl, h1, h2, h3⟩ := h
  refine ⟨(s :: ss.reverse) :: scs, by simp [h3, pushStmt], u, cur ++ item, ss ++ [s], scs, by simp, h1,
    gstmts_append h2 hi, by simp⟩

theorem gtag {b k e : Span} {us : List Tok} {w : String} (hk : Spec.IsKw cx.source (.keyword, k) w) :
    Spec.GTag cx.source w us ((.beginBlock, b) :: (.keyword, k) :: us ++ [(.endBlock, e)]) := .mk hk

/-- Handling a block tag. -/
theorem handleBlock_sound (hne : cx.source ≠ []) {used us : List Tok} {st : Stacks} {blk : Block} {b e : Span}
    {span : Span} (hg : GBlock cx us blk) (hst : State cx used st) (hf : FramesOK cx st.blocks)
    (hsp : SpanOK cx.source span) :
    (∃ er, handleBlock cx span st blk = .err er) ∨
    (∃ st', handleBlock cx span st blk = .ok (none, st') ∧ FramesOK cx st'.blocks ∧
      State cx (used ++ ((.beginBlock, b) :: us ++ [(.endBlock, e)])) st') ∨
    (∃ stmt st' scopes, handleBlock cx span st blk = .ok (some stmt, st') ∧ FramesOK cx st'.blocks ∧
      pushStmt st'.scopes stmt = .ok scopes ∧
      State cx (used ++ ((.beginBlock, b) :: us ++ [(.endBlock, e)])) { st' with scopes }) := by
  have err : ∀ m, (∃ er, (errSyntax cx.env m cx.source span : Res (Option Stmt × Stacks)) = .err er) :=
    fun m => errAt hne hsp m
  obtain ⟨blocks, scopes⟩ := st
  have hst' := hst
  obtain ⟨u, cur, ss, scs, rfl, ho, hs, hsc⟩ := hst
  simp only at hsc ho hf
  subst hsc
  cases hg with
  | @if_ k us n x hk hc =>
    right; left
    refine ⟨_, rfl, hf.cons hsp, _, [], [], _, ?_, Open.if_ ho hs (.mk (b := b) (e := e) hk) hc, .nil, rfl⟩
    simp
  | @else_ k hk =>
    cases ho with
    | top => exact Or.inl (err _)
    | for_ => exact Or.inl (err _)
    | with_ => exact Or.inl (err _)
    | else_ => exact Or.inl (err _)
    | if_ h1 h2 h3 h4 =>
      right; left
      refine ⟨_, rfl, hf.flip, _, [], [], _, ?_,
        Open.else_ (Open.if_ h1 h2 h3 h4) hs (.mk (b := b) (e := e) hk), .nil, rfl⟩
      simp
    | elseIf h1 h2 h3 h4 h5 =>
      right; left
      refine ⟨_, rfl, hf.flip, _, [], [], _, ?_,
        Open.else_ (Open.elseIf h1 h2 h3 h4 h5) hs (.mk (b := b) (e := e) hk), .nil, rfl⟩
      simp
  | @elseIf k i us n x hk hi hc =>
    cases ho with
    | top => exact Or.inl (err _)
    | for_ => exact Or.inl (err _)
    | with_ => exact Or.inl (err _)
    | else_ => exact Or.inl (err _)
    | if_ h1 h2 h3 h4 =>
      right; left
      refine ⟨_, rfl, (hf.flip).cons hsp, _, [], [], _, ?_,
        Open.elseIf (Open.if_ h1 h2 h3 h4) hs (.mk (b := b) (e := e) hk) hi hc, .nil, rfl⟩
      simp
    | elseIf h1 h2 h3 h4 h5 =>
      right; left
      refine ⟨_, rfl, (hf.flip).cons hsp, _, [], [], _, ?_,
        Open.elseIf (Open.elseIf h1 h2 h3 h4 h5) hs (.mk (b := b) (e := e) hk) hi hc, .nil, rfl⟩
      simp
  | @endif k hk =>
    have tag : Spec.GTag cx.source "endif" [] ((.beginBlock, b) :: (.keyword, k) :: ([] ++ [(.endBlock, e)])) := .mk hk
    -- closing a clause without `else`
    have noElse : ∀ ie n x sp bs, blocks = .if_ ie n x sp false :: bs →
        (∃ stmt st' scopes, handleBlock cx span ⟨blocks, ss.reverse :: scs⟩ .endif = .ok (some stmt, st') ∧
          FramesOK cx st'.blocks ∧ pushStmt st'.scopes stmt = .ok scopes ∧
          State cx (u ++ cur ++ ((.beginBlock, b) :: [(.keyword, k)] ++ [(.endBlock, e)])) { st' with scopes }) := by
      rintro ie n x sp bs rfl
      obtain ⟨stmt, st', h1, h2, scopes, h3, h4⟩ :=
        finish_spec (errSyntax cx.env "unexpected `endif` block" cx.source span) ho rfl hs (.endif tag)
      refine ⟨stmt, st', scopes, ?_, fun x hx => hf.tail x (h2 x hx), h3, by simpa using h4⟩
      simp only [handleBlock]
      rw [closeIf_noElse, List.reverse_reverse, h1]; rfl
    cases ho with
    | top => left; simp only [handleBlock, closeIf]; obtain ⟨er, h⟩ := errAt (cx := cx) hne (α := Stmt × Stacks) hsp _; exact ⟨er, by rw [h]; rfl⟩
    | for_ => left; simp only [handleBlock, closeIf]; obtain ⟨er, h⟩ := errAt (cx := cx) hne (α := Stmt × Stacks) hsp _; exact ⟨er, by rw [h]; rfl⟩
    | with_ => left; simp only [handleBlock, closeIf]; obtain ⟨er, h⟩ := errAt (cx := cx) hne (α := Stmt × Stacks) hsp _; exact ⟨er, by rw [h]; rfl⟩
    | if_ h1 h2 h3 h4 => exact Or.inr (Or.inr (noElse _ _ _ _ _ rfl))
    | elseIf h1 h2 h3 h4 h5 => exact Or.inr (Or.inr (noElse _ _ _ _ _ rfl))
    | @else_ u ie n x sp bs scs body ss' tag' h1 h2 h3 =>
      right; right
      obtain ⟨stmt, st', a1, a2, scopes, a3, a4⟩ :=
        finish_spec (errSyntax cx.env "unexpected `endif` block" cx.source span) h1 rfl h2 (.else_ h3 hs tag)
      refine ⟨stmt, st', scopes, ?_, fun x hx => hf.tail x (a2 x hx), a3, by simpa using a4⟩
      simp only [handleBlock]
      rw [closeIf_else, List.reverse_reverse, List.reverse_reverse, a1]; rfl
  | @for_ k vs v i us x hk hv hi hx =>
    right; left
    refine ⟨_, rfl, hf.cons hsp, _, [], [], _, ?_, Open.for_ ho hs (.mk (b := b) (e := e) hk) hv hi hx, .nil, rfl⟩
    simp
  | @endfor k hk =>
    cases ho with
    | top => exact Or.inl (err _)
    | if_ => exact Or.inl (err _)
    | elseIf => exact Or.inl (err _)
    | with_ => exact Or.inl (err _)
    | else_ => exact Or.inl (err _)
    | @for_ u bs scs pre ss' tag vs v i us x sp h1 h2 h3 h4 h5 h6 =>
      right; right
      refine ⟨.forLoop v x ss, ⟨bs, ss'.reverse :: scs⟩, _, by simp [handleBlock], hf.tail, by simp [pushStmt]; rfl, ?_⟩
      refine ⟨u, pre ++ (tag ++ cur ++ ((.beginBlock, b) :: (.keyword, k) :: ([] ++ [(.endBlock, e)])) ++ []), ss' ++ [.forLoop v x ss],
        scs, by simp, h1, gstmts_append h2 (.for_ h3 h4 h5 h6 hs (.mk hk) .nil), by simp⟩
  | @with_ k us x a n hk hx ha =>
    right; left
    refine ⟨_, rfl, hf.cons hsp, _, [], [], _, ?_, Open.with_ ho hs (.mk (b := b) (e := e) hk) hx ha, .nil, rfl⟩
    simp
  | @endwith k hk =>
    cases ho with
    | top => exact Or.inl (err _)
    | if_ => exact Or.inl (err _)
    | elseIf => exact Or.inl (err _)
    | for_ => exact Or.inl (err _)
    | else_ => exact Or.inl (err _)
    | @with_ u bs scs pre ss' tag us x a n sp h1 h2 h3 h4 h5 =>
      right; right
      refine ⟨.with_ x ⟨n⟩ ss, ⟨bs, ss'.reverse :: scs⟩, _, by simp [handleBlock], hf.tail, by simp [pushStmt]; rfl, ?_⟩
      refine ⟨u, pre ++ (tag ++ cur ++ ((.beginBlock, b) :: (.keyword, k) :: ([] ++ [(.endBlock, e)])) ++ []), ss' ++ [.with_ x ⟨n⟩ ss],
        scs, by simp, h1, gstmts_append h2 (.with_ h3 h4 h5 hs (.mk hk) .nil), by simp⟩
  | @include_ k n raw name hk hraw hn =>
    right; right
    obtain ⟨scopes, a1, a2⟩ := hst'.push (.include_ (.mk (b := b) (e := e) hk) hraw hn .nil)
    exact ⟨_, _, scopes, rfl, hf, a1, by simpa using a2⟩
  | @includeWith k n raw name w us x hk hraw hn hw hx =>
    right; right
    obtain ⟨scopes, a1, a2⟩ := hst'.push (.includeWith (.mk (b := b) (e := e) hk) hraw hn hw hx .nil)
    exact ⟨_, _, scopes, rfl, hf, a1, by simpa using a2⟩

/-- One item of a template. -/
theorem parseItem_sound (hne : cx.source ≠ []) {tk : Token} {sp : Span} {ts used : List Tok} {r : Option Err}
    {p : Parser} {st : Stacks} (h : Abs cx p ts r) (hs : Str' cx ((tk, sp) :: ts)) (hsh : Shape false ((tk, sp) :: ts))
    (hst : State cx used st) (hf : FramesOK cx st.blocks) :
    (∃ e, parseItem cx tk sp st p = .err e) ∨
    ∃ item rest st' p', ts = item ++ rest ∧ parseItem cx tk sp st p = .ok (st', p') ∧ Abs cx p' rest r ∧
      Shape false rest ∧ State cx (used ++ (tk, sp) :: item) st' ∧ FramesOK cx st'.blocks := by
  have ok := hs.toks (tk, sp) (by simp)
  cases hsh with
  | cons hhead hsh =>
  have hhead := hhead rfl
  have hsh' : ∀ {x}, Lexer.inTagNext false tk = x → Shape x ts := by rintro x rfl; exact hsh
  cases tk <;> simp [Spec.isBeginTag] at hhead
  case raw =>
    right
    obtain ⟨scopes, a1, a2⟩ := hst.push (item := [(.raw, sp)]) (s := .raw sp) (.raw .nil)
    exact ⟨[], ts, ⟨st.blocks, scopes⟩, p, rfl, by simp [parseItem, a1], h, hsh' rfl, a2, hf⟩
  case beginComment =>
    have hsh1 := hsh' (x := true) rfl
    rcases expect_parses hne h hs.tail.toks .raw with ⟨e, a1⟩ | ⟨us, rest, sp1, p1, rfl, a1, a2, rfl⟩
    · exact Or.inl ⟨e, by simp [parseItem, a1]⟩
    · rcases expect_parses hne a2 hs.tail.suffix.toks .endComment with ⟨e, b1⟩ | ⟨us, rest, sp2, p2, rfl, b1, b2, rfl⟩
      · exact Or.inl ⟨e, by simp [parseItem, a1, b1]⟩
      · right
        refine ⟨[(.raw, sp1), (.endComment, sp2)], rest, st, p2, rfl, by simp [parseItem, a1, b1], b2, ?_, ?_, hf⟩
        · exact shape_close (us := [(.raw, sp1)]) (t := (.endComment, sp2)) (.cons rfl rfl .nil) rfl hsh1
        · obtain ⟨u, cur, ss, scs, rfl, h1, h2, h3⟩ := hst
          refine ⟨u, cur ++ [(.beginComment, sp), (.raw, sp1), (.endComment, sp2)], ss ++ [], scs, by simp, h1,
            gstmts_append h2 (.comment .nil), by simpa using h3⟩
  case beginExpr =>
    have hsh1 := hsh' (x := true) rfl
    rcases parseExpr_parses hne h hs.tail with ⟨e, a1⟩ | ⟨us, rest, x, p1, rfl, a1, a2, a3⟩
    · exact Or.inl ⟨e, by simp [parseItem, a1]⟩
    · rcases expect_parses hne a2 hs.tail.suffix.toks .endExpr with ⟨e, b1⟩ | ⟨us', rest, sp2, p2, rfl, b1, b2, rfl⟩
      · exact Or.inl ⟨e, by simp [parseItem, a1, b1]⟩
      · right
        obtain ⟨scopes, c1, c2⟩ := hst.push (.expr (b := sp) (e := sp2) a3 .nil)
        refine ⟨us ++ [(.endExpr, sp2)], rest, ⟨st.blocks, scopes⟩, p2, by simp, by simp [parseItem, a1, b1, c1], b2, ?_, ?_, hf⟩
        · exact shape_close (t := (.endExpr, sp2)) (gexpr_plain a3) rfl hsh1
        · simpa using c2
  case beginBlock =>
    have hsh1 := hsh' (x := true) rfl
    rcases parseBlock_parses hne h hs.tail with ⟨e, a1⟩ | ⟨us, rest, x, p1, rfl, a1, a2, a3⟩
    · exact Or.inl ⟨e, by simp [parseItem, a1]⟩
    · rcases expect_parses hne a2 hs.tail.suffix.toks .endBlock with ⟨e, b1⟩ | ⟨us', rest, sp2, p2, rfl, b1, b2, rfl⟩
      · exact Or.inl ⟨e, by simp [parseItem, a1, b1]⟩
      · have hsp : SpanOK cx.source (sp.combine sp2) := ok.span.combine (hs.toks (.endBlock, sp2) (by simp)).span
        have hclose := shape_close (t := (.endBlock, sp2)) (gblock_plain a3) rfl hsh1
        rcases handleBlock_sound hne (b := sp) (e := sp2) a3 hst hf hsp with
          ⟨er, c1⟩ | ⟨st', c1, c2, c3⟩ | ⟨stmt, st', scopes, c1, c2, c3, c4⟩
        · exact Or.inl ⟨er, by simp [parseItem, a1, b1, c1]⟩
        · right
          exact ⟨us ++ [(.endBlock, sp2)], rest, st', p2, by simp, by simp [parseItem, a1, b1, c1], b2, hclose,
            by simpa using c3, c2⟩
        · right
          exact ⟨us ++ [(.endBlock, sp2)], rest, ⟨st'.blocks, scopes⟩, p2, by simp, by simp [parseItem, a1, b1, c1, c3], b2, hclose,
            by simpa using c4, c2⟩

/-- The main loop accepts only what the grammar accepts, and does not crash. -/
theorem parseLoop_sound (hne : cx.source ≠ []) : ∀ (fuel : Nat) (ts used : List Tok) (r : Option Err)
    (p : Parser) (st : Stacks), Abs cx p ts r → Str' cx ts → Shape false ts → State cx used st →
    FramesOK cx st.blocks → ts.length < fuel →
    (∃ e, parseLoop cx fuel st p = .err e) ∨
    ∃ ast, parseLoop cx fuel st p = .ok ast ∧ r = none ∧ Spec.GStmts cx.env cx.source (used ++ ts) ast := by
  intro fuel
  induction fuel with
  | zero => intro ts used r p st _ _ _ _ _ h; omega
  | succ fuel ih =>
    intro ts used r p st h hs hsh hst hf hl
    cases ts with
    | nil =>
      cases r with
      | some e => exact Or.inl ⟨e, by simp [parseLoop, next_err h]⟩
      | none =>
        obtain ⟨p', h1⟩ := next_eof h
        cases hb : st.blocks.getLast? with
        | some b =>
          left
          obtain ⟨e, he⟩ := errAt (cx := cx) hne (α := List Stmt) (hf b (List.mem_of_getLast? hb)) (BlockFrame.unclosed b).1
          exact ⟨e, by simp only [parseLoop, h1, Res.ok_bind, hb]; exact he⟩
        | none =>
          right
          obtain ⟨u, cur, ss, scs, rfl, a1, a2, a3⟩ := hst
          have hb' : st.blocks = [] := by simpa using hb
          rw [hb'] at a1
          cases a1 with
          | top => exact ⟨ss, by simp [parseLoop, h1, hb, a3], rfl, by simpa using a2⟩
    | cons t ts =>
      obtain ⟨tk, sp⟩ := t
      obtain ⟨p1, h1, h2⟩ := next_cons h
      rcases parseItem_sound hne h2 hs hsh hst hf with ⟨e, a1⟩ | ⟨item, rest, st', p2, rfl, a1, a2, a3, a4, a5⟩
      · exact Or.inl ⟨e, by simp [parseLoop, h1, a1]⟩
      · rcases ih rest _ r p2 st' a2 hs.tail.suffix a3 a4 a5 (by simp at hl; omega) with ⟨e, b1⟩ | ⟨ast, b1, b2, b3⟩
        · exact Or.inl ⟨e, by simp [parseLoop, h1, a1, b1]⟩
        · exact Or.inr ⟨ast, by simp [parseLoop, h1, a1, b1], b2, by simpa using b3⟩

end Parser
end Upon
