import Verif.Proofs.ParseStmt
/-
Templates: the parser accepts whatever the grammar accepts.
-/
namespace Upon
namespace Parser

variable {cx : LexCx}

/-- Reading the tokens `ts` takes the main loop from one pair of stacks to another. -/
def Goes (cx : LexCx) (st : Stacks) (ts : List Tok) (st' : Stacks) : Prop :=
  ∀ p rest r, Abs cx p (ts ++ rest) r → Str' cx (ts ++ rest) →
    ∃ k p', k ≤ ts.length ∧ Abs cx p' rest r ∧
      ∀ fuel, parseLoop cx (fuel + k) st p = parseLoop cx fuel st' p'

theorem Goes.refl (st : Stacks) : Goes cx st [] st :=
  fun p rest r h _ => ⟨0, p, by simp, h, fun _ => rfl⟩

theorem Goes.trans {a b c : Stacks} {xs ys : List Tok} (h1 : Goes cx a xs b) (h2 : Goes cx b ys c) :
    Goes cx a (xs ++ ys) c := by
  intro p rest r h hs
  rw [List.append_assoc] at h hs
  obtain ⟨k1, p1, a1, a2, a3⟩ := h1 p _ r h hs
  obtain ⟨k2, p2, b1, b2, b3⟩ := h2 p1 rest r a2 hs.suffix
  refine ⟨k1 + k2, p2, by simp; omega, b2, fun fuel => ?_⟩
  rw [Nat.add_comm k1 k2, ← Nat.add_assoc, a3, b3]

/-- One item. -/
theorem Goes.item {st st' : Stacks} {tk : Token} {sp : Span} {ts : List Tok}
    (h : ∀ p rest r, Abs cx p (ts ++ rest) r → Str' cx (ts ++ rest) →
      ∃ p', parseItem cx tk sp st p = .ok (st', p') ∧ Abs cx p' rest r) :
    Goes cx st ((tk, sp) :: ts) st' := by
  intro p rest r ha hs
  simp only [List.cons_append] at ha hs
  obtain ⟨p1, h1, h2⟩ := next_cons ha
  obtain ⟨p2, h3, h4⟩ := h p1 rest r h2 hs.tail
  exact ⟨1, p2, by simp, h4, fun fuel => by simp [parseLoop, h1, h3]⟩

theorem Goes.raw (bs : List BlockFrame) (s : List Stmt) (scs : List (List Stmt)) (sp : Span) :
    Goes cx ⟨bs, s :: scs⟩ [(.raw, sp)] ⟨bs, (.raw sp :: s) :: scs⟩ :=
  Goes.item (fun p rest r h _ => ⟨p, by simp [parseItem, pushStmt], h⟩)

theorem Goes.comment (st : Stacks) (b r e : Span) :
    Goes cx st [(.beginComment, b), (.raw, r), (.endComment, e)] st := by
  refine Goes.item (fun p rest r' h _ => ?_)
  simp only [List.cons_append, List.nil_append] at h
  obtain ⟨p1, h1, h2⟩ := expect_ok h
  obtain ⟨p2, h3, h4⟩ := expect_ok h2
  exact ⟨p2, by simp [parseItem, h1, h3], h4⟩

theorem Goes.expr (bs : List BlockFrame) (s : List Stmt) (scs : List (List Stmt)) {us : List Tok} {x : Expr}
    (b e : Span) (hx : Spec.GExpr cx.env cx.source us x) :
    Goes cx ⟨bs, s :: scs⟩ ((.beginExpr, b) :: (us ++ [(.endExpr, e)]))
      ⟨bs, (.inlineExpr x (b.combine e) :: s) :: scs⟩ := by
  refine Goes.item (fun p rest r' h hs => ?_)
  rw [List.append_assoc] at h hs
  obtain ⟨p1, h1, h2⟩ := parseExpr_ok hx (t := (.endExpr, e)) rfl h hs
  obtain ⟨p2, h3, h4⟩ := expect_ok h2
  exact ⟨p2, by simp [parseItem, h1, h3, pushStmt], h4⟩

theorem Goes.tag {st st' : Stacks} {us : List Tok} {blk : Block} {b e : Span} (hg : GBlock cx us blk)
    (h : handleBlock cx (b.combine e) st blk = .ok (none, st')) :
    Goes cx st ((.beginBlock, b) :: (us ++ [(.endBlock, e)])) st' := by
  refine Goes.item (fun p rest r' ha hs => ?_)
  rw [List.append_assoc] at ha hs
  obtain ⟨p1, h1, h2⟩ := parseBlock_ok hg ha hs
  obtain ⟨p2, h3, h4⟩ := expect_ok h2
  exact ⟨p2, by simp [parseItem, h1, h3, h], h4⟩

theorem Goes.tagStmt {st st' : Stacks} {us : List Tok} {blk : Block} {b e : Span} (hg : GBlock cx us blk)
    {stmt : Stmt} {scopes : List (List Stmt)}
    (h : handleBlock cx (b.combine e) st blk = .ok (some stmt, st'))
    (hp : pushStmt st'.scopes stmt = .ok scopes) :
    Goes cx st ((.beginBlock, b) :: (us ++ [(.endBlock, e)])) ⟨st'.blocks, scopes⟩ := by
  refine Goes.item (fun p rest r' ha hs => ?_)
  rw [List.append_assoc] at ha hs
  obtain ⟨p1, h1, h2⟩ := parseBlock_ok hg ha hs
  obtain ⟨p2, h3, h4⟩ := expect_ok h2
  exact ⟨p2, by simp [parseItem, h1, h3, h, hp], h4⟩

open Spec in
mutual
theorem gstmts_goes {ts : List Tok} {ss : List Stmt} (h : GStmts cx.env cx.source ts ss)
    (bs : List BlockFrame) (s : List Stmt) (scs : List (List Stmt)) :
    Goes cx ⟨bs, s :: scs⟩ ts ⟨bs, (ss.reverse ++ s) :: scs⟩ := by
  match h with
  | .nil => exact Goes.refl _
  | .raw (sp := sp) h =>
    have := (Goes.raw bs s scs sp).trans (gstmts_goes h bs _ scs)
    simpa using this
  | .comment (b := b) (r := r) (e := e) h =>
    have := (Goes.comment ⟨bs, s :: scs⟩ b r e).trans (gstmts_goes h bs _ scs)
    simpa using this
  | .expr (b := b) (e := e) h1 h2 =>
    have := (Goes.expr bs s scs b e h1).trans (gstmts_goes h2 bs _ scs)
    simpa using this
  | .include_ t1 h1 h2 h3 =>
    obtain @⟨b, _, e, _, hk⟩ := t1
    have := (Goes.tagStmt (st := ⟨bs, s :: scs⟩) (b := b) (e := e) (.include_ hk h1 h2) rfl rfl).trans (gstmts_goes h3 bs _ scs)
    simpa using this
  | .includeWith t1 h1 h2 h3 h4 h5 =>
    obtain @⟨b, _, e, _, hk⟩ := t1
    have := (Goes.tagStmt (st := ⟨bs, s :: scs⟩) (b := b) (e := e) (.includeWith hk h1 h2 h3 h4) rfl rfl).trans (gstmts_goes h5 bs _ scs)
    simpa using this
  | .for_ (x := x) (v := v) (ss' := ss') t1 h1 h2 h3 h4 t2 h6 =>
    obtain @⟨b, _, e, _, hk⟩ := t1
    obtain @⟨b', _, e', _, hk'⟩ := t2
    have g1 := Goes.tag (st := ⟨bs, s :: scs⟩) (b := b) (e := e) (.for_ hk h1 h2 h3) rfl
    have g2 := gstmts_goes h4 (.for_ v x (b.combine e) :: bs) [] (s :: scs)
    have g3 := Goes.tagStmt (st := ⟨.for_ v x (b.combine e) :: bs, (ss'.reverse ++ []) :: s :: scs⟩)
      (b := b') (e := e') (.endfor hk') rfl rfl
    have := ((g1.trans g2).trans g3).trans (gstmts_goes h6 bs _ scs)
    simpa using this
  | .with_ (x := x) (nsp := nsp) (ss' := ss') t1 h1 h2 h3 t2 h6 =>
    obtain @⟨b, _, e, _, hk⟩ := t1
    obtain @⟨b', _, e', _, hk'⟩ := t2
    have g1 := Goes.tag (st := ⟨bs, s :: scs⟩) (b := b) (e := e) (.with_ (n := nsp) hk h1 h2) rfl
    have g2 := gstmts_goes h3 (.with_ x ⟨nsp⟩ (b.combine e) :: bs) [] (s :: scs)
    have g3 := Goes.tagStmt (st := ⟨.with_ x ⟨nsp⟩ (b.combine e) :: bs, (ss'.reverse ++ []) :: s :: scs⟩)
      (b := b') (e := e') (.endwith hk') rfl rfl
    have := ((g1.trans g2).trans g3).trans (gstmts_goes h6 bs _ scs)
    simpa using this
  | .if_ (x := x) (n := n) (ss' := ss') (els := els) t1 h1 h2 h3 h4 =>
    obtain @⟨b, _, e, _, hk⟩ := t1
    have g1 := Goes.tag (st := ⟨bs, s :: scs⟩) (b := b) (e := e) (.if_ hk h1) rfl
    have g2 := gstmts_goes h2 (.if_ false n x (b.combine e) false :: bs) [] (s :: scs)
    have g3 := gelse_goes h3 (ie := false) (n := n) (x := x) (sp := b.combine e) (bs := bs) (ss := ss')
      (scs := s :: scs) (stmt := .ifElse n x ss' els) (st := ⟨bs, s :: scs⟩)
      (scopes := (.ifElse n x ss' els :: s) :: scs) (fun _ => rfl) rfl
    have := ((g1.trans (by simpa using g2)).trans g3).trans (gstmts_goes h4 bs _ scs)
    simpa using this

theorem gelse_goes {ts : List Tok} {els : Option (List Stmt)} (h : GElse cx.env cx.source ts els)
    {ie n : Bool} {x : Expr} {sp : Span} {bs : List BlockFrame} {ss : List Stmt} {scs : List (List Stmt)}
    {stmt : Stmt} {st : Stacks} {scopes : List (List Stmt)}
    (hf : ∀ err, finish err ie (.ifElse n x ss els) bs scs = .ok (stmt, st))
    (hp : pushStmt st.scopes stmt = .ok scopes) :
    Goes cx ⟨.if_ ie n x sp false :: bs, ss.reverse :: scs⟩ ts ⟨st.blocks, scopes⟩ := by
  match h with
  | .endif t1 =>
    obtain @⟨b, _, e, _, hk⟩ := t1
    have g := Goes.tagStmt (st := ⟨.if_ ie n x sp false :: bs, ss.reverse :: scs⟩) (st' := st) (b := b) (e := e)
      (.endif hk) (by simp only [handleBlock]; rw [closeIf_noElse, List.reverse_reverse, hf]; rfl) hp
    simpa using g
  | .else_ (ss := ss') t1 h1 t2 =>
    obtain @⟨b, _, e, _, hk⟩ := t1
    obtain @⟨b', _, e', _, hk'⟩ := t2
    have g1 := Goes.tag (st := ⟨.if_ ie n x sp false :: bs, ss.reverse :: scs⟩) (b := b) (e := e) (.else_ hk) rfl
    have g2 := gstmts_goes h1 (.if_ ie n x sp true :: bs) [] (ss.reverse :: scs)
    have g3 := Goes.tagStmt (st := ⟨.if_ ie n x sp true :: bs, (ss'.reverse ++ []) :: ss.reverse :: scs⟩) (st' := st)
      (b := b') (e := e')
      (.endif hk') (by simp only [handleBlock, List.append_nil]; rw [closeIf_else, List.reverse_reverse, List.reverse_reverse, hf]; rfl) hp
    have := (g1.trans g2).trans g3
    simpa using this
  | .elseIf (n := n') (x := x') (ss := ss') (els := els') t1 h1 h2 h3 h4 =>
    obtain @⟨b, _, e, _, hk⟩ := t1
    have g1 := Goes.tag (st := ⟨.if_ ie n x sp false :: bs, ss.reverse :: scs⟩) (b := b) (e := e) (.elseIf hk h1 h2) rfl
    have g2 := gstmts_goes h3 (.if_ true n' x' (b.combine e) false :: .if_ ie n x sp true :: bs) []
      ([] :: ss.reverse :: scs)
    have g3 := gelse_goes h4 (ie := true) (n := n') (x := x') (sp := b.combine e)
      (bs := .if_ ie n x sp true :: bs) (ss := ss') (scs := [] :: ss.reverse :: scs) (stmt := stmt) (st := st)
      (scopes := scopes) (fun err => by
        rw [← hf err, finish]
        simp only [Bool.not_true, Bool.false_eq_true, if_false, pushStmt, Res.pure_eq, Res.ok_bind]
        rw [closeIf_else]
        simp) hp
    have := (g1.trans (by simpa using g2)).trans g3
    simpa using this
end

/-- The main loop accepts what the grammar accepts. -/
theorem parseLoop_complete {ts : List Tok} {ast : List Stmt} (h : Spec.GStmts cx.env cx.source ts ast) {p : Parser}
    (ha : Abs cx p ts none) (hs : Str' cx ts) {fuel : Nat} (hf : ts.length < fuel) :
    parseLoop cx fuel ⟨[], [[]]⟩ p = .ok ast := by
  obtain ⟨k, p', h1, h2, h3⟩ := gstmts_goes h [] [] [] p [] none (by simpa using ha) (by simpa using hs)
  obtain ⟨f, rfl⟩ : ∃ f, fuel = (f + 1) + k := ⟨fuel - k - 1, by omega⟩
  rw [h3]
  obtain ⟨p2, h4⟩ := next_eof h2
  simp [parseLoop, h4]

end Parser
end Upon
