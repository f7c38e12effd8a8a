import Verif.Proofs.DiagItem
/-
The main loop of the parser and the diagnosis (for C51).
-/
namespace Upon
open Spec
namespace Diag
open Machine (Ctl Pos After Act Blk exprStep afterStep kwStep run_append_of run_cons_of run_nil run_cons run_one doing Inner)
open Plain (spoken textAt_of WStmts)
open Parser (Parses next_cons next_eof next_err peek_cons peek_eof peek_err Str' GBlock)

variable {cx : LexCx}

/-! The open blocks of the parser -/

/-- The open blocks as the machine has them. -/
def blks : List BlockFrame → List Blk
  | [] => []
  | .if_ ie _ _ _ h :: bs => (if h then .ifElse else .ifOpen) :: (if ie then (blks bs).tail else blks bs)
  | .for_ _ _ _ :: bs => .for_ :: blks bs
  | .with_ _ _ _ :: bs => .with_ :: blks bs

/-- Every clause `else if` belongs to a clause before it. -/
def Chain : List BlockFrame → Prop
  | [] => True
  | .if_ true _ _ _ _ :: bs => (∃ ie n x sp bs', bs = .if_ ie n x sp true :: bs') ∧ Chain bs
  | _ :: bs => Chain bs

theorem Chain.tail {b : BlockFrame} {bs : List BlockFrame} (h : Chain (b :: bs)) : Chain bs := by
  cases b with
  | if_ ie n x sp h' =>
    cases ie with
    | true => exact h.2
    | false => exact h
  | _ => exact h

theorem blks_ne {bs : List BlockFrame} (h : bs ≠ []) : blks bs ≠ [] := by
  cases bs with
  | nil => exact absurd rfl h
  | cons b bs => cases b <;> simp [blks]

/-- The outermost open block. -/
def outermost (bs : List BlockFrame) : Option (String × Span) := bs.getLast?.map Parser.BlockFrame.unclosed

theorem outermost_cons {b : BlockFrame} {bs : List BlockFrame} (h : bs ≠ []) : outermost (b :: bs) = outermost bs := by
  cases bs with
  | nil => exact absurd rfl h
  | cons c bs => simp [outermost]

theorem closeIf_ok {er : Res (Stmt × Parser.Stacks)} (her : ∀ x, er ≠ .ok x) : ∀ {bs : List BlockFrame} {scs : List (List Stmt)} {stmt : Stmt} {st : Parser.Stacks},
    Chain bs → Parser.closeIf er bs scs = .ok (stmt, st) →
    ∃ b, (b = .ifOpen ∨ b = .ifElse) ∧ blks bs = b :: blks st.blocks ∧ Chain st.blocks ∧ (st.blocks ≠ [] → outermost st.blocks = outermost bs) := by
  intro bs
  induction bs with
  | nil => intro scs stmt st _ h; exact absurd h (her _)
  | cons f bs ih =>
    intro scs stmt st hc h
    cases f with
    | for_ => exact absurd h (her _)
    | with_ => exact absurd h (her _)
    | if_ ie n x sp hasElse =>
      -- the statements of the clause
      have go : ∀ (stm : Stmt) (scs : List (List Stmt)), Parser.finish er ie stm bs scs = .ok (stmt, st) →
          ∃ b, (b = Blk.ifOpen ∨ b = .ifElse) ∧ blks (.if_ ie n x sp hasElse :: bs) = b :: blks st.blocks ∧ Chain st.blocks ∧
            (st.blocks ≠ [] → outermost st.blocks = outermost (.if_ ie n x sp hasElse :: bs)) := by
        intro stm scs h
        have hb : (if hasElse then Blk.ifElse else .ifOpen) = .ifOpen ∨ (if hasElse then Blk.ifElse else .ifOpen) = .ifElse := by
          cases hasElse <;> simp
        cases ie with
        | false =>
          simp only [Parser.finish, Bool.not_false, if_true] at h
          cases h
          exact ⟨_, hb, rfl, hc.tail, fun hne => (outermost_cons hne).symm⟩
        | true =>
          simp only [Parser.finish, Bool.not_true, Bool.false_eq_true, if_false] at h
          cases hp : Parser.pushStmt scs stm with
          | err e => rw [hp] at h; cases h
          | crash => rw [hp] at h; cases h
          | ok scs' =>
            rw [hp, Res.ok_bind] at h
            obtain ⟨b, b1, b2, b3, b4⟩ := ih hc.2 h
            refine ⟨_, hb, ?_, b3, ?_⟩
            · simp only [blks, if_true]; rw [b2]; rfl
            · intro hne
              rw [b4 hne, outermost_cons]
              obtain ⟨⟨ie, n, x, sp, bs', e⟩, _⟩ := hc
              rw [e]; simp
      cases hasElse with
      | false =>
        cases scs with
        | nil => simp [Parser.closeIf] at h
        | cons s scs => rw [Parser.closeIf_noElse] at h; exact go _ _ h
      | true =>
        cases scs with
        | nil => simp [Parser.closeIf] at h
        | cons s scs =>
          cases scs with
          | nil => simp [Parser.closeIf] at h
          | cons s2 scs => rw [Parser.closeIf_else] at h; exact go _ _ h

theorem closeIf_err {er : Res (Stmt × Parser.Stacks)} : ∀ {bs : List BlockFrame} {scs : List (List Stmt)} {e : Err}, Chain bs →
    Parser.closeIf er bs scs = .err e → er = .err e ∧ Act.endif.on (blks bs) = none := by
  intro bs
  induction bs with
  | nil => intro scs e _ h; exact ⟨h, rfl⟩
  | cons f bs ih =>
    intro scs e hc h
    cases f with
    | for_ => exact ⟨h, rfl⟩
    | with_ => exact ⟨h, rfl⟩
    | if_ ie n x sp hasElse =>
      exfalso
      have go : ∀ (stm : Stmt) (scs : List (List Stmt)), Parser.finish er ie stm bs scs = .err e → False := by
        intro stm scs h
        cases ie with
        | false => simp [Parser.finish] at h
        | true =>
          simp only [Parser.finish, Bool.not_true, Bool.false_eq_true, if_false] at h
          cases hp : Parser.pushStmt scs stm with
          | err e' => cases scs <;> cases hp
          | crash => rw [hp] at h; cases h
          | ok scs' =>
            rw [hp, Res.ok_bind] at h
            have := (ih hc.2 h).2
            obtain ⟨⟨ie, n, x, sp, bs', e'⟩, _⟩ := hc
            rw [e'] at this
            simp [blks, Act.on] at this
      cases hasElse with
      | false =>
        cases scs with
        | nil => simp [Parser.closeIf] at h
        | cons s scs => rw [Parser.closeIf_noElse] at h; exact go _ _ h
      | true =>
        cases scs with
        | nil => simp [Parser.closeIf] at h
        | cons s scs =>
          cases scs with
          | nil => simp [Parser.closeIf] at h
          | cons s2 scs => rw [Parser.closeIf_else] at h; exact go _ _ h

/-- What the message about a block tag calls it. -/
def nameOf : Block → String
  | .if_ _ _ => "if"
  | .else_ => "else"
  | .elseIf _ _ => "else if"
  | .endif => "endif"
  | .for_ _ _ => "for"
  | .endfor => "endfor"
  | .with_ _ _ => "with"
  | .endwith => "endwith"
  | .include_ _ _ => "include"

theorem kwText {k : Span} {w : String} (h : IsKw cx.source (.keyword, k) w) : textAt cx.source k = w.toList := textAt_of h.2

theorem tagName {k : Span} {us : List Tok} {b : Block} (h : GBlock cx ((.keyword, k) :: us) b) : TagName cx.source k us (nameOf b) := by
  cases h with
  | if_ h => exact .keyword (kwText h) (by simp [nameOf])
  | else_ h => exact .keyword (kwText h) (by simp)
  | elseIf h h' => exact .elseIf (kwText h) rfl (kwText h')
  | endif h => exact .keyword (kwText h) (by simp)
  | for_ h => exact .keyword (kwText h) (by simp [nameOf])
  | endfor h => exact .keyword (kwText h) (by simp)
  | with_ h => exact .keyword (kwText h) (by simp [nameOf])
  | endwith h => exact .keyword (kwText h) (by simp)
  | include_ h => exact .keyword (kwText h) (by simp [nameOf])
  | includeWith h => exact .keyword (kwText h) (by simp [nameOf])

/-- Handling a block tag changes the open blocks as the machine does. -/
theorem handle_ok {span : Span} {st st' : Parser.Stacks} {b : Block} {o : Option Stmt} (hc : Chain st.blocks)
    (h : Parser.handleBlock cx span st b = .ok (o, st')) :
    (actOf b).on (blks st.blocks) = some (blks st'.blocks) ∧ Chain st'.blocks ∧
    (st'.blocks ≠ [] → (st.blocks ≠ [] ∧ outermost st'.blocks = outermost st.blocks) ∨
      (st.blocks = [] ∧ outermost st'.blocks = some (s!"unclosed `{nameOf b}` block", span))) := by
  have noer : ∀ {α} (m : String) (x : α), (errSyntax cx.env m cx.source span : Res α) ≠ .ok x := by
    intro α m x; simp only [errSyntax, throwAt]; split <;> simp
  have open_ : ∀ {f : BlockFrame} {w : String}, Parser.BlockFrame.unclosed f = (s!"unclosed `{w}` block", span) →
      (st.blocks ≠ [] ∧ outermost (f :: st.blocks) = outermost st.blocks) ∨
      (st.blocks = [] ∧ outermost (f :: st.blocks) = some (s!"unclosed `{w}` block", span)) := by
    intro f w hf
    by_cases hb : st.blocks = []
    · right; exact ⟨hb, by rw [hb, ← hf]; rfl⟩
    · left; exact ⟨hb, outermost_cons hb⟩
  cases b with
  | if_ n e =>
    cases h
    exact ⟨rfl, hc, fun _ => open_ rfl⟩
  | for_ v e =>
    cases h
    exact ⟨rfl, hc, fun _ => open_ rfl⟩
  | with_ e n =>
    cases h
    exact ⟨rfl, hc, fun _ => open_ rfl⟩
  | include_ n g =>
    cases h
    exact ⟨rfl, hc, fun hne => Or.inl ⟨hne, rfl⟩⟩
  | endif =>
    simp only [Parser.handleBlock] at h
    cases hx : Parser.closeIf (errSyntax cx.env "unexpected `endif` block" cx.source span) st.blocks st.scopes with
    | err e => rw [hx] at h; cases h
    | crash => rw [hx] at h; cases h
    | ok x =>
      obtain ⟨stmt, st2⟩ := x
      rw [hx] at h
      cases h
      obtain ⟨b, b1, b2, b3, b4⟩ := closeIf_ok (noer _) hc hx
      refine ⟨?_, b3, fun hne => Or.inl ⟨?_, b4 hne⟩⟩
      · rw [b2]; rcases b1 with rfl | rfl <;> rfl
      · intro e; rw [e] at b2; cases b2
  | else_ =>
    obtain ⟨blocks, scopes⟩ := st
    cases blocks with
    | nil => exact absurd h (noer _ _)
    | cons f bs =>
      cases f with
      | for_ => exact absurd h (noer _ _)
      | with_ => exact absurd h (noer _ _)
      | if_ ie n x sp he =>
        cases he with
        | true => exact absurd h (noer _ _)
        | false =>
          cases h
          refine ⟨rfl, ?_, fun _ => Or.inl ⟨by simp, ?_⟩⟩
          · cases ie with
            | true => exact hc
            | false => exact hc
          · cases bs with
            | nil => rfl
            | cons c bs => exact (outermost_cons (by simp)).trans (outermost_cons (by simp)).symm
  | elseIf n' x' =>
    obtain ⟨blocks, scopes⟩ := st
    cases blocks with
    | nil => exact absurd h (noer _ _)
    | cons f bs =>
      cases f with
      | for_ => exact absurd h (noer _ _)
      | with_ => exact absurd h (noer _ _)
      | if_ ie n x sp he =>
        cases he with
        | true => exact absurd h (noer _ _)
        | false =>
          cases h
          refine ⟨rfl, ⟨⟨ie, n, x, sp, bs, rfl⟩, ?_⟩, fun _ => Or.inl ⟨by simp, ?_⟩⟩
          · cases ie with
            | true => exact hc
            | false => exact hc
          · rw [outermost_cons (by simp)]
            cases bs with
            | nil => rfl
            | cons c bs => exact (outermost_cons (by simp)).trans (outermost_cons (by simp)).symm
  | endfor =>
    obtain ⟨blocks, scopes⟩ := st
    cases blocks with
    | nil => exact absurd h (noer _ _)
    | cons f bs =>
      cases f with
      | if_ => exact absurd h (noer _ _)
      | with_ => exact absurd h (noer _ _)
      | for_ v x sp =>
        cases scopes with
        | nil => cases h
        | cons s scs =>
          cases h
          exact ⟨rfl, hc.tail, fun hne => Or.inl ⟨by simp, (outermost_cons hne).symm⟩⟩
  | endwith =>
    obtain ⟨blocks, scopes⟩ := st
    cases blocks with
    | nil => exact absurd h (noer _ _)
    | cons f bs =>
      cases f with
      | if_ => exact absurd h (noer _ _)
      | for_ => exact absurd h (noer _ _)
      | with_ v x sp =>
        cases scopes with
        | nil => cases h
        | cons s scs =>
          cases h
          exact ⟨rfl, hc.tail, fun hne => Or.inl ⟨by simp, (outermost_cons hne).symm⟩⟩

theorem handle_err {span : Span} {st : Parser.Stacks} {b : Block} {e : Err} (hc : Chain st.blocks)
    (h : Parser.handleBlock cx span st b = .err e) :
    (actOf b).on (blks st.blocks) = none ∧ Reports cx s!"unexpected `{nameOf b}` block" span e := by
  cases b with
  | if_ n e => cases h
  | for_ v e => cases h
  | with_ e n => cases h
  | include_ n g => cases h
  | endif =>
    simp only [Parser.handleBlock] at h
    cases hx : Parser.closeIf (errSyntax cx.env "unexpected `endif` block" cx.source span) st.blocks st.scopes with
    | ok x => rw [hx] at h; cases h
    | crash => rw [hx] at h; cases h
    | err e' =>
      rw [hx] at h
      cases h
      obtain ⟨b1, b2⟩ := closeIf_err hc hx
      exact ⟨b2, reports b1⟩
  | else_ =>
    obtain ⟨blocks, scopes⟩ := st
    cases blocks with
    | nil => exact ⟨rfl, reports h⟩
    | cons f bs =>
      cases f with
      | for_ => exact ⟨rfl, reports h⟩
      | with_ => exact ⟨rfl, reports h⟩
      | if_ ie n x sp he =>
        cases he with
        | true => exact ⟨rfl, reports h⟩
        | false => cases h
  | elseIf n' x' =>
    obtain ⟨blocks, scopes⟩ := st
    cases blocks with
    | nil => exact ⟨rfl, reports h⟩
    | cons f bs =>
      cases f with
      | for_ => exact ⟨rfl, reports h⟩
      | with_ => exact ⟨rfl, reports h⟩
      | if_ ie n x sp he =>
        cases he with
        | true => exact ⟨rfl, reports h⟩
        | false => cases h
  | endfor =>
    obtain ⟨blocks, scopes⟩ := st
    cases blocks with
    | nil => exact ⟨rfl, reports h⟩
    | cons f bs =>
      cases f with
      | if_ _ _ _ _ he => exact ⟨by cases he <;> rfl, reports h⟩
      | with_ => exact ⟨rfl, reports h⟩
      | for_ v x sp => cases scopes <;> cases h
  | endwith =>
    obtain ⟨blocks, scopes⟩ := st
    cases blocks with
    | nil => exact ⟨rfl, reports h⟩
    | cons f bs =>
      cases f with
      | if_ _ _ _ _ he => exact ⟨by cases he <;> rfl, reports h⟩
      | for_ => exact ⟨rfl, reports h⟩
      | with_ v x sp => cases scopes <;> cases h

/-! What was read -/

/-- What is known between the items of a template. -/
structure Hist (cx : LexCx) (used : List Tok) (blocks : List BlockFrame) : Prop where
  whole : Whole cx.source used
  run : Machine.run cx.env (.text, []) (words cx.source used) = some (.text, blks blocks)
  chain : Chain blocks
  outer : blocks ≠ [] → ∃ u b k us c v w, used = u ++ blockTag b k us c ++ v ∧
    Machine.run cx.env (.text, []) (words cx.source u) = some (.text, []) ∧ TagName cx.source k us w ∧
    outermost blocks = some (s!"unclosed `{w}` block", b.combine c) ∧
    ∀ n, u.length < n → n ≤ used.length → Machine.run cx.env (.text, []) (words cx.source (used.take n)) ≠ some (.text, [])

theorem Hist.nil : Hist cx [] [] := ⟨whole_nil, rfl, trivial, fun h => absurd rfl h⟩

theorem Hist.extend {used item : List Tok} {bs bs' : List BlockFrame} (h : Hist cx used bs) (hw : Whole cx.source item) 
    (hr : Machine.run cx.env (.text, blks bs) (words cx.source item) = some (.text, blks bs'))
    (hs : ∀ k, 0 < k → k < item.length → ∀ s, Machine.run cx.env (.text, blks bs) (words cx.source (item.take k)) ≠ some (.text, s))
    (hc : Chain bs')
    (hl : bs' ≠ [] → (bs ≠ [] ∧ outermost bs' = outermost bs) ∨
      (bs = [] ∧ ∃ b k us c w, item = blockTag b k us c ∧ TagName cx.source k us w ∧
        outermost bs' = some (s!"unclosed `{w}` block", b.combine c))) :
    Hist cx (used ++ item) bs' := by
  have later : bs' ≠ [] → ∀ n, used.length < n → n ≤ (used ++ item).length →
      Machine.run cx.env (.text, []) (words cx.source ((used ++ item).take n)) ≠ some (.text, []) := by
    intro hb n h1 h2
    obtain ⟨k, rfl⟩ : ∃ k, n = used.length + k := ⟨n - used.length, by omega⟩
    rw [List.take_length_add_append, h.whole, run_append_of h.run]
    rw [List.length_append] at h2
    by_cases hk : k = item.length
    · subst hk
      rw [List.take_length, hr]
      intro e
      injection e with e
      injection e with _ e
      exact blks_ne hb e
    · exact hs k (by omega) (by omega) []
  refine ⟨h.whole.append hw, by rw [h.whole, run_append_of h.run]; exact hr, hc, ?_⟩
  intro hb
  rcases hl hb with ⟨h1, h2⟩ | ⟨h1, b, k, us, c, w, h2, h3, h4⟩
  · obtain ⟨u, b, k, us, c, v, w, e, e1, e2, e3, e4⟩ := h.outer h1
    refine ⟨u, b, k, us, c, v ++ item, w, by rw [e]; simp, e1, e2, by rw [h2, e3], ?_⟩
    intro n hn1 hn2
    by_cases hn : n ≤ used.length
    · rw [List.take_append_of_le_length hn]; exact e4 n hn1 hn
    · exact later hb n (by omega) hn2
  · subst h1
    refine ⟨used, b, k, us, c, [], w, by rw [h2]; simp, h.run, h3, h4, ?_⟩
    exact later hb

/-- Within a tag there is no text. -/
theorem tag_solid {t : Tok} {c : Ctl} (hb : Begins t c) {us vs : List Tok} {x : Tok} {q : Machine.State} {st : List Blk} (hf : Form .tag (us ++ vs)) (hi : Inside us)
    (hr : Machine.run cx.env (c, st) (spoken cx.source us) = some q) :
    ∀ k, 0 < k → k < (t :: us ++ [x]).length → ∀ s, Machine.run cx.env (.text, st) (words cx.source ((t :: us ++ [x]).take k)) ≠ some (.text, s) := by
  intro k hk0 hk s
  obtain ⟨k, rfl⟩ : ∃ j, k = j + 1 := ⟨k - 1, by omega⟩
  have hle : k ≤ us.length := by simp at hk; omega
  rw [List.cons_append, List.take_succ_cons, List.take_append_of_le_length hle]
  have hi' : Inside (us.take k) := fun y hy => hi y (List.mem_of_mem_take hy)
  have hf' : Form .tag (us.take k ++ (us.drop k ++ vs)) := by
    rw [← List.append_assoc, List.take_append_drop]; exact hf
  rw [(words_begin (cx := cx) hb hf' hi').1, run_cons_of (hb.step st)]
  have hr' : ∃ q', Machine.run cx.env (c, st) (spoken cx.source (us.take k)) = some q' := by
    rw [← List.take_append_drop k us, Plain.spoken_append, Machine.run_append] at hr
    cases hx : Machine.run cx.env (c, st) (spoken cx.source (us.take k)) with
    | none => rw [hx] at hr; cases hr
    | some q' => exact ⟨q', rfl⟩
  obtain ⟨⟨c', s'⟩, hq⟩ := hr'
  rw [hq]
  have := (Machine.run_inner hb.ne.2.2 (spoken_inner (cx := cx) (fun y hy => ((form_inside hf' hi').1 y hy).1) hi') hq).2.1
  intro e; injection e with e; injection e with e _
  exact this e

theorem run_chars (s : List Blk) (cs : Str) : Machine.run cx.env (.text, s) (cs.map .char) = some (.text, s) := by
  induction cs with
  | nil => rfl
  | cons c cs ih => rw [List.map_cons, run_cons_of (q' := (.text, s)) rfl]; exact ih

/-- The words of a whole tag. -/
theorem words_tag_end {t : Tok} {c : Ctl} (hb : Begins t c) {us vs : List Tok} {x : Tok} (hx : x.1 = .endExpr ∨ x.1 = .endBlock)
    (hf : Form .tag (us ++ vs)) (hi : Inside us) :
    words cx.source (t :: us ++ [x]) = words cx.source (t :: us) ++ [.sign x.1] ∧ Whole cx.source (t :: us ++ [x]) := by
  obtain ⟨xk, xs⟩ := x
  obtain ⟨w1, w2⟩ := words_begin (cx := cx) hb hf hi
  constructor
  · rw [w2, w1]
    rcases hx with hx | hx <;> (simp only at hx; subst hx; rfl)
  · apply whole_plain
    intro y hy
    simp only [List.cons_append, List.mem_cons, List.mem_append] at hy
    rcases hy with rfl | hy | hy
    · exact hb.ne.2.1
    · exact ((form_inside hf hi).1 y hy).2.1
    · rcases hy with rfl | hy
      · intro e; simp only at e hx; rw [e] at hx; simp at hx
      · cases hy

/-- The diagnosis. -/
theorem parseLoop_diagnosis (hne : cx.source ≠ []) : ∀ (fuel : Nat) (ts used : List Tok) (r : Option Err) (p : Parser) (st : Parser.Stacks) (e : Err),
    Yields cx Lexer.new (used ++ ts) r → Abs cx p ts r → Str' cx ts → Form .text ts → Hist cx used st.blocks →
    Parser.parseLoop cx fuel st p = .err e → Diagnosis cx e := by
  intro fuel
  induction fuel with
  | zero => intro ts used r p st e _ _ _ _ _ h; cases h
  | succ fuel ih =>
    intro ts used r p st e hy ha hs hf hh h
    have hfront := front_viable hh.run
    cases ts with
    | nil =>
      cases r with
      | some e' =>
        simp only [Parser.parseLoop, next_err ha] at h
        cases h
        exact .lexical (front := used) (part := []) (fails_of hy) (Or.inl ⟨rfl, hfront⟩)
      | none =>
        obtain ⟨p', h1⟩ := next_eof ha
        simp only [Parser.parseLoop, h1, Res.ok_bind] at h
        cases hb : st.blocks.getLast? with
        | none =>
          rw [hb] at h
          simp only at h
          split at h <;> cases h
        | some b =>
          rw [hb] at h
          simp only at h
          have hbne : st.blocks ≠ [] := by intro e; rw [e] at hb; cases hb
          obtain ⟨u, b', k, us, c, v, w, e0, e1, e2, e3, e4⟩ := hh.outer hbne
          have e5 : Parser.BlockFrame.unclosed b = (s!"unclosed `{w}` block", b'.combine c) := by
            have := e3
            rw [outermost, hb] at this
            injection this
          rw [e5] at h
          simp only [List.append_nil] at hy
          subst e0
          refine .unclosed (front := u) (b := b') (k := k) (us := us) (c := c) (rest := v) (w := w) (tokens_of hy) hfront (complete_iff.mpr e1) ?_ e2 (reports h)
          intro n hn
          rw [complete_iff]
          by_cases hle : n ≤ (u ++ blockTag b' k us c ++ v).length
          · exact e4 n hn hle
          · rw [List.take_of_length_le (by omega), hh.run]
            intro e; injection e with e; injection e with _ e
            exact blks_ne hbne e
    | cons t ts =>
      obtain ⟨tk, sp⟩ := t
      obtain ⟨p1, h1, h2⟩ := next_cons ha
      simp only [Parser.parseLoop, h1, Res.ok_bind] at h
      -- go on after the item
      have go : ∀ {item rest : List Tok} {st' : Parser.Stacks} {p' : Parser}, ts = item ++ rest → Abs cx p' rest r → Form .text rest →
          Hist cx (used ++ (tk, sp) :: item) st'.blocks → Parser.parseLoop cx fuel st' p' = .err e → Diagnosis cx e := by
        rintro item rest st' p' rfl a1 a2 a3 a4
        refine ih rest (used ++ (tk, sp) :: item) r p' st' e (by simpa using hy) a1 ?_ a2 a3 a4
        have := hs.tail
        exact this.suffix
      have push : ∀ {scs : List (List Stmt)} {x : Stmt} {e}, Parser.pushStmt scs x ≠ .err e := by
        intro scs x e; cases scs <;> simp [Parser.pushStmt]
      cases hf with
      | cons hal hf =>
      simp only at hal hf
      rcases hal with rfl | hbeg
      · -- text
        simp only [Parser.parseItem] at h
        cases hp : Parser.pushStmt st.scopes (.raw sp) with
        | err e' => exact absurd hp push
        | crash => rw [hp] at h; cases h
        | ok scs =>
          rw [hp] at h
          simp only [Res.ok_bind, Res.pure_eq] at h
          refine go (item := []) rfl h2 hf ?_ h
          refine hh.extend (item := [(.raw, sp)]) ?_ ?_ ?_ hh.chain (fun hb => Or.inl ⟨hb, rfl⟩)
          · exact whole_plain (by simp)
          · rw [words_plain' (by simp)]
            simp only [spoken, List.flatMap_cons, List.flatMap_nil, List.append_nil, saying]
            exact run_chars _ _
          · intro k hk0 hk; simp at hk; omega
      · cases tk <;> simp [isBeginTag] at hbeg
        case beginComment =>
          have hf' : Form .comment ts := hf
          simp only [Parser.parseItem] at h
          have incom : InComment cx used [(.beginComment, sp)] .raw := ⟨hfront, Or.inl ⟨sp, rfl, rfl⟩⟩
          cases ts with
          | nil =>
            cases r with
            | some e' =>
              simp only [Parser.expect, next_err h2] at h
              cases h
              exact .lexical (front := used) (fails_of hy) (Or.inr (Or.inr ⟨_, incom⟩))
            | none =>
              obtain ⟨p', h3⟩ := next_eof h2
              obtain ⟨e', he'⟩ := Parser.errEof (cx := cx) hne (α := Span × Parser) (tokenName .raw)
              simp only [Parser.expect, h3, Res.ok_bind, human_token, he'] at h
              cases h
              exact .eofComment (front := used) (tokens_of hy) incom (reports he')
          | cons t2 ts =>
            obtain ⟨tk2, sp2⟩ := t2
            obtain ⟨p2, h3, h4⟩ := next_cons h2
            by_cases hk : tk2 = .raw
            · subst hk
              simp only [Parser.expect, h3, Res.ok_bind, if_true, Res.pure_eq] at h
              have incom : InComment cx used [(.beginComment, sp), (.raw, sp2)] .endComment := ⟨hfront, Or.inr ⟨sp, sp2, rfl, rfl⟩⟩
              have hf2 : Form .comment ts := by cases hf' with | cons _ h => exact h
              cases ts with
              | nil =>
                cases r with
                | some e' =>
                  simp only [next_err h4] at h
                  cases h
                  exact .lexical (front := used) (fails_of hy) (Or.inr (Or.inr ⟨_, incom⟩))
                | none =>
                  obtain ⟨p', h5⟩ := next_eof h4
                  obtain ⟨e', he'⟩ := Parser.errEof (cx := cx) hne (α := Span × Parser) (tokenName .endComment)
                  simp only [h5, Res.ok_bind, human_token, he'] at h
                  cases h
                  exact .eofComment (front := used) (tokens_of hy) incom (reports he')
              | cons t3 ts =>
                obtain ⟨tk3, sp3⟩ := t3
                obtain ⟨p3, h5, h6⟩ := next_cons h4
                by_cases hk : tk3 = .endComment
                · subst hk
                  simp only [h5, Res.ok_bind, if_true, Res.pure_eq] at h
                  refine go (item := [(.raw, sp2), (.endComment, sp3)]) rfl h6 (by cases hf2 with | cons _ h => exact h) ?_ h
                  refine hh.extend (item := [(.beginComment, sp), (.raw, sp2), (.endComment, sp3)]) whole_comment ?_ ?_ hh.chain
                    (fun hb => Or.inl ⟨hb, rfl⟩)
                  · simp [words]
                  · intro k hk0 hk s
                    have : k = 1 ∨ k = 2 := by simp at hk; omega
                    rcases this with rfl | rfl <;> (simp only [List.take_succ_cons, List.take_zero, words, saying]; intro e; cases e)
                · simp only [h5, Res.ok_bind, if_neg hk, Parser.errUnexpectedToken, human_token] at h
                  obtain ⟨e', he'⟩ := Parser.errAt (cx := cx) hne (α := Span × Parser) (hs.tail.toks (tk3, sp3) (by simp)).span s!"expected {tokenName Token.endComment}, found {tokenName tk3}"
                  rw [he'] at h
                  cases h
                  refine .comment (front := used) (t := (tk3, sp3)) ?_ incom hk (reports he')
                  rw [show used ++ (Token.beginComment, sp) :: (Token.raw, sp2) :: (tk3, sp3) :: ts =
                    (used ++ [(Token.beginComment, sp), (Token.raw, sp2)] ++ [(tk3, sp3)]) ++ ts by simp] at hy
                  exact read_of hy
            · simp only [Parser.expect, h3, Res.ok_bind, if_neg hk, Parser.errUnexpectedToken, human_token] at h
              obtain ⟨e', he'⟩ := Parser.errAt (cx := cx) hne (α := Span × Parser) (hs.tail.toks (tk2, sp2) (by simp)).span s!"expected {tokenName Token.raw}, found {tokenName tk2}"
              rw [he'] at h
              cases h
              refine .comment (front := used) (t := (tk2, sp2)) ?_ incom hk (reports he')
              rw [show used ++ (Token.beginComment, sp) :: (tk2, sp2) :: ts =
                (used ++ [(Token.beginComment, sp)] ++ [(tk2, sp2)]) ++ ts by simp] at hy
              exact read_of hy
        case beginExpr =>
          have hf' : Form .tag ts := hf
          have hg : Tg cx ts := ⟨hs.tail, hf'⟩
          have hat : At cx used (.beginExpr, sp) ts r (.expr .base false .endExpr) (blks st.blocks) :=
            ⟨hh.whole, hh.run, Or.inl ⟨rfl, rfl⟩, hf', hy⟩
          simp only [Parser.parseItem] at h
          rcases parseExpr_reads hne (f := .endExpr) (st := blks st.blocks) h2 hg with ⟨e', b1, b2⟩ | ⟨us, rest, x, p2, q, b0, rfl, b2, b3, b4, b5, b6⟩
          · rw [b1] at h
            cases h
            exact hat.diagnosis (good_expr hf' _) b2
          · obtain ⟨pos, args, rfl, hd, b7⟩ := b6
            simp only [b2, Res.ok_bind] at h
            have hstep : Machine.step cx.env (.expr pos args .endExpr, blks st.blocks) (.sign .endExpr) = some (.text, blks st.blocks) := by
              rw [Machine.step_end hd _ _ _ (Or.inl rfl)]; rfl
            rcases expect_end hne b3 b4 (tk := .endExpr) (Or.inl rfl) (by rw [hstep]; simp) (by
                rintro ⟨tk, s⟩ rs rfl hn
                rw [b7 _ _ rfl]
                cases tk <;> first | rfl | exact absurd rfl hn) with ⟨e', c1, c2⟩ | ⟨c, rest, p3, rfl, c2, c3⟩
            · rw [c1] at h
              cases h
              exact hat.diagnosis (good_expr hf' _) (c2.after b5 b0)
            · simp only [c2, Res.ok_bind] at h
              cases hp : Parser.pushStmt st.scopes (.inlineExpr x (sp.combine c)) with
              | err e' => exact absurd hp push
              | crash => rw [hp] at h; cases h
              | ok scs =>
                rw [hp] at h
                simp only [Res.ok_bind, Res.pure_eq] at h
                have hfr : Form .text rest := by
                  have := (form_inside hf' b0).2
                  cases this with | cons _ h => exact h
                refine go (item := us ++ [(.endExpr, c)]) (by simp) c3 hfr ?_ h
                obtain ⟨w1, w2⟩ := words_tag_end (cx := cx) hat.begins (x := (.endExpr, c)) (Or.inl rfl) hf' b0
                refine hh.extend (item := (.beginExpr, sp) :: us ++ [(.endExpr, c)]) w2 ?_ (tag_solid hat.begins hf' b0 b5) hh.chain
                  (fun hb => Or.inl ⟨hb, rfl⟩)
                rw [w1, (words_begin (cx := cx) hat.begins hf' b0).1, List.cons_append, run_cons_of (hat.begins.step _), run_append_of b5, run_one]
                exact hstep
        case beginBlock =>
          have hf' : Form .tag ts := hf
          have hg : Tg cx ts := ⟨hs.tail, hf'⟩
          have hat : At cx used (.beginBlock, sp) ts r .block0 (blks st.blocks) :=
            ⟨hh.whole, hh.run, Or.inr ⟨rfl, rfl⟩, hf', hy⟩
          obtain ⟨st', hgood⟩ := good_block (cx := cx) hf'
          simp only [Parser.parseItem] at h
          rcases parseBlock_reads hne (st := st') h2 hg with ⟨e', b1, b2⟩ | ⟨us, rest, blk, p2, q, b0, hts, b2, b3, b4, b5, b6, b7⟩
          · rw [b1] at h
            cases h
            exact hat.diagnosis hgood b2
          -- the tag as it is meant
          rcases Parser.parseBlock_parses hne h2 hs.tail with ⟨e', x1⟩ | ⟨us', rest', blk', p2', hts', x1, x2, x3⟩
          · rw [b2] at x1; cases x1
          have hsame := b2.symm.trans x1
          cases hsame
          obtain ⟨rfl, rfl⟩ := split_unique hts hts' b3 x2
          clear hts'
          -- where it stands
          rcases parseBlock_reads hne (st := blks st.blocks) h2 hg with ⟨e', y1, y2⟩ | ⟨us', rest', blk', p2', qs, y0, hts', y2, y3, y4, y5, y6, y7⟩
          · rw [b2] at y1; cases y1
          have hsame := b2.symm.trans y2
          cases hsame
          obtain ⟨rfl, rfl⟩ := split_unique hts hts' b3 y3
          clear hts'
          obtain ⟨kw, ksp, ts', q1, hk1, hk2, hk3, hk4⟩ := b7
          obtain ⟨kw2, ksp2, ts2, q2, hk5, hk6, hk7, hk8⟩ := y7
          rw [hk1] at hk5
          cases hk5
          rw [hk2] at hk6
          have hkw : kw2 = kw := by
            injection hk6 with hk6
            have := congrArg Keyword.fromStr hk6
            rw [Parser.fromStr_human, Parser.fromStr_human] at this
            injection this with this
            exact this.symm
          subst hkw
          have hkit : it cx.source (.keyword, ksp) = .word .keyword kw2.human.toList := by rw [it, textAt_of hk2]
          have hkstep : ∀ s, Machine.step cx.env (.block0, s) (it cx.source (.keyword, ksp)) = kwStep s kw2 := by
            intro s; rw [hkit]; simp only [Machine.step]; rw [Parser.fromStr_human]; rfl
          obtain ⟨us2, rfl⟩ : ∃ us2, us' = (.keyword, ksp) :: us2 := by
            cases us' with
            | nil => cases x3
            | cons a us2 => rw [hts] at hk1; cases hk1; exact ⟨us2, rfl⟩
          have hlive1 : Machine.Live q1 := by
            obtain ⟨c1, s1⟩ := q1
            obtain ⟨rfl, _, _⟩ := Machine.kw_inner hk3
            refine hgood [(.keyword, ksp)] (us2 ++ rest') c1 (by rw [hts]; rfl) (.cons rfl .nil) ?_
            rw [Plain.spoken_cons, saying_it (by simp), List.singleton_append, run_cons, hkstep, hk3]; rfl
          simp only [b2, Res.ok_bind] at h
          obtain ⟨z1, z2⟩ := b6
          have hclose : Machine.step cx.env q (.sign .endBlock) ≠ none := by
            rw [z1]
            have := hk4.mpr hlive1
            cases hx : (actOf blk).on st' with
            | none => exact absurd hx this
            | some _ => simp
          rcases expect_end hne b3 b4 (tk := .endBlock) (Or.inr rfl) hclose z2 with ⟨e', c1, c2⟩ | ⟨c, rest, p3, hrest, c2, c3⟩
          · rw [c1] at h
            cases h
            refine hat.diagnosis hgood ?_
            have := c2.after b5 b0
            rw [← hts] at this; exact this
          simp only [c2, Res.ok_bind] at h
          subst hrest
          have hf2 : Form .tag (((.keyword, ksp) :: us2) ++ (.endBlock, c) :: rest) := by rw [← hts]; exact hf'
          obtain ⟨w1, w2⟩ := words_tag_end (cx := cx) hat.begins (x := (.endBlock, c)) (Or.inr rfl) hf2 b0
          have wb := (words_begin (cx := cx) hat.begins hf2 b0).1
          cases hx : Parser.handleBlock cx (sp.combine c) st blk with
          | crash => rw [hx] at h; cases h
          | err e' =>
            rw [hx] at h
            cases h
            obtain ⟨d1, d2⟩ := handle_err hh.chain hx
            refine .misplaced (front := used) (b := sp) (k := ksp) (us := us2) (c := c) (w := nameOf blk) ?_ hfront ?_ ?_ (tagName x3) d2
            · rw [hts] at hy
              rw [show used ++ (Token.beginBlock, sp) :: ((Token.keyword, ksp) :: us2 ++ (Token.endBlock, c) :: rest) =
                (used ++ blockTag sp ksp us2 c) ++ rest by simp [blockTag]] at hy
              exact read_of hy
            · obtain ⟨s2, hs2⟩ : ∃ s2, (actOf blk).on st' = some s2 := by
                have := hk4.mpr hlive1
                cases hx : (actOf blk).on st' with
                | none => exact absurd hx this
                | some s2 => exact ⟨s2, rfl⟩
              refine sayable_of (s := st') (q := (.text, s2)) ?_ (by simp [Machine.Live, doing, Act.on])
              rw [blockTag, show (Token.beginBlock, sp) :: (Token.keyword, ksp) :: us2 ++ [(Token.endBlock, c)] =
                (Token.beginBlock, sp) :: ((Token.keyword, ksp) :: us2) ++ [(Token.endBlock, c)] from rfl, w1, wb, List.cons_append,
                run_cons_of (hat.begins.step _), run_append_of b5, run_one, z1, hs2]
              rfl
            · rw [viable_iff']
              rintro ⟨q', e1, e2⟩
              have wk := (words_begin (cx := cx) (us := [(.keyword, ksp)]) (vs := us2 ++ (.endBlock, c) :: rest) hat.begins hf2 (.cons rfl .nil)).1
              rw [hh.whole, run_append_of hh.run, wk, run_cons_of (hat.begins.step _), Plain.spoken_cons, saying_it (by simp), List.singleton_append,
                run_cons_of ((hkstep _).trans hk7)] at e1
              cases e1
              exact hk8.mpr e2 d1
          | ok x =>
            obtain ⟨o, st2⟩ := x
            obtain ⟨d1, d2, d3⟩ := handle_ok hh.chain hx
            have hist : Hist cx (used ++ (.beginBlock, sp) :: (((.keyword, ksp) :: us2) ++ [(.endBlock, c)])) st2.blocks := by
              refine hh.extend (item := (.beginBlock, sp) :: ((.keyword, ksp) :: us2) ++ [(.endBlock, c)]) w2 ?_ (tag_solid hat.begins hf2 b0 y5) d2 ?_
              · rw [w1, wb, List.cons_append, run_cons_of (hat.begins.step _), run_append_of y5, run_one, y6.1, d1]
                rfl
              · intro hb
                rcases d3 hb with d4 | ⟨d4, d5⟩
                · exact Or.inl d4
                · exact Or.inr ⟨d4, sp, ksp, us2, c, nameOf blk, rfl, tagName x3, d5⟩
            have hfr : Form .text rest := by
              have := (form_inside hf2 b0).2
              cases this with | cons _ h => exact h
            rw [hx] at h
            have hts3 : ts = (((.keyword, ksp) :: us2) ++ [(.endBlock, c)]) ++ rest := by rw [hts]; simp
            cases o with
            | none =>
              simp only [Res.ok_bind, Res.pure_eq] at h
              exact go hts3 c3 hfr hist h
            | some stmt =>
              simp only [Res.ok_bind, Res.pure_eq] at h
              cases hp : Parser.pushStmt st2.scopes stmt with
              | err e' => exact absurd hp push
              | crash => rw [hp] at h; cases h
              | ok scs =>
                rw [hp] at h
                simp only [Res.ok_bind] at h
                exact go (st' := ⟨st2.blocks, scs⟩) hts3 c3 hfr hist h

end Diag
end Upon
