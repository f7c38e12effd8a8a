import Verif.Proofs.ParseComplete
/-
The parser as a whole.
-/
namespace Upon
open Lexer (Inv Step Skip left inTag inTagNext)

variable {syn : Syn} {cx : LexCx}

theorem closed_tag {b e : Tok} {us rest : List Tok} (hp : Plain us) (he : Spec.isEndTag e.1 = true)
    (hb : Spec.isBeginTag e.1 = false) (hc : Spec.Closed rest) : Spec.Closed (b :: (us ++ e :: rest)) := by
  refine Lexer.closed_begin ⟨e, by simp, he⟩ ?_
  induction us with
  | nil => exact Lexer.closed_other hb hc
  | cons u us ih =>
    exact Lexer.closed_other (hp u (by simp)).1 (ih (fun t ht => hp t (List.mem_cons_of_mem _ ht)))

theorem gtag_closed {w : String} {us tag rest : List Tok} {src : Str} (h : Spec.GTag src w us tag) (hp : Plain us)
    (hc : Spec.Closed rest) : Spec.Closed (tag ++ rest) := by
  obtain @⟨b, k, e, _, hk⟩ := h
  have := closed_tag (b := (.beginBlock, b)) (e := (.endBlock, e)) (us := (.keyword, k) :: us)
    (.cons rfl rfl hp) rfl rfl hc
  simpa using this

open Spec in
mutual
theorem gstmts_closed {env : Env} {src : Str} {ts : List Tok} {ss : List Stmt} (h : GStmts env src ts ss)
    {rest : List Tok} (hr : Closed rest) : Closed (ts ++ rest) := by
  match h with
  | .nil => exact hr
  | .raw h => exact Lexer.closed_other rfl (gstmts_closed h hr)
  | .comment (b := b) (r := r) (e := e) h =>
    exact closed_tag (b := (.beginComment, b)) (e := (.endComment, e)) (us := [(.raw, r)])
      (.cons rfl rfl .nil) rfl rfl (gstmts_closed h hr)
  | .expr (b := b) (e := e) h1 h2 =>
    have := closed_tag (b := (.beginExpr, b)) (e := (.endExpr, e)) (gexpr_plain h1) rfl rfl (gstmts_closed h2 hr)
    simpa using this
  | .include_ t h1 h2 h3 =>
    simpa using gtag_closed t (.cons rfl rfl .nil) (gstmts_closed h3 hr)
  | .includeWith t h1 h2 h3 h4 h5 =>
    simpa using gtag_closed t (.cons rfl rfl (.cons rfl rfl (gexpr_plain h4))) (gstmts_closed h5 hr)
  | .for_ t1 h1 h2 h3 h4 t2 h6 =>
    simpa using gtag_closed t1 ((gvars_plain h1).append (.cons rfl rfl (gexpr_plain h3)))
      (gstmts_closed h4 (gtag_closed t2 .nil (gstmts_closed h6 hr)))
  | .with_ t1 h1 h2 h3 t2 h6 =>
    simpa using gtag_closed t1 ((gexpr_plain h1).append (.cons rfl rfl (.cons rfl rfl .nil)))
      (gstmts_closed h3 (gtag_closed t2 .nil (gstmts_closed h6 hr)))
  | .if_ t1 h1 h2 h3 h4 =>
    simpa using gtag_closed t1 (gcond_plain h1) (gstmts_closed h2 (gelse_closed h3 (gstmts_closed h4 hr)))

theorem gelse_closed {env : Env} {src : Str} {ts : List Tok} {els : Option (List Stmt)} (h : GElse env src ts els)
    {rest : List Tok} (hr : Closed rest) : Closed (ts ++ rest) := by
  match h with
  | .endif t => exact gtag_closed t .nil hr
  | .else_ t1 h1 t2 =>
    simpa using gtag_closed t1 .nil (gstmts_closed h1 (gtag_closed t2 .nil hr))
  | .elseIf t h1 h2 h3 h4 =>
    simpa using gtag_closed t (.cons rfl rfl (gcond_plain h2)) (gstmts_closed h3 (gelse_closed h4 hr))
end

theorem yields_tokens {lx : Lexer} {ts : List Tok} :
    Yields cx lx ts none ↔ ∃ lx', Spec.Lexes cx lx ts lx' ∧ ∃ fin, lx'.nextToken cx = .ok (none, fin) := by
  constructor
  · intro h
    generalize hr : (none : Option Err) = r at h
    induction h with
    | eof h => exact ⟨_, .none, _, h⟩
    | err => cases hr
    | cons h1 _ ih =>
      obtain ⟨l, a, b⟩ := ih hr
      exact ⟨l, .some h1 a, b⟩
  · rintro ⟨lx', h1, fin, h2⟩
    induction h1 with
    | none => exact .eof h2
    | some h _ ih => exact .cons h (ih h2)

theorem yields_unique {lx : Lexer} {ts ts' : List Tok} {r r' : Option Err} (h : Yields cx lx ts r)
    (h' : Yields cx lx ts' r') : ts = ts' ∧ r = r' := by
  induction h generalizing ts' r' with
  | eof h =>
    cases h' with
    | eof => exact ⟨rfl, rfl⟩
    | err h2 => rw [h] at h2; cases h2
    | cons h2 => rw [h] at h2; simp at h2
  | err h =>
    cases h' with
    | eof h2 => rw [h] at h2; cases h2
    | err h2 => rw [h] at h2; injection h2 with h2; exact ⟨rfl, by rw [h2]⟩
    | cons h2 => rw [h] at h2; cases h2
  | cons h _ ih =>
    cases h' with
    | eof h2 => rw [h] at h2; simp at h2
    | err h2 => rw [h] at h2; cases h2
    | cons h2 h3 =>
      rw [h] at h2
      simp at h2
      obtain ⟨rfl, rfl⟩ := h2
      obtain ⟨rfl, rfl⟩ := ih h3
      exact ⟨rfl, rfl⟩

theorem stream_ok (g : Good syn cx) {ts : List Tok} {r : Option Err} (h : Yields cx Lexer.new ts r) :
    Parser.Str' cx ts ∧ Shape false ts := by
  have inv := Inv.new syn cx
  obtain ⟨a, b, c⟩ := h.ok g inv
  have hl := h.length_le g inv
  refine ⟨⟨a, b, ?_⟩, c⟩
  simp [left, Lexer.new] at hl
  omega

/-- An empty template. -/
theorem parseTemplate_nil (he : cx.source = []) : Parser.parseTemplate cx = .ok [] := by
  have h1 : Lexer.new.nextToken cx = .ok (none, Lexer.new) := by
    simp [Lexer.nextToken, Lexer.nextLoop, Lexer.lex, Lexer.new, he, dropB, Res.ofOption]
  exact Parser.parseLoop_complete .nil (.fresh (.eof h1))
    ⟨by simp, by intro xs tk s n ys e; simp at e, by simp⟩ (by simp [Parser.fuel])

/-- The parser returns, and accepts exactly what the grammar accepts. -/
theorem parseTemplate_spec (g : Good syn cx) :
    (∃ e, Parser.parseTemplate cx = .err e) ∨ ∃ ast, Parser.parseTemplate cx = .ok ast := by
  by_cases hne : cx.source = []
  · exact Or.inr ⟨[], parseTemplate_nil hne⟩
  obtain ⟨ts, r, h⟩ := Yields.exists g _ Lexer.new (Inv.new syn cx) (Nat.le_refl _)
  obtain ⟨hs, hsh⟩ := stream_ok g h
  have hl := hs.len
  rcases Parser.parseLoop_sound hne (Parser.fuel cx) ts [] r Parser.new ⟨[], [[]]⟩ (.fresh h) hs hsh
    ⟨[], [], [], [], rfl, .top, .nil, rfl⟩ (by intro b hb; simp at hb) (by simp [Parser.fuel]; omega) with
    ⟨e, h⟩ | ⟨ast, h, _⟩
  · exact Or.inl ⟨e, h⟩
  · exact Or.inr ⟨ast, h⟩

theorem parseTemplate_iff (g : Good syn cx) (ast : List Stmt) :
    Parser.parseTemplate cx = .ok ast ↔ ∃ ts, Spec.Tokens cx ts ∧ Spec.GStmts cx.env cx.source ts ast := by
  constructor
  · intro hp
    obtain ⟨ts, r, h⟩ := Yields.exists g _ Lexer.new (Inv.new syn cx) (Nat.le_refl _)
    obtain ⟨hs, hsh⟩ := stream_ok g h
    have hl := hs.len
    by_cases hne : cx.source = []
    · rw [parseTemplate_nil hne] at hp
      injection hp with hp
      subst hp
      have h1 : Lexer.new.nextToken cx = .ok (none, Lexer.new) := by
        simp [Lexer.nextToken, Lexer.nextLoop, Lexer.lex, Lexer.new, hne, dropB, Res.ofOption]
      exact ⟨[], ⟨Lexer.new, .none, _, h1⟩, .nil⟩
    rcases Parser.parseLoop_sound hne (Parser.fuel cx) ts [] r Parser.new ⟨[], [[]]⟩ (.fresh h) hs hsh
      ⟨[], [], [], [], rfl, .top, .nil, rfl⟩ (by intro b hb; simp at hb) (by simp [Parser.fuel]; omega) with
      ⟨e, h'⟩ | ⟨ast', h', rfl, h2⟩
    · rw [Parser.parseTemplate, h'] at hp; cases hp
    · rw [Parser.parseTemplate, h'] at hp
      injection hp with hp
      subst hp
      exact ⟨ts, yields_tokens.mp h, by simpa using h2⟩
  · rintro ⟨ts, h1, h2⟩
    have h := yields_tokens.mpr h1
    obtain ⟨hs, hsh⟩ := stream_ok g h
    have hl := hs.len
    exact Parser.parseLoop_complete h2 (.fresh h) hs (by simp [Parser.fuel]; omega)

/-- The tokens of a template. -/
theorem tokens_unique {ts ts' : List Tok} (h : Spec.Tokens cx ts) (h' : Spec.Tokens cx ts') : ts = ts' :=
  (yields_unique (yields_tokens.mpr h) (yields_tokens.mpr h')).1

end Upon
