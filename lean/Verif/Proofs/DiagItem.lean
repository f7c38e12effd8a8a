import Verif.Proofs.DiagTag
/-
From what the parser complains about to the diagnosis (for C51).
-/
namespace Upon
open Spec
namespace Diag
open Machine (Ctl Pos After Act Blk exprStep afterStep kwStep run_append_of run_cons_of run_nil run_cons run_one doing Inner)
open Plain (spoken textAt_of WStmts)
open Parser (Parses next_cons next_eof next_err peek_cons peek_eof peek_err Str')

variable {cx : LexCx}

/-! What can be said, in terms of the machine -/

theorem viable_iff' {env : Env} {ws : List Item} : Viable env ws ↔ ∃ q, Machine.run env (.text, []) ws = some q ∧ Machine.Live q :=
  Machine.viable_iff

theorem complete_iff {env : Env} {ws : List Item} : Complete env ws ↔ Machine.run env (.text, []) ws = some (.text, []) := by
  constructor
  · rintro ⟨ss, h⟩; exact Machine.run_accepts h []
  · intro h
    obtain ⟨ss, hss⟩ := Machine.run_rest (ws := []) h ⟨[], .nil⟩
    exact ⟨ss, by simpa using hss⟩

theorem sayable_of {env : Env} {s : List Blk} {ws : List Item} {q : Machine.State} (h : Machine.run env (.text, s) ws = some q)
    (hl : Machine.Live q) : Sayable env ws := by
  obtain ⟨before, hb⟩ := Machine.opening (env := env) s
  obtain ⟨after, ss, hs⟩ := viable_iff'.mpr ⟨q, by rw [run_append_of hb]; exact h, hl⟩
  exact ⟨before, after, ss, hs⟩

theorem not_sayable {env : Env} {i : Item} {ws : List Item} (hi : i = .sign .beginExpr ∨ i = .sign .beginBlock)
    (h : ∀ s, Machine.run env (.text, s) (i :: ws) = none) : ¬ Sayable env (i :: ws) := by
  rintro ⟨before, after, ss, hs⟩
  obtain ⟨q, h1, _⟩ := viable_iff'.mp ⟨after, ss, hs⟩
  rw [Machine.run_append] at h1
  cases hb : Machine.run env (.text, []) before with
  | none => rw [hb] at h1; cases h1
  | some q0 =>
    rw [hb] at h1
    simp only [Option.bind_some] at h1
    obtain ⟨c, s⟩ := q0
    have hc : c = .text := by
      rw [run_cons] at h1
      cases hs : Machine.step env (c, s) i with
      | none => rw [hs] at h1; cases h1
      | some q1 => exact Machine.step_begin hi hs
    subst hc
    rw [h s] at h1; cases h1

/-! Words of tokens -/

/-- The tokens do not end inside a comment. -/
def Whole (src : Str) (us : List Tok) : Prop := ∀ X, words src (us ++ X) = words src us ++ words src X

theorem words_cons {src : Str} {t : Tok} (h : t.1 ≠ .beginComment) (ts : List Tok) : words src (t :: ts) = saying src t ++ words src ts := by
  obtain ⟨tk, sp⟩ := t
  rw [words]
  intro _ _ _ _ e
  cases e; exact absurd rfl h

theorem words_plain {src : Str} {us : List Tok} (h : ∀ x ∈ us, x.1 ≠ .beginComment) (X : List Tok) :
    words src (us ++ X) = spoken src us ++ words src X := by
  induction us with
  | nil => rfl
  | cons t us ih =>
    rw [List.cons_append, words_cons (h t (by simp)), ih (fun x hx => h x (by simp [hx])), Plain.spoken_cons, List.append_assoc]

theorem words_plain' {src : Str} {us : List Tok} (h : ∀ x ∈ us, x.1 ≠ .beginComment) : words src us = spoken src us := by
  have := words_plain (src := src) h []
  simpa [words] using this

theorem whole_plain {src : Str} {us : List Tok} (h : ∀ x ∈ us, x.1 ≠ .beginComment) : Whole src us := by
  intro X; rw [words_plain h, words_plain' h]

theorem whole_nil {src : Str} : Whole src [] := fun _ => rfl

theorem Whole.append {src : Str} {us vs : List Tok} (h : Whole src us) (h' : Whole src vs) : Whole src (us ++ vs) := by
  intro X; rw [List.append_assoc, h, h', h, List.append_assoc]

theorem whole_comment {src : Str} {a b c : Span} : Whole src [(.beginComment, a), (.raw, b), (.endComment, c)] := by
  intro X; simp [words]

/-- Tokens within a tag. -/
theorem form_inside {us vs : List Tok} (h : Form .tag (us ++ vs)) (hi : Inside us) :
    (∀ x ∈ us, x.1 ≠ .raw ∧ x.1 ≠ .beginComment ∧ isBeginTag x.1 = false) ∧ Form .tag vs := by
  induction us with
  | nil => exact ⟨by simp, h⟩
  | cons t us ih =>
    cases h with
    | cons ha hf =>
      have hend := hi t (by simp)
      have hn : Mode3.next .tag t.1 = .tag := by
        have hb := ha.2.1
        cases ht : t.1 <;> rw [ht] at hend hb <;> simp [isBeginTag, isEndTag] at hend hb <;> rfl
      rw [hn] at hf
      obtain ⟨h1, h2⟩ := ih hf (fun x hx => hi x (by simp [hx]))
      refine ⟨?_, h2⟩
      intro x hx
      rcases List.mem_cons.mp hx with rfl | hx
      · refine ⟨ha.1, ?_, ha.2.1⟩
        intro e; have := ha.2.1; rw [e] at this; cases this
      · exact h1 x hx

theorem it_inner {t : Tok} (h : isEndTag t.1 = false) : Inner (it cx.source t) := by
  obtain ⟨tk, sp⟩ := t
  constructor <;> (intro e; have := it_end e; simp only at this; subst this; cases h)

theorem spoken_inner {us : List Tok} (hr : ∀ x ∈ us, x.1 ≠ .raw) (h : Inside us) : ∀ i ∈ spoken cx.source us, Inner i := by
  induction us with
  | nil => intro i hi; cases hi
  | cons t us ih =>
    intro i hi
    rw [Plain.spoken_cons, saying_it (hr t (by simp))] at hi
    rcases List.mem_cons.mp hi with rfl | hi
    · exact it_inner (h t (by simp))
    · exact ih (fun x hx => hr x (by simp [hx])) (fun x hx => h x (by simp [hx])) i hi

/-! Streams -/

theorem read_of {a b : List Tok} {r : Option Err} (h : Yields cx Lexer.new (a ++ b) r) : Read cx a := by
  obtain ⟨lx, h1, _⟩ := h.lexes; exact ⟨lx, h1⟩

theorem tokens_of {a : List Tok} (h : Yields cx Lexer.new a none) : Tokens cx a := yields_tokens.mp h

theorem fails_of {a : List Tok} {e : Err} (h : Yields cx Lexer.new a (some e)) : Stops cx a e := by
  have h' : Yields cx Lexer.new (a ++ []) (some e) := by simpa using h
  obtain ⟨lx, h1, h2⟩ := h'.lexes
  cases h2 with
  | err h3 => exact ⟨lx, h1, h3⟩

theorem abs_unique {p : Parser} {ts ts' : List Tok} {r r' : Option Err} (h : Abs cx p ts r) (h' : Abs cx p ts' r') : ts = ts' := by
  cases h with
  | fresh h => cases h' with | fresh h' => exact (yields_unique h h').1
  | peeked h => cases h' with | peeked h' => rw [(yields_unique h h').1]
  | peekedEof => cases h' with | peekedEof => rfl

theorem split_unique {p : Parser} {ts us rest us' rest' : List Tok} {r r' : Option Err} (e : ts = us ++ rest) (e' : ts = us' ++ rest')
    (h : Abs cx p rest r) (h' : Abs cx p rest' r') : us' = us ∧ rest' = rest := by
  have := abs_unique h h'
  subst this
  rw [e] at e'
  exact ⟨(List.append_cancel_right e').symm, rfl⟩

/-! Tags -/

/-- The state in which a tag begins. -/
def Begins (t : Tok) (c : Ctl) : Prop :=
  (t.1 = .beginExpr ∧ c = .expr .base false .endExpr) ∨ (t.1 = .beginBlock ∧ c = .block0)

theorem Begins.sign {t : Tok} {c : Ctl} (h : Begins t c) : it cx.source t = .sign .beginExpr ∨ it cx.source t = .sign .beginBlock := by
  obtain ⟨tk, sp⟩ := t
  rcases h with ⟨h, _⟩ | ⟨h, _⟩ <;> (simp only at h; subst h)
  · exact Or.inl rfl
  · exact Or.inr rfl

theorem Begins.step {env : Env} {t : Tok} {c : Ctl} (h : Begins t c) (s : List Blk) : Machine.step env (.text, s) (it cx.source t) = some (c, s) := by
  obtain ⟨tk, sp⟩ := t
  rcases h with ⟨h, rfl⟩ | ⟨h, rfl⟩ <;> (simp only at h; subst h; rfl)

theorem Begins.ne {t : Tok} {c : Ctl} (h : Begins t c) : t.1 ≠ .raw ∧ t.1 ≠ .beginComment ∧ c ≠ .text := by
  rcases h with ⟨h, rfl⟩ | ⟨h, rfl⟩ <;> (rw [h]; simp)

theorem Begins.live {t : Tok} {c : Ctl} (h : Begins t c) (s : List Blk) : Machine.Live (c, s) := by
  rcases h with ⟨h, rfl⟩ | ⟨h, rfl⟩ <;> simp [Machine.Live, doing, Act.on]

/-- The words of the beginning of a tag. -/
theorem words_begin {t : Tok} {c : Ctl} (h : Begins t c) {us vs : List Tok} (hf : Form .tag (us ++ vs)) (hi : Inside us) :
    words cx.source (t :: us) = it cx.source t :: spoken cx.source us ∧
    ∀ X, words cx.source (t :: us ++ X) = it cx.source t :: spoken cx.source us ++ words cx.source X := by
  have h1 := (form_inside hf hi).1
  have hn : ∀ x ∈ t :: us, x.1 ≠ .beginComment := by
    intro x hx
    rcases List.mem_cons.mp hx with rfl | hx
    · exact h.ne.2.1
    · exact (h1 x hx).2.1
  have e : spoken cx.source (t :: us) = it cx.source t :: spoken cx.source us := by
    rw [Plain.spoken_cons, saying_it h.ne.1]; rfl
  exact ⟨by rw [words_plain' hn, e], fun X => by rw [words_plain hn, e]⟩

/-- Blocks among which what is read of the tag is in place. -/
def Good (cx : LexCx) (c : Ctl) (ts : List Tok) (st : List Blk) : Prop :=
  ∀ us vs c', ts = us ++ vs → Inside us → Machine.run cx.env (c, st) (spoken cx.source us) = some (c', st) → Machine.Live (c', st)

theorem good_expr {ts : List Tok} (hf : Form .tag ts) (st : List Blk) : Good cx (.expr .base false .endExpr) ts st := by
  rintro us vs c' rfl hi h
  have hin := spoken_inner (cx := cx) (fun x hx => ((form_inside hf hi).1 x hx).1) hi
  exact ((Machine.run_inner (by simp) hin h).2.2.1 (by simp)).2 (by simp [Machine.Live, doing, Act.on])

theorem good_block {ts : List Tok} (hf : Form .tag ts) : ∃ st, Good cx .block0 ts st := by
  cases ts with
  | nil =>
    refine ⟨[], ?_⟩
    intro us vs c' e hi h
    have : us = [] := by cases us with | nil => rfl | cons _ _ => cases e
    subst this; cases h; simp [Machine.Live, doing, Act.on]
  | cons t ts =>
    have key : ∀ st : List Blk, (∀ c1, Machine.step cx.env (.block0, st) (it cx.source t) = some (c1, st) → Machine.Live (c1, st)) →
        Good cx .block0 (t :: ts) st := by
      intro st hst us vs c' e hi h
      cases us with
      | nil => cases h; simp [Machine.Live, doing, Act.on]
      | cons u us =>
        cases e
        obtain ⟨h1, h2⟩ := form_inside hf hi
        have hin := spoken_inner (cx := cx) (fun x hx => (h1 x hx).1) hi
        rw [Plain.spoken_cons, saying_it (h1 t (by simp)).1] at h hin
        rw [List.singleton_append, run_cons] at h
        cases hs : Machine.step cx.env (.block0, st) (it cx.source t) with
        | none => rw [hs] at h; cases h
        | some q1 =>
          obtain ⟨c1, st1⟩ := q1
          rw [hs] at h
          have hti : Inner (it cx.source t) := hin _ (by simp)
          obtain ⟨rfl, hc1, _, _⟩ := Machine.step_inner (by simp) hti hs
          have hb1 : c1 ≠ .block0 := by rintro rfl; exact Machine.block0_not (by simp) hti hs
          exact ((Machine.run_inner hc1 (fun i hi => hin i (by simp [hi])) h).2.2.1 hb1).2 (hst c1 hs)
    cases hs : Machine.step cx.env (.block0, []) (it cx.source t) with
    | none => exact ⟨[], key [] (by intro c1 h; rw [hs] at h; cases h)⟩
    | some q =>
      obtain ⟨c1, st1⟩ := q
      obtain ⟨st, hst⟩ := Machine.favourable (doing c1)
      refine ⟨st, key st ?_⟩
      intro c2 h2
      have hti : Inner (it cx.source t) := by
        have : isEndTag t.1 = false := by
          cases hf with
          | cons ha _ =>
            obtain ⟨tk, sp⟩ := t
            cases tk <;> first | rfl | (cases hs; done)
        exact it_inner this
      have := (Machine.step_inner (by simp) hti hs).2.2.2 st
      rw [h2] at this; cases this; exact hst

/-- What is known when a tag begins. -/
structure At (cx : LexCx) (front : List Tok) (t : Tok) (ts : List Tok) (r : Option Err) (c : Ctl) (st : List Blk) : Prop where
  whole : Whole cx.source front
  run : Machine.run cx.env (.text, []) (words cx.source front) = some (.text, st)
  begins : Begins t c
  form : Form .tag ts
  stream : Yields cx Lexer.new (front ++ t :: ts) r

theorem front_viable {front : List Tok} {st : List Blk} (h : Machine.run cx.env (.text, []) (words cx.source front) = some (.text, st)) :
    Viable cx.env (words cx.source front) := viable_iff'.mpr ⟨_, h, by simp [Machine.Live, doing, Act.on]⟩

theorem At.inTag {front : List Tok} {t : Tok} {us vs : List Tok} {r : Option Err} {c : Ctl} {st st' : List Blk}
    (h : At cx front t (us ++ vs) r c st) (hg : Good cx c (us ++ vs) st') (hi : Inside us) {q : Machine.State}
    (hr : Machine.run cx.env (c, st') (spoken cx.source us) = some q) :
    InTag cx front (t :: us) ∧ q.2 = st' ∧ q.1 ≠ .text ∧ Machine.Live q ∧
      ∀ s, Machine.run cx.env (.text, s) (words cx.source (t :: us)) = some (q.1, s) := by
  obtain ⟨c', st2⟩ := q
  obtain ⟨h1, h2⟩ := form_inside h.form hi
  have hin := spoken_inner (cx := cx) (fun x hx => (h1 x hx).1) hi
  obtain ⟨rfl, hc', hlive, hany⟩ := Machine.run_inner h.begins.ne.2.2 hin hr
  obtain ⟨w1, w2⟩ := words_begin (cx := cx) h.begins h.form hi
  have hw : ∀ s, Machine.run cx.env (.text, s) (words cx.source (t :: us)) = some (c', s) := by
    intro s
    rw [w1, run_cons_of (h.begins.step s)]; exact hany s
  have hl : Machine.Live (c', st2) := hg us vs c' rfl hi hr
  refine ⟨⟨front_viable h.run, ⟨t, us, rfl, ?_, hi⟩, sayable_of (hw st2) hl, ?_⟩, rfl, hc', hl, hw⟩
  · rcases h.begins with ⟨h, _⟩ | ⟨h, _⟩
    · exact Or.inl h
    · exact Or.inr h
  by_cases hls : Machine.Live (c', st)
  · left
    refine viable_iff'.mpr ⟨(c', st), ?_, hls⟩
    rw [h.whole, run_append_of h.run]; exact hw st
  · right
    cases us with
    | nil =>
      have : c = c' := by have := hany st; cases this; rfl
      subst this
      exact absurd (h.begins.live st) hls
    | cons k us =>
      by_cases hb : c = .block0
      · subst hb
        rw [Plain.spoken_cons, saying_it (h1 k (by simp)).1, List.singleton_append] at hany hin
        have hst := hany st
        rw [run_cons] at hst
        cases hs : Machine.step cx.env (.block0, st) (it cx.source k) with
        | none => rw [hs] at hst; cases hst
        | some q1 =>
          obtain ⟨c1, st1⟩ := q1
          rw [hs] at hst
          have hki : Inner (it cx.source k) := hin _ (by simp)
          obtain ⟨rfl, hc1, _, hs2⟩ := Machine.step_inner (by simp) hki hs
          have hb1 : c1 ≠ .block0 := by rintro rfl; exact Machine.block0_not (by simp) hki hs
          have hnl : ¬ Machine.Live (c1, st1) := fun hl1 =>
            hls (((Machine.run_inner hc1 (fun i hi => hin i (by simp [hi])) hst).2.2.1 hb1).2 hl1)
          have htk : t.1 = .beginBlock := by
            rcases h.begins with ⟨_, hx⟩ | ⟨hx, _⟩
            · cases hx
            · exact hx
          obtain ⟨tk, b⟩ := t
          simp only at htk; subst htk
          obtain ⟨kk, k⟩ := k
          have hkk : kk = .keyword := by cases kk <;> first | rfl | (cases hs; done)
          subst hkk
          refine ⟨b, k, us, rfl, ?_⟩
          rw [viable_iff']
          rintro ⟨q, hq, hql⟩
          have hw2 := (words_begin (cx := cx) (us := [(.keyword, k)]) (vs := us ++ vs) h.begins h.form (.cons rfl .nil)).1
          rw [h.whole, run_append_of h.run, hw2, run_cons_of (h.begins.step _), Plain.spoken_cons, saying_it (by simp), List.singleton_append,
            run_cons_of hs] at hq
          cases hq
          exact hnl hql
      · exact absurd (((Machine.run_inner h.begins.ne.2.2 hin (hany st)).2.2.1 hb).2 (h.begins.live st)) hls

theorem step_out {env : Env} {c c' : Ctl} {st st' : List Blk} {i : Item} (hi : ¬ Inner i) (h : Machine.step env (c, st) i = some (c', st')) :
    c' = .text := by
  have hi' : i = .sign .endExpr ∨ i = .sign .endBlock := by
    unfold Inner at hi; by_cases h1 : i = .sign .endExpr
    · exact Or.inl h1
    · by_cases h2 : i = .sign .endBlock
      · exact Or.inr h2
      · exact absurd ⟨h1, h2⟩ hi
  have aft : ∀ {f : After} {s s' : List Blk} {d : Ctl}, afterStep f s i = some (d, s') → d = .text := by
    intro f s s' d h
    rcases hi' with rfl | rfl <;> cases f
    · cases h; rfl
    · cases h
    · cases h
    · cases h
    · rename_i a
      simp only [afterStep] at h
      cases ha : a.on s with
      | none => rw [ha] at h; cases h
      | some x => rw [ha] at h; cases h; rfl
    · cases h
  rcases hi' with rfl | rfl
  all_goals
    cases c with
    | expr p args f => cases p <;> first | (cases h; done) | exact aft h
    | else_ => exact aft (f := .act .else_) (s := st) h
    | include1 => exact aft (f := .act .skip) (s := st) h
    | tagEnd a => exact aft (f := .act a) (s := st) h
    | _ => cases h

/-- What could come next. -/
theorem sayable_next {c : Ctl} {ws : List Item} {i : Item} (hc : c ≠ .text) (hw : ∀ s, Machine.run cx.env (.text, s) ws = some (c, s)) {st : List Blk}
    (h : Machine.step cx.env (c, st) i ≠ none) : Sayable cx.env (ws ++ [i]) := by
  cases hs : Machine.step cx.env (c, st) i with
  | none => exact absurd hs h
  | some q =>
    obtain ⟨c', st'⟩ := q
    by_cases hi : Inner i
    · obtain ⟨rfl, _, _, h4⟩ := Machine.step_inner hc hi hs
      obtain ⟨s, hfs⟩ := Machine.favourable (doing c')
      refine sayable_of (s := s) (q := (c', s)) ?_ hfs
      rw [run_append_of (hw s), run_one]; exact h4 s
    · have := step_out hi hs; subst this
      refine sayable_of (s := st) (q := (.text, st')) ?_ (by simp [Machine.Live, doing, Act.on])
      rw [run_append_of (hw st), run_one]; exact hs

/-- A failure inside a tag. -/
theorem At.diagnosis {front : List Tok} {t : Tok} {ts : List Tok} {r : Option Err} {c : Ctl} {st st' : List Blk} {e : Err}
    (h : At cx front t ts r c st) (hg : Good cx c ts st') (hb : Bad cx (c, st') ts r e) : Diagnosis cx e := by
  cases hb with
  | @lexer q' h1 h2 h3 =>
    subst h1
    have h' : At cx front t (ts ++ []) (some e) c st := by simpa using h
    have hg' : Good cx c (ts ++ []) st' := by simpa using hg
    obtain ⟨a, _⟩ := h'.inTag hg' h3 h2
    exact .lexical (front := front) (part := t :: ts) (fails_of h.stream) (Or.inr (Or.inl a))
  | @eof q' x i h1 h2 h3 h4 h5 h6 =>
    subst h1
    have h' : At cx front t (ts ++ []) none c st := by simpa using h
    have hg' : Good cx c (ts ++ []) st' := by simpa using hg
    obtain ⟨a, a1, a2, a3, a4⟩ := h'.inTag hg' h6 h2
    exact .eof (front := front) (part := t :: ts) (tokens_of h.stream) a h3 (sayable_next (st := q'.2) a2 a4 h4) h5
  | @tok us t1 vs q' m sp h1 h2 h3 h4 h6 h7 h8 =>
    subst h1
    obtain ⟨a, a1, a2, a3, a4⟩ := h.inTag hg h8 h3
    obtain ⟨c', st2⟩ := q'
    refine .token (front := front) (part := t :: us) (t := t1) ?_ a ?_ (h6.mono (fun i hi => sayable_next a2 a4 hi) [t]) h7
    · have := h.stream
      rw [show front ++ t :: (us ++ t1 :: vs) = (front ++ (t :: us) ++ [t1]) ++ vs by simp] at this
      exact read_of this
    · have e1 : words cx.source (t :: us ++ [t1]) = words cx.source (t :: us) ++ [it cx.source t1] := by
        obtain ⟨w1, w2⟩ := words_begin (cx := cx) h.begins h.form h8
        rw [w2, w1, words_cons (by have := h2.head.2.1; intro hx; rw [hx] at this; cases this), h2.head.2.2.2]; rfl
      have e2 : words cx.source (t :: us ++ [t1]) = it cx.source t :: (spoken cx.source us ++ [it cx.source t1]) := by
        rw [e1, (words_begin (cx := cx) h.begins h.form h8).1]; rfl
      rw [e2]
      refine not_sayable h.begins.sign ?_
      intro s
      rw [← e2, e1, run_append_of (a4 s), run_one]
      exact Machine.step_none_any a2 a3 h4 s

/-- The end of a tag. -/
theorem expect_end (hne : cx.source ≠ []) {p : Parser} {q : Machine.State} {ts : List Tok} {r : Option Err} (h : Abs cx p ts r) (hg : Tg cx ts)
    {tk : Token} (hend : tk = .endExpr ∨ tk = .endBlock) (hok : Machine.step cx.env q (.sign tk) ≠ none)
    (hno : ∀ t rest, ts = t :: rest → t.1 ≠ tk → Machine.step cx.env q (it cx.source t) = none) :
    (∃ e, Parser.expect cx p tk = .err e ∧ Bad cx q ts r e) ∨
    ∃ sp rest p', ts = (tk, sp) :: rest ∧ Parser.expect cx p tk = .ok (sp, p') ∧ Abs cx p' rest r := by
  cases ts with
  | nil =>
    left
    cases r with
    | none =>
      obtain ⟨p', h1⟩ := next_eof h
      obtain ⟨e, he, hb⟩ := bad_eof (cx := cx) hne (α := Span × Parser) (.sign (tk := tk)) hok
      exact ⟨e, by simp [Parser.expect, h1, he, human_token], hb⟩
    | some e => exact ⟨e, by simp [Parser.expect, next_err h], .lexer rfl rfl⟩
  | cons t ts =>
    obtain ⟨tk', sp⟩ := t
    obtain ⟨p', h1, h2⟩ := next_cons h
    by_cases he : tk' = tk
    · subst he
      exact Or.inr ⟨sp, ts, p', rfl, by simp [Parser.expect, h1], h2⟩
    · left
      obtain ⟨e, h3, hb⟩ := bad_tok (r := r) hg (hno _ _ rfl he) (.expected (.sign (tk := tk)) hok) (α := Span × Parser)
      exact ⟨e, by simp only [Parser.expect, h1, Res.ok_bind, if_neg he, Parser.errUnexpectedToken, human_token]; exact h3, hb⟩

end Diag
end Upon
