import Verif.Proofs.DiagLoop
import Verif.Proofs.Stuck
/-
When the error of the lexer is the error of the template (for C52).
-/
namespace Upon
open Spec
namespace Diag
open Plain (spoken)
variable {syn : Syn} {cx : LexCx}

/-! Words with an open comment -/

theorem after_comment (f : Machine.After) (st : List Machine.Blk) : Machine.afterStep f st (.sign .beginComment) = none := by
  cases f <;> rfl

theorem expr_comment {env : Env} (p : Machine.Pos) (args : Bool) (f : Machine.After) (st : List Machine.Blk) :
    Machine.exprStep env p args f st (.sign .beginComment) = none := by
  cases p <;> first | rfl | exact after_comment f st

theorem step_comment {env : Env} (q : Machine.State) : Machine.step env q (.sign .beginComment) = none := by
  obtain ⟨c, st⟩ := q
  cases c <;> first | rfl | exact after_comment _ _ | exact expr_comment (env := env) _ ‹Bool› _ _

theorem run_comment {env : Env} (q : Machine.State) (a b : List Item) : Machine.run env q (a ++ .sign .beginComment :: b) = none := by
  rw [Machine.run_append]
  cases Machine.run env q a with
  | none => rfl
  | some q' => rw [Option.bind_some, Machine.run_cons, step_comment]; rfl

theorem viable_no_comment {env : Env} {a b : List Item} : ¬ Viable env (a ++ .sign .beginComment :: b) := by
  intro h
  obtain ⟨q, h1, _⟩ := viable_iff'.mp h
  rw [run_comment] at h1; cases h1

theorem viable_prefix {env : Env} {a b : List Item} (h : Viable env (a ++ b)) : Viable env a := by
  obtain ⟨more, ss, h⟩ := h
  exact ⟨b ++ more, ss, by simpa using h⟩

theorem words_open {src : Str} {b : Span} {ts : List Tok} (h : ∀ c d ts', ts ≠ (.raw, c) :: (.endComment, d) :: ts') :
    words src ((.beginComment, b) :: ts) = .sign .beginComment :: words src ts := by
  rw [words]
  · rfl
  · intro _ _ _ _ _ e; exact h _ _ _ e

/-- Tokens whose words are the beginning of a template do not end inside a comment. -/
theorem whole_viable {src : Str} {env : Env} : ∀ (n : Nat) (us : List Tok) (a : List Item), us.length ≤ n → Viable env (a ++ words src us) → Whole src us := by
  intro n
  induction n with
  | zero =>
    intro us a hl _
    cases us with
    | nil => exact whole_nil
    | cons _ _ => simp at hl
  | succ n ih =>
    intro us a hl hv
    cases us with
    | nil => exact whole_nil
    | cons t us =>
      obtain ⟨tk, sp⟩ := t
      simp only [List.length_cons, Nat.add_le_add_iff_right] at hl
      by_cases ht : tk = .beginComment
      · subst ht
        by_cases hc : ∃ c d us', us = (.raw, c) :: (.endComment, d) :: us'
        · obtain ⟨c, d, us', rfl⟩ := hc
          have e : ∀ X, words src ((.beginComment, sp) :: (.raw, c) :: (.endComment, d) :: us' ++ X) = words src (us' ++ X) := fun X => by
            simp only [List.cons_append, words]
          have e0 := e []
          simp only [List.append_nil] at e0
          rw [e0] at hv
          intro X
          rw [e X, e0]
          exact ih us' a (by simp at hl; omega) hv X
        · rw [words_open (fun c d us' e => hc ⟨c, d, us', e⟩)] at hv
          exact absurd hv viable_no_comment
      · have e : ∀ X, words src ((tk, sp) :: X) = saying src (tk, sp) ++ words src X := fun X => words_cons ht X
        rw [e, ← List.append_assoc] at hv
        intro X
        rw [List.cons_append, e, e, ih us _ hl hv X, List.append_assoc]

theorem viable_whole {src : Str} {env : Env} {us : List Tok} (h : Viable env (words src us)) : Whole src us :=
  whole_viable _ us [] (Nat.le_refl _) h

/-! Forms -/

theorem form_split : ∀ {xs ys : List Tok} {m : Mode3}, Form m (xs ++ ys) → ∃ m', Form m' ys := by
  intro xs
  induction xs with
  | nil => intro ys m h; exact ⟨m, h⟩
  | cons x xs ih => intro ys m h; cases h with | cons _ h => exact ih h

theorem form_begin {t : Tok} {ts : List Tok} {m : Mode3} (h : Form m (t :: ts)) (ht : t.1 = .beginExpr ∨ t.1 = .beginBlock) : Form .tag ts := by
  cases h with
  | cons _ h =>
    have : m.next t.1 = .tag := by rcases ht with ht | ht <;> rw [ht] <;> cases m <;> rfl
    rwa [this] at h

theorem form_prefix : ∀ {xs ys : List Tok} {m : Mode3}, Form m (xs ++ ys) → Form m xs := by
  intro xs
  induction xs with
  | nil => intro ys m h; exact .nil
  | cons x xs ih => intro ys m h; cases h with | cons h1 h2 => exact .cons h1 (ih h2)

/-- The tokens of a tag. -/
theorem form_tag {xs us ys : List Tok} {t : Tok} {m : Mode3} (h : Form m (xs ++ t :: us ++ ys)) (ht : t.1 = .beginExpr ∨ t.1 = .beginBlock)
    (hi : Inside us) : (∀ x ∈ us, x.1 ≠ .raw ∧ x.1 ≠ .beginComment ∧ isBeginTag x.1 = false) ∧ Form .tag ys := by
  rw [List.append_assoc] at h
  obtain ⟨m', h⟩ := form_split h
  exact form_inside (form_begin h ht) hi

/-- Where an initial part of `front ++ part` ends. -/
theorem prefix_cases {xs front part vs : List Tok} (h : front ++ part = xs ++ vs) :
    (∃ r, front = xs ++ r) ∨ ∃ q r, xs = front ++ q ∧ part = q ++ r ∧ q ≠ [] := by
  rcases List.append_eq_append_iff.mp h with ⟨q, h1, h2⟩ | ⟨q, h1, h2⟩
  · by_cases hq : q = []
    · subst hq; exact Or.inl ⟨[], by simpa using h1.symm⟩
    · exact Or.inr ⟨q, vs, h1, h2, hq⟩
  · exact Or.inl ⟨q, h1⟩

theorem yields_of {ts : List Tok} {e : Err} {lx : Lexer} (h : Lexes cx Lexer.new ts lx) (h' : lx.nextToken cx = .err e) :
    Yields cx Lexer.new ts (some e) := by
  generalize Lexer.new = l0 at h
  induction h with
  | none => exact .err h'
  | some hx _ ih => exact .cons hx (ih h')

theorem stops_yields {ts : List Tok} {e : Err} (h : Stops cx ts e) : Yields cx Lexer.new ts (some e) := by
  obtain ⟨lx, h1, h2⟩ := h; exact yields_of h1 h2

theorem yields_prefix {ts us : List Tok} {r : Option Err} : ∀ {l0 l2 : Lexer}, Yields cx l0 ts r → Lexes cx l0 us l2 → ∃ vs, ts = us ++ vs := by
  intro l0 l2 h h'
  induction h' generalizing ts with
  | none => exact ⟨ts, rfl⟩
  | some hx _ ih =>
    cases h with
    | eof h => rw [hx] at h; cases h
    | err h => rw [hx] at h; cases h
    | cons h hy =>
      rw [hx] at h
      injection h with h
      injection h with h1 h2
      injection h1 with h1
      subst h1 h2
      obtain ⟨vs, e⟩ := ih hy
      exact ⟨vs, by rw [e]; rfl⟩

theorem read_prefix {ts us : List Tok} {e : Err} (h : Stops cx ts e) (h' : Read cx us) : ∃ vs, ts = us ++ vs := by
  obtain ⟨l, h'⟩ := h'
  exact yields_prefix (stops_yields h) h'

theorem stops_not_tokens {ts us : List Tok} {e : Err} (h : Stops cx ts e) (h' : Tokens cx us) : False := by
  have := (yields_unique (stops_yields h) (yields_tokens.mpr h')).2
  cases this

theorem stops_unique {ts us : List Tok} {e e' : Err} (h : Stops cx ts e) (h' : Stops cx us e') : e = e' := by
  have := (yields_unique (stops_yields h) (stops_yields h')).2
  exact Option.some.inj this

theorem last_of {a b : List Tok} {t : Tok} {q : List Tok} (h : a ++ [t] = b ++ q) (hq : q ≠ []) : t ∈ q := by
  rcases List.eq_nil_or_concat q with rfl | ⟨q', d, rfl⟩
  · exact absurd rfl hq
  · have : a ++ [t] = (b ++ q') ++ [d] := by simpa using h
    have := (List.append_inj' this rfl).2
    simp at this; subst this; simp

/-- The lexer's error is the error of the template, if all before it is the beginning of a template, tag or comment. -/
theorem reported (g : Upon.Good syn cx) {front part : List Tok} {e e' : Err} (h : Stops cx (front ++ part) e)
    (hp : (part = [] ∧ Viable cx.env (words cx.source front)) ∨ InTag cx front part ∨ ∃ next, InComment cx front part next)
    (hd : Diagnosis cx e') : e' = e := by
  have hf := form_new g (stops_yields h)
  have hfront : Viable cx.env (words cx.source front) := by
    rcases hp with h | h | ⟨_, h⟩
    exacts [h.2, h.fine, h.fine]
  cases hd with
  | @token f' p' t m sp hr hi hn _ _ =>
    exfalso
    obtain ⟨vs, hv⟩ := read_prefix h hr
    obtain ⟨t0, us, rfl, ht0, hin⟩ := hi.opens
    have hff := hf
    rw [hv] at hff
    have hff' : Form .text (f' ++ t0 :: us ++ (t :: vs)) := by simpa using hff
    obtain ⟨k1, k2⟩ := form_tag hff' ht0 hin
    have kt : t.1 ≠ .raw ∧ isBeginTag t.1 = false := by cases k2 with | cons h _ => exact ⟨h.1, h.2.1⟩
    have nc : ∀ x ∈ t0 :: us ++ [t], x.1 ≠ .beginComment := by
      intro x hx
      simp only [List.cons_append, List.mem_cons, List.mem_append, List.not_mem_nil, or_false] at hx
      rcases hx with rfl | hx | rfl
      · rcases ht0 with h | h <;> rw [h] <;> simp
      · exact (k1 x hx).2.1
      · intro h; have := kt.2; rw [h] at this; cases this
    rcases prefix_cases hv with ⟨r, er⟩ | ⟨q, r, eq, er, hq⟩
    · apply hn
      have e1 : front = f' ++ (t0 :: us ++ [t] ++ r) := by rw [er]; simp
      rw [e1, viable_whole hi.fine, words_plain nc] at hfront
      obtain ⟨more, ss, hss⟩ := hfront
      refine ⟨words cx.source f', words cx.source r ++ more, ss, ?_⟩
      have e2 : words cx.source (t0 :: us ++ [t]) = spoken cx.source (t0 :: us ++ [t]) := words_plain' nc
      rw [e2]
      simpa using hss
    · have hmem : t ∈ q := last_of (a := f' ++ t0 :: us) eq hq
      rcases hp with ⟨rfl, _⟩ | hp | ⟨next, hp⟩
      · have : q = [] := by cases q with | nil => rfl | cons _ _ => cases er
        exact hq this
      · obtain ⟨s0, ws, rfl, hs0, hws⟩ := hp.opens
        have hff2 : Form .text (front ++ s0 :: ws ++ []) := by simpa using hf
        obtain ⟨w1, _⟩ := form_tag hff2 hs0 hws
        cases q with
        | nil => exact hq rfl
        | cons s1 ws1 =>
          have e3 : s0 = s1 := by simpa using (List.cons.inj er).1
          subst e3
          have e4 : ws = ws1 ++ r := (List.cons.inj er).2
          have e5 : f' ++ t0 :: (us ++ [t]) = front ++ s0 :: ws1 := by simpa using eq
          have ht0b : isBeginTag t0.1 = true := by rcases ht0 with h | h <;> rw [h] <;> rfl
          have hs0b : isBeginTag s0.1 = true := by rcases hs0 with h | h <;> rw [h] <;> rfl
          rcases List.append_eq_append_iff.mp e5 with ⟨z, h1, h2⟩ | ⟨z, h1, h2⟩
          · cases z with
            | nil =>
              have e6 := List.cons.inj h2
              apply hn
              obtain ⟨bf, af, ss, hss⟩ := hp.sayable
              have nc2 : ∀ x ∈ s0 :: ws, x.1 ≠ .beginComment := by
                intro x hx
                rcases List.mem_cons.mp hx with rfl | hx
                · rcases hs0 with h | h <;> rw [h] <;> simp
                · exact (w1 x hx).2.1
              have nc3 : ∀ x ∈ r, x.1 ≠ .beginComment := fun x hx => nc2 x (by rw [e4]; simp [hx])
              have e7 : s0 :: ws = (t0 :: us ++ [t]) ++ r := by rw [e4, ← e6.1, ← e6.2]; rfl
              rw [e7, words_plain nc, ← words_plain' nc] at hss
              exact ⟨bf, words cx.source r ++ af, ss, by simpa using hss⟩
            | cons z0 z =>
              have e6 := (List.cons.inj h2).2
              have : s0 ∈ us ++ [t] := by rw [e6]; simp
              rcases List.mem_append.mp this with h | h
              · have := (k1 s0 h).2.2; rw [hs0b] at this; cases this
              · have hst : s0 = t := by simpa using h
                have := kt.2; rw [← hst, hs0b] at this; cases this
          · cases z with
            | nil =>
              have e6 := List.cons.inj h2
              apply hn
              obtain ⟨bf, af, ss, hss⟩ := hp.sayable
              have e7 : s0 :: ws = (t0 :: us ++ [t]) ++ r := by rw [e4, e6.1, e6.2]; rfl
              rw [e7, words_plain nc, ← words_plain' nc] at hss
              exact ⟨bf, words cx.source r ++ af, ss, by simpa using hss⟩
            | cons z0 z =>
              have e6 := (List.cons.inj h2).2
              have : t0 ∈ ws := by rw [e4, e6]; simp
              have := (w1 t0 this).2.2; rw [ht0b] at this; cases this
      · have hmem2 : t ∈ part := by rw [er]; simp [hmem]
        rcases hp.begun with ⟨b, rfl, _⟩ | ⟨b, c, rfl, _⟩
        · simp at hmem2; subst hmem2; have := kt.2; cases this
        · simp at hmem2
          rcases hmem2 with rfl | rfl
          · have := kt.2; cases this
          · exact kt.1 rfl
  | eof ht => exact (stops_not_tokens h ht).elim
  | @comment f' p' t next hr hi hne _ =>
    exfalso
    obtain ⟨vs, hv⟩ := read_prefix h hr
    have hff := hf
    rw [hv] at hff
    have hopen : t.1 = .raw ∨ t.1 = .endComment := by
      rcases hi.begun with ⟨b, rfl, rfl⟩ | ⟨b, c, rfl, rfl⟩
      · have : Form .text (f' ++ ((.beginComment, b) :: t :: vs)) := by simpa using hff
        obtain ⟨m', hm⟩ := form_split this
        cases hm with
        | cons _ h2 =>
          have : m'.next .beginComment = .comment := by cases m' <;> rfl
          rw [this] at h2
          cases h2 with | cons h3 _ => exact h3
      · have : Form .text (f' ++ ((.beginComment, b) :: (.raw, c) :: t :: vs)) := by simpa using hff
        obtain ⟨m', hm⟩ := form_split this
        cases hm with
        | cons _ h2 =>
          have : m'.next .beginComment = .comment := by cases m' <;> rfl
          rw [this] at h2
          cases h2 with
          | cons _ h3 =>
            cases h3 with | cons h4 _ => exact h4
    rcases prefix_cases hv with ⟨r, er⟩ | ⟨q, r, eq, er, hq⟩
    · have e1 : front = f' ++ (p' ++ [t] ++ r) := by rw [er]; simp
      rw [e1, viable_whole hi.fine] at hfront
      rcases hi.begun with ⟨b, rfl, rfl⟩ | ⟨b, c, rfl, rfl⟩
      · simp only [List.cons_append, List.nil_append] at hfront
        rw [words_open (by intro c d ts' e; injection e with e _; subst e; exact hne rfl)] at hfront
        exact viable_no_comment hfront
      · simp only [List.cons_append, List.nil_append] at hfront
        rw [words_open (by intro c d ts' e; injection e with _ e; injection e with e _; subst e; exact hne rfl)] at hfront
        exact viable_no_comment hfront
    · have hmem : t ∈ part := by
        rw [er]; exact List.mem_append_left _ (last_of (a := f' ++ p') eq hq)
      rcases hp with ⟨rfl, _⟩ | hp | ⟨next', hp⟩
      · cases hmem
      · obtain ⟨s0, ws, rfl, hs0, hws⟩ := hp.opens
        have hff2 : Form .text (front ++ s0 :: ws ++ []) := by simpa using hf
        obtain ⟨w1, _⟩ := form_tag hff2 hs0 hws
        rcases List.mem_cons.mp hmem with rfl | hm
        · rcases hs0 with h | h <;> rw [h] at hopen <;> simp at hopen
        · rcases hopen with h | h
          · exact (w1 t hm).1 h
          · have := hws t hm; rw [h] at this; cases this
      · have htraw : t.1 = .raw := by
          rcases hopen with h | h
          · exact h
          · rcases hp.begun with ⟨b, rfl, _⟩ | ⟨b, c, rfl, _⟩ <;> simp at hmem
            · subst hmem; cases h
            · rcases hmem with rfl | rfl <;> cases h
        rcases hi.begun with ⟨b, rfl, rfl⟩ | ⟨b, c, rfl, rfl⟩
        · exact hne htraw
        · rcases hp.begun with ⟨b', rfl, _⟩ | ⟨b', c', rfl, _⟩
          · simp at hmem; subst hmem; cases htraw
          · have hlen : q = [(.beginComment, b')] ∨ q = [(.beginComment, b'), (.raw, c')] := by
              cases q with
              | nil => exact absurd rfl hq
              | cons q0 q =>
                cases q with
                | nil => simp at er; left; rw [er.1]
                | cons q1 q =>
                  cases q with
                  | nil => simp at er; right; rw [er.1, er.2.1]
                  | cons _ _ => simp at er
            rcases hlen with rfl | rfl
            · have := last_of (a := f' ++ [(.beginComment, b), (.raw, c)]) eq hq
              simp at this; subst this; cases htraw
            · have e8 : (f' ++ [(.beginComment, b)]) ++ [(Token.raw, c), t] = front ++ [(.beginComment, b'), (.raw, c')] := by simpa using eq
              have := (List.append_inj' e8 rfl).2
              simp at this
  | eofComment ht => exact (stops_not_tokens h ht).elim
  | @misplaced f' b k us c w hr hv1 _ hnv _ _ =>
    exfalso
    obtain ⟨vs, hv⟩ := read_prefix h hr
    have kw1 : ∀ x ∈ ([(.beginBlock, b), (.keyword, k)] : List Tok), x.1 ≠ .beginComment := by simp
    rcases prefix_cases hv with ⟨r, er⟩ | ⟨q, r, eq, er, hq⟩
    · apply hnv
      have e1 : front = f' ++ ([(.beginBlock, b), (.keyword, k)] ++ (us ++ [(.endBlock, c)] ++ r)) := by rw [er]; simp [blockTag]
      rw [e1, viable_whole hv1, words_plain kw1, ← words_plain' kw1, ← List.append_assoc] at hfront
      rw [viable_whole hv1]
      exact viable_prefix hfront
    · have hmem : ((.endBlock, c) : Tok) ∈ part := by
        rw [er]
        refine List.mem_append_left _ (last_of (a := f' ++ (.beginBlock, b) :: (.keyword, k) :: us) (b := front) ?_ hq)
        simpa [blockTag] using eq
      rcases hp with ⟨rfl, _⟩ | hp | ⟨next', hp⟩
      · cases hmem
      · obtain ⟨s0, ws, rfl, hs0, hws⟩ := hp.opens
        rcases List.mem_cons.mp hmem with rfl | hm
        · simp at hs0
        · have := hws _ hm; cases this
      · rcases hp.begun with ⟨b, rfl, _⟩ | ⟨b, c, rfl, _⟩ <;> simp at hmem
  | unclosed ht => exact (stops_not_tokens h ht).elim
  | lexical hs _ => exact stops_unique hs h

end Diag
end Upon

namespace Upon
open Spec
namespace Diag
variable {syn : Syn} {cx : LexCx}

theorem stuck_reports (g : Upon.Good syn cx) {md : Mode} {o : Option Span} {i : Nat} {ts : List Tok} {m : String} {sp : Span}
    (h1 : Scans syn cx.env cx.source md o i (.text false) none 0 ts) (h2 : Stuck syn cx.env cx.source o i md m sp) : ∃ e, Reports cx m sp e := by
  apply Classical.byContradiction
  intro hno
  have key : ∀ e, Stops cx ts e := by
    intro e
    refine Lexer.Scans.reads g h1 ?_ Lexer.new (Lexer.Inv.new syn cx) rfl rfl rfl rfl
    intro lx inv hn hc hm ho
    subst hc hm ho
    exact absurd (Lexer.Stuck.reports g inv hn h2) hno
  have := stops_unique (key ⟨.syntax, none, none, none⟩) (key ⟨.render, none, none, none⟩)
  cases this

end Diag
end Upon
