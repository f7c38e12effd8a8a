import Verif.Proofs.DiagBlock
/-
Tags and where they stand (for C51).
-/
namespace Upon
open Spec
namespace Machine
open Plain (WStmts tag)

variable {env : Env}

/-- Not the end of a tag. -/
def Inner (i : Item) : Prop := i ≠ .sign .endExpr ∧ i ≠ .sign .endBlock

theorem live_expr {p : Pos} {args : Bool} {f : After} {st : List Blk} : Live (.expr p args f, st) ↔ Live (.expr .base false f, st) := by
  cases f <;> exact Iff.rfl

theorem after_inner {f : After} {st st' : List Blk} {i : Item} {c : Ctl} (hi : Inner i) (h : afterStep f st i = some (c, st')) :
    st' = st ∧ c ≠ .text ∧ (Live (.expr .base false f, st) → Live (c, st)) ∧ ∀ s, afterStep f s i = some (c, s) := by
  obtain ⟨h1, h2⟩ := hi
  cases f with
  | endExpr =>
    cases i with
    | sign t => cases t <;> first | exact absurd rfl h1 | cases h
    | _ => cases h
  | act a =>
    cases i with
    | sign t => cases t <;> first | exact absurd rfl h2 | cases h
    | _ => cases h
  | as_ =>
    cases i with
    | word t s =>
      cases t <;> try (cases h; done)
      simp only [afterStep] at h ⊢
      by_cases hs : s = "as".toList
      · rw [if_pos hs] at h; simp only [if_pos hs]; cases h
        exact ⟨rfl, by simp, by simp [Live, doing, Act.on], fun s => rfl⟩
      · rw [if_neg hs] at h; cases h
    | _ => cases h

theorem expr_inner {p : Pos} {args : Bool} {f : After} {st st' : List Blk} {i : Item} {c : Ctl} (hi : Inner i)
    (h : exprStep env p args f st i = some (c, st')) :
    st' = st ∧ c ≠ .text ∧ (Live (.expr p args f, st) → Live (c, st)) ∧ ∀ s, exprStep env p args f s i = some (c, s) := by
  have key : ∀ {f st st' c}, afterStep f st i = some (c, st') →
      st' = st ∧ c ≠ .text ∧ (Live (.expr p args f, st) → Live (c, st)) ∧ ∀ s, afterStep f s i = some (c, s) := by
    intro f st st' c h
    obtain ⟨a, b, c', d⟩ := after_inner hi h
    exact ⟨a, b, fun hl => c' (live_expr.mp hl), d⟩
  have same : ∀ {p' args'}, some ((Ctl.expr p' args' f, st) : State) = some (c, st') → st' = st ∧ c = .expr p' args' f := by
    rintro p' args' ⟨⟩; exact ⟨rfl, rfl⟩
  have fin : ∀ {p' args'}, some ((Ctl.expr p' args' f, st) : State) = some (c, st') →
      st' = st ∧ c ≠ .text ∧ (Live (.expr p args f, st) → Live (c, st)) ∧ ∀ s : List Blk, some ((Ctl.expr p' args' f, s) : State) = some (c, s) := by
    rintro p' args' ⟨⟩
    exact ⟨rfl, by simp, fun hl => by cases f <;> exact hl, fun s => rfl⟩
  cases p with
  | base =>
    cases i with
    | char => cases h
    | sign t => cases t <;> first | cases h; done | exact fin h
    | word t s =>
      cases t <;> first | (cases h; done) | exact fin h | skip
      all_goals
        simp only [exprStep] at h ⊢
        split at h
        · next hs => simp only [if_pos hs]; exact fin h
        · cases h
  | sign neg =>
    cases i with
    | word t s =>
      cases t <;> try (cases h; done)
      simp only [exprStep] at h ⊢
      split at h
      · next hs => simp only [if_pos hs]; exact fin h
      · cases h
    | _ => cases h
  | access =>
    cases i with
    | word t s =>
      cases t <;> first | (cases h; done) | exact fin h | skip
      simp only [exprStep] at h ⊢
      split at h
      · next hs => simp only [if_pos hs]; exact fin h
      · cases h
    | _ => cases h
  | pipe =>
    cases i with
    | word t s => cases t <;> first | (cases h; done) | exact fin h
    | _ => cases h
  | path =>
    cases i with
    | sign t =>
      cases t <;> first | exact fin h | exact key h | skip
      simp only [exprStep] at h ⊢
      split at h
      · next hs => simp only [if_pos hs]; exact fin h
      · cases h
    | _ => exact key h
  | lit =>
    cases i with
    | sign t =>
      cases t <;> first | exact fin h | exact key h | skip
      simp only [exprStep] at h ⊢
      split at h
      · next hs => simp only [if_pos hs]; exact fin h
      · cases h
    | _ => exact key h
  | name =>
    cases i with
    | sign t => cases t <;> first | exact fin h | exact key h
    | _ => exact key h

theorem kw_inner {st st' : List Blk} {kw : Keyword} {c : Ctl} (h : kwStep st kw = some (c, st')) :
    st' = st ∧ c ≠ .text ∧ ∀ s, kwStep s kw = some (c, s) := by
  cases kw <;> first | (cases h; done) | (cases h; exact ⟨rfl, by simp, fun s => rfl⟩)

/-- Inside a tag the open blocks do not matter. -/
theorem step_inner {c c' : Ctl} {st st' : List Blk} {i : Item} (hc : c ≠ .text) (hi : Inner i) (h : step env (c, st) i = some (c', st')) :
    st' = st ∧ c' ≠ .text ∧ (c ≠ .block0 → Live (c, st) → Live (c', st)) ∧ ∀ s, step env (c, s) i = some (c', s) := by
  have fin : ∀ {d : Ctl}, some ((d, st) : State) = some (c', st') → d ≠ .text → (Live (c, st) → Live (d, st)) →
      st' = st ∧ c' ≠ .text ∧ (c ≠ .block0 → Live (c, st) → Live (c', st)) ∧ ∀ s : List Blk, some ((d, s) : State) = some (c', s) := by
    rintro d ⟨⟩ hd hl
    exact ⟨rfl, hd, fun _ => hl, fun s => rfl⟩
  cases c with
  | text => exact absurd rfl hc
  | block0 =>
    cases i with
    | word t s =>
      cases t <;> try (cases h; done)
      simp only [step] at h ⊢
      cases hk : Keyword.fromStr s with
      | none => rw [hk] at h; cases h
      | some kw =>
        rw [hk] at h
        obtain ⟨a, b, d⟩ := kw_inner h
        exact ⟨a, b, fun hb => absurd rfl hb, d⟩
    | _ => cases h
  | else_ =>
    cases i with
    | word t s =>
      cases t <;> try (cases h; done)
      simp only [step] at h ⊢
      split at h
      · next hs => simp only [if_pos hs]; exact fin h (by simp) (by
          simp only [Live, doing]
          cases st with
          | nil => simp [Act.on]
          | cons b st => cases b <;> simp [Act.on])
      · cases h
    | sign t =>
      obtain ⟨a, b, d, e⟩ := after_inner (f := .act .else_) hi h
      exact ⟨a, b, fun _ hl => d hl, e⟩
    | char => cases h
  | for0 =>
    cases i with
    | word t s => cases t <;> first | (cases h; done) | exact fin h (by simp) (by simp [Live, doing, Act.on])
    | _ => cases h
  | for1 =>
    cases i with
    | sign t => cases t <;> first | (cases h; done) | exact fin h (by simp) (by simp [Live, doing, Act.on])
    | word t s =>
      cases t <;> try (cases h; done)
      simp only [step] at h ⊢
      split at h
      · next hs => simp only [if_pos hs]; exact fin h (by simp) (by simp [Live, doing, Act.on])
      · cases h
    | _ => cases h
  | for2 =>
    cases i with
    | word t s => cases t <;> first | (cases h; done) | exact fin h (by simp) (by simp [Live, doing, Act.on])
    | _ => cases h
  | for3 =>
    cases i with
    | word t s =>
      cases t <;> try (cases h; done)
      simp only [step] at h ⊢
      split at h
      · next hs => simp only [if_pos hs]; exact fin h (by simp) (by simp [Live, doing, Act.on])
      · cases h
    | _ => cases h
  | include0 =>
    cases i with
    | word t s =>
      cases t <;> try (cases h; done)
      simp only [step] at h ⊢
      split at h
      · next hs => simp only [if_pos hs]; exact fin h (by simp) (by simp [Live, doing, Act.on])
      · cases h
    | _ => cases h
  | include1 =>
    cases i with
    | word t s =>
      cases t <;> try (cases h; done)
      simp only [step] at h ⊢
      split at h
      · next hs => simp only [if_pos hs]; exact fin h (by simp) (by simp [Live, doing, Act.on])
      · cases h
    | sign t =>
      obtain ⟨a, b, d, e⟩ := after_inner (f := .act .skip) hi h
      exact ⟨a, b, fun _ hl => d hl, e⟩
    | char => cases h
  | withName =>
    cases i with
    | word t s => cases t <;> first | (cases h; done) | exact fin h (by simp) (by simp [Live, doing, Act.on])
    | _ => cases h
  | tagEnd a =>
    obtain ⟨a', b, d, e⟩ := after_inner (f := .act a) hi h
    exact ⟨a', b, fun _ hl => d hl, e⟩
  | cond a =>
    have key : ∀ {st' c'}, exprStep env .base false (.act a) st i = some (c', st') →
      st' = st ∧ c' ≠ .text ∧ (Ctl.cond a ≠ .block0 → Live (.cond a, st) → Live (c', st)) ∧ ∀ s, exprStep env .base false (.act a) s i = some (c', s) := by
      intro st' c' h
      obtain ⟨a', b, d, e⟩ := expr_inner hi h
      exact ⟨a', b, fun _ hl => d hl, e⟩
    cases i with
    | word t s =>
      cases t <;> first | exact key h | skip
      simp only [step] at h ⊢
      split at h
      · next hs => simp only [if_pos hs]; exact fin h (by simp) (fun hl => hl)
      · next hs => simp only [if_neg hs]; exact key h
    | _ => exact key h
  | expr p args f =>
    obtain ⟨a', b, d, e⟩ := expr_inner hi h
    exact ⟨a', b, fun _ hl => d hl, e⟩

theorem block0_not {c : Ctl} {st st' : List Blk} {i : Item} (hc : c ≠ .text) (hi : Inner i) (h : step env (c, st) i = some (.block0, st')) : False := by
  have fin : ∀ {d : Ctl}, some ((d, st) : State) = some (.block0, st') → d ≠ .block0 → False := by
    rintro d ⟨⟩ hd; exact hd rfl
  have aft : ∀ {f st st'}, afterStep f st i = some (.block0, st') → False := by
    intro f st st' h
    cases f <;> cases i <;> simp only [afterStep] at h <;> (try cases h) <;> (split at h <;> try cases h)
    all_goals simp_all
  have exp : ∀ {p args f st st'}, exprStep env p args f st i = some (.block0, st') → False := by
    intro p args f st st' h
    cases p <;> simp only [exprStep] at h <;> (repeat' split at h) <;> first | (cases h; done) | exact aft h
  cases c with
  | text => exact hc rfl
  | block0 =>
    simp only [step] at h
    split at h
    · next s =>
      cases hk : Keyword.fromStr s with
      | none => rw [hk] at h; cases h
      | some kw => rw [hk] at h; cases kw <;> cases h
    · cases h
  | _ => simp only [step] at h <;> (repeat' split at h) <;> first | (cases h; done) | exact aft h | exact exp h

theorem run_inner {c c' : Ctl} {st st' : List Blk} {ws : List Item} (hc : c ≠ .text) (hi : ∀ i ∈ ws, Inner i)
    (h : run env (c, st) ws = some (c', st')) :
    st' = st ∧ c' ≠ .text ∧ (c ≠ .block0 → c' ≠ .block0 ∧ (Live (c, st) → Live (c', st))) ∧ ∀ s, run env (c, s) ws = some (c', s) := by
  induction ws generalizing c with
  | nil => cases h; exact ⟨rfl, hc, fun hb => ⟨hb, id⟩, fun s => rfl⟩
  | cons i ws ih =>
    rw [run_cons] at h
    cases hs : step env (c, st) i with
    | none => rw [hs] at h; cases h
    | some q =>
      obtain ⟨c1, st1⟩ := q
      obtain ⟨rfl, h2, h3, h4⟩ := step_inner hc (hi i (by simp)) hs
      have hb1 : c1 ≠ .block0 := by rintro rfl; exact block0_not hc (hi i (by simp)) hs
      rw [hs] at h
      obtain ⟨e1, e2, e3, e4⟩ := ih h2 (fun j hj => hi j (by simp [hj])) h
      refine ⟨e1, e2, fun hb => ⟨(e3 hb1).1, fun hl => (e3 hb1).2 (h3 hb hl)⟩, ?_⟩
      intro s
      rw [run_cons_of (h4 s)]; exact e4 s

theorem step_none_any {c : Ctl} {st : List Blk} {i : Item} (hc : c ≠ .text) (hl : Live (c, st)) (h : step env (c, st) i = none) (s : List Blk) :
    step env (c, s) i = none := by
  by_cases hi : Inner i
  · cases hs : step env (c, s) i with
    | none => rfl
    | some q =>
      obtain ⟨c', s'⟩ := q
      have := (step_inner hc hi hs).2.2.2 st
      rw [h] at this; cases this
  · have hi' : i = .sign .endExpr ∨ i = .sign .endBlock := by
      unfold Inner at hi; by_cases h1 : i = .sign .endExpr
      · exact Or.inl h1
      · by_cases h2 : i = .sign .endBlock
        · exact Or.inr h2
        · exact absurd ⟨h1, h2⟩ hi
    have act : ∀ {a : Act}, a.on st ≠ none → ((a.on st).map fun st' => ((Ctl.text, st') : State)) = none → False := by
      intro a h1 h2
      cases ha : a.on st with
      | none => exact h1 ha
      | some x => rw [ha] at h2; cases h2
    have aft : ∀ {f : After}, Live (.expr .base false f, st) → afterStep f st i = none → afterStep f s i = none := by
      intro f hl h
      rcases hi' with rfl | rfl <;> cases f
      · exact absurd h (by simp [afterStep])
      · rfl
      · rfl
      · rfl
      · exact (act hl h).elim
      · rfl
    rcases hi' with rfl | rfl
    all_goals
      cases c with
      | text => exact absurd rfl hc
      | expr p args f =>
        cases p <;> first | rfl | exact aft (live_expr.mp hl) h
      | else_ => exact aft (f := .act .else_) hl h
      | include1 => exact aft (f := .act .skip) hl h
      | tagEnd a => exact aft (f := .act a) hl h
      | _ => rfl

/-- Tags open only in text. -/
theorem step_begin {q q' : State} {i : Item} (hi : i = .sign .beginExpr ∨ i = .sign .beginBlock) (h : step env q i = some q') : q.1 = .text := by
  obtain ⟨c, st⟩ := q
  have aft : ∀ {f st}, afterStep f st i = none := by
    rcases hi with rfl | rfl <;> (intro f st; cases f <;> rfl)
  cases c with
  | text => rfl
  | expr p args f =>
    exfalso
    rcases hi with rfl | rfl <;> cases p <;> first | (cases h; done) | (simp only [step, exprStep] at h; rw [aft] at h; cases h)
  | else_ => exfalso; rcases hi with rfl | rfl <;> cases h
  | include1 => exfalso; rcases hi with rfl | rfl <;> cases h
  | tagEnd a => exfalso; rcases hi with rfl | rfl <;> cases h
  | cond a => exfalso; rcases hi with rfl | rfl <;> cases h
  | _ => exfalso; rcases hi with rfl | rfl <;> cases h

/-- Words after which these blocks are open. -/
theorem opening (st : List Blk) : ∃ ws, run env (.text, []) ws = some (.text, st) := by
  have var : Plain.WExpr env [.word .ident []] (.base (.var [] ⟨.direct, .key []⟩ [])) :=
    ⟨_, _, [], rfl, .var .nil, .nil⟩
  have go : ∀ {st : List Blk} {ws T : List Item} {a : Act} {st' : List Blk}, run env (.text, []) ws = some (.text, st) → TagOf env a T → a.on st = some st' →
      run env (.text, []) (ws ++ T) = some (.text, st') := by
    intro st ws T a st' h ht ha
    rw [run_append_of h]
    have := run_tag ht st []
    rw [ha] at this
    simpa using this
  induction st with
  | nil => exact ⟨[], rfl⟩
  | cons b st ih =>
    obtain ⟨ws, h⟩ := ih
    cases b with
    | ifOpen => exact ⟨_, go h (.if_ (.plain var)) rfl⟩
    | ifElse => exact ⟨_, go (go h (.if_ (.plain var)) rfl) .else_ rfl⟩
    | for_ => exact ⟨_, go h (.for_ (.item (s := [])) var) rfl⟩
    | with_ => exact ⟨_, go h (.with_ (s := []) var) rfl⟩

/-- Blocks among which the tag is in place. -/
theorem favourable (a : Act) : ∃ st, a.on st ≠ none := by
  cases a with
  | push b => exact ⟨[], by simp [Act.on]⟩
  | skip => exact ⟨[], by simp [Act.on]⟩
  | else_ => exact ⟨[.ifOpen], by simp [Act.on]⟩
  | elseIf => exact ⟨[.ifOpen], by simp [Act.on]⟩
  | endif => exact ⟨[.ifOpen], by simp [Act.on]⟩
  | endfor => exact ⟨[.for_], by simp [Act.on]⟩
  | endwith => exact ⟨[.with_], by simp [Act.on]⟩

end Machine
end Upon
