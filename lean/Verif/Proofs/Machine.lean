import Verif.Proofs.Words
/-
A machine that reads words one at a time and can go on exactly as long as what it has read can be completed to a
template (for C51).  It is a proof device: the statement of C51 does not mention it.
-/
namespace Upon
open Spec
namespace Machine
open Plain (WStmts WElse WExpr WBase WPath WArgs WCalls WCond WVars tag wappend)

variable {env : Env}

/-- An open block. -/
inductive Blk where
  | ifOpen | ifElse | for_ | with_
deriving DecidableEq

/-- What a block tag does to the open blocks. -/
inductive Act where
  | push (b : Blk) | skip | else_ | elseIf | endif | endfor | endwith
deriving DecidableEq

def Act.on : Act → List Blk → Option (List Blk)
  | .push b, st => some (b :: st)
  | .skip, st => some st
  | .else_, .ifOpen :: st => some (.ifElse :: st)
  | .elseIf, .ifOpen :: st => some (.ifOpen :: st)
  | .endif, .ifOpen :: st => some st
  | .endif, .ifElse :: st => some st
  | .endfor, .for_ :: st => some st
  | .endwith, .with_ :: st => some st
  | _, _ => none

/-- Where in an expression. -/
inductive Pos where
  | base | sign (neg : Bool) | path | access | lit | pipe | name
deriving DecidableEq

/-- What comes after an expression. -/
inductive After where
  | endExpr | act (a : Act) | as_
deriving DecidableEq

inductive Ctl where
  | text | block0 | else_ | for0 | for1 | for2 | for3 | include0 | include1 | withName
  | tagEnd (a : Act) | cond (a : Act) | expr (p : Pos) (args : Bool) (f : After)
deriving DecidableEq

abbrev State := Ctl × List Blk

def afterStep : After → List Blk → Item → Option State
  | .endExpr, st, .sign .endExpr => some (.text, st)
  | .act a, st, .sign .endBlock => (a.on st).map fun st' => (.text, st')
  | .as_, st, .word .keyword s => if s = "as".toList then some (.withName, st) else none
  | _, _, _ => none

open Classical in
noncomputable def exprStep (env : Env) (p : Pos) (args : Bool) (f : After) (st : List Blk) (i : Item) : Option State :=
  match p with
  | .base =>
    match i with
    | .word .keyword s => if s = "true".toList ∨ s = "false".toList then some (.expr .lit args f, st) else none
    | .word .number s => if ∃ v, NumLit env s false v then some (.expr .lit args f, st) else none
    | .word .string s => if ∃ v, StrLit s v then some (.expr .lit args f, st) else none
    | .word .ident _ => some (.expr .path args f, st)
    | .sign .plus => some (.expr (.sign false) args f, st)
    | .sign .minus => some (.expr (.sign true) args f, st)
    | _ => none
  | .sign neg =>
    match i with
    | .word .number s => if ∃ v, NumLit env s neg v then some (.expr .lit args f, st) else none
    | _ => none
  | .access =>
    match i with
    | .word .ident _ => some (.expr .path args f, st)
    | .word .index s => if decimal s < 2 ^ env.usizeBits then some (.expr .path args f, st) else none
    | _ => none
  | .pipe =>
    match i with
    | .word .ident _ => some (.expr .name false f, st)
    | _ => none
  | .path =>
    match i with
    | .sign .dot => some (.expr .access args f, st)
    | .sign .questionDot => some (.expr .access args f, st)
    | .sign .comma => if args then some (.expr .base true f, st) else none
    | .sign .pipe => some (.expr .pipe false f, st)
    | i => afterStep f st i
  | .lit =>
    match i with
    | .sign .comma => if args then some (.expr .base true f, st) else none
    | .sign .pipe => some (.expr .pipe false f, st)
    | i => afterStep f st i
  | .name =>
    match i with
    | .sign .colon => some (.expr .base true f, st)
    | .sign .pipe => some (.expr .pipe false f, st)
    | i => afterStep f st i

/-- After the keyword of a block tag. -/
def kwStep (st : List Blk) : Keyword → Option State
  | .if_ => some (.cond (.push .ifOpen), st)
  | .else_ => some (.else_, st)
  | .endif => some (.tagEnd .endif, st)
  | .for_ => some (.for0, st)
  | .endfor => some (.tagEnd .endfor, st)
  | .with_ => some (.expr .base false .as_, st)
  | .endwith => some (.tagEnd .endwith, st)
  | .include_ => some (.include0, st)
  | _ => none

open Classical in
noncomputable def step (env : Env) (q : State) (i : Item) : Option State :=
  match q.1 with
  | .text =>
    match i with
    | .char _ => some (.text, q.2)
    | .sign .beginExpr => some (.expr .base false .endExpr, q.2)
    | .sign .beginBlock => some (.block0, q.2)
    | _ => none
  | .block0 =>
    match i with
    | .word .keyword s => (Keyword.fromStr s).bind (kwStep q.2)
    | _ => none
  | .else_ =>
    match i with
    | .word .keyword s => if s = "if".toList then some (.cond .elseIf, q.2) else none
    | i => afterStep (.act .else_) q.2 i
  | .for0 =>
    match i with
    | .word .ident _ => some (.for1, q.2)
    | _ => none
  | .for1 =>
    match i with
    | .sign .comma => some (.for2, q.2)
    | .word .keyword s => if s = "in".toList then some (.expr .base false (.act (.push .for_)), q.2) else none
    | _ => none
  | .for2 =>
    match i with
    | .word .ident _ => some (.for3, q.2)
    | _ => none
  | .for3 =>
    match i with
    | .word .keyword s => if s = "in".toList then some (.expr .base false (.act (.push .for_)), q.2) else none
    | _ => none
  | .include0 =>
    match i with
    | .word .string s => if ∃ v, StrLit s v then some (.include1, q.2) else none
    | _ => none
  | .include1 =>
    match i with
    | .word .keyword s => if s = "with".toList then some (.expr .base false (.act .skip), q.2) else none
    | i => afterStep (.act .skip) q.2 i
  | .withName =>
    match i with
    | .word .ident _ => some (.tagEnd (.push .with_), q.2)
    | _ => none
  | .tagEnd a => afterStep (.act a) q.2 i
  | .cond a =>
    match i with
    | .word .keyword s =>
      if s = "not".toList then some (.expr .base false (.act a), q.2) else exprStep env .base false (.act a) q.2 i
    | i => exprStep env .base false (.act a) q.2 i
  | .expr p args f => exprStep env p args f q.2 i

noncomputable def run (env : Env) : State → List Item → Option State
  | q, [] => some q
  | q, i :: is => (step env q i).bind fun q' => run env q' is

@[simp] theorem run_nil (q : State) : run env q [] = some q := rfl
theorem run_cons (q : State) (i : Item) (is : List Item) :
    run env q (i :: is) = (step env q i).bind fun q' => run env q' is := rfl

theorem run_append (q : State) (a b : List Item) : run env q (a ++ b) = (run env q a).bind fun q' => run env q' b := by
  induction a generalizing q with
  | nil => rfl
  | cons i a ih =>
    rw [List.cons_append, run_cons, run_cons]
    cases step env q i with
    | none => rfl
    | some q' => exact ih q'

theorem run_append_of {q q' : State} {a : List Item} (h : run env q a = some q') (b : List Item) :
    run env q (a ++ b) = run env q' b := by rw [run_append, h]; rfl

theorem run_one (q : State) (i : Item) : run env q [i] = step env q i := by
  rw [run_cons]; cases step env q i <;> rfl

theorem run_cons_of {q q' : State} {i : Item} (h : step env q i = some q') (b : List Item) :
    run env q (i :: b) = run env q' b := by rw [run_cons, h]; rfl

/-! What the grammar accepts the machine reads -/

theorem fromStr_some {s : Str} {kw : Keyword} (h : Keyword.fromStr s = some kw) : s = kw.human.toList := by
  unfold Keyword.fromStr at h
  by_cases hs : s = "if".toList
  · rw [if_pos hs] at h; cases h; exact hs
  rw [if_neg hs] at h; clear hs
  by_cases hs : s = "not".toList
  · rw [if_pos hs] at h; cases h; exact hs
  rw [if_neg hs] at h; clear hs
  by_cases hs : s = "else".toList
  · rw [if_pos hs] at h; cases h; exact hs
  rw [if_neg hs] at h; clear hs
  by_cases hs : s = "endif".toList
  · rw [if_pos hs] at h; cases h; exact hs
  rw [if_neg hs] at h; clear hs
  by_cases hs : s = "for".toList
  · rw [if_pos hs] at h; cases h; exact hs
  rw [if_neg hs] at h; clear hs
  by_cases hs : s = "in".toList
  · rw [if_pos hs] at h; cases h; exact hs
  rw [if_neg hs] at h; clear hs
  by_cases hs : s = "endfor".toList
  · rw [if_pos hs] at h; cases h; exact hs
  rw [if_neg hs] at h; clear hs
  by_cases hs : s = "with".toList
  · rw [if_pos hs] at h; cases h; exact hs
  rw [if_neg hs] at h; clear hs
  by_cases hs : s = "as".toList
  · rw [if_pos hs] at h; cases h; exact hs
  rw [if_neg hs] at h; clear hs
  by_cases hs : s = "endwith".toList
  · rw [if_pos hs] at h; cases h; exact hs
  rw [if_neg hs] at h; clear hs
  by_cases hs : s = "include".toList
  · rw [if_pos hs] at h; cases h; exact hs
  rw [if_neg hs] at h; clear hs
  by_cases hs : s = "true".toList
  · rw [if_pos hs] at h; cases h; exact hs
  rw [if_neg hs] at h; clear hs
  by_cases hs : s = "false".toList
  · rw [if_pos hs] at h; cases h; exact hs
  rw [if_neg hs] at h; clear hs
  cases h

/-- The expression can end here. -/
def Done : Pos → Bool
  | .path => true | .lit => true | .name => true | _ => false

theorem run_path {ws : List Item} {ms : List ValueMember} (h : WPath env ws ms) (args : Bool) (f : After) (st : List Blk) :
    run env (.expr .path args f, st) ws = some (.expr .path args f, st) := by
  induction h with
  | nil => rfl
  | key ho _ ih => rcases ho with ⟨_, rfl⟩ | ⟨_, rfl⟩ <;> simpa [run_cons, step, exprStep] using ih
  | index ho hd _ ih => rcases ho with ⟨_, rfl⟩ | ⟨_, rfl⟩ <;> simpa [run_cons, step, exprStep, hd] using ih

theorem run_base {ws : List Item} {b : Plain.Base} (h : WBase env ws b) (args : Bool) (f : After) (st : List Blk) :
    ∃ p, (p = .path ∨ p = .lit) ∧ run env (.expr .base args f, st) ws = some (.expr p args f, st) := by
  cases h with
  | true_ => exact ⟨.lit, Or.inr rfl, by simp [run_cons, step, exprStep]⟩
  | false_ => exact ⟨.lit, Or.inr rfl, by simp [run_cons, step, exprStep]⟩
  | number h => exact ⟨.lit, Or.inr rfl, by simp [run_cons, step, exprStep, show ∃ v, NumLit env _ _ v from ⟨_, h⟩]⟩
  | plus h => exact ⟨.lit, Or.inr rfl, by simp [run_cons, step, exprStep, show ∃ v, NumLit env _ _ v from ⟨_, h⟩]⟩
  | minus h => exact ⟨.lit, Or.inr rfl, by simp [run_cons, step, exprStep, show ∃ v, NumLit env _ _ v from ⟨_, h⟩]⟩
  | string h => exact ⟨.lit, Or.inr rfl, by simp [run_cons, step, exprStep, show ∃ v, StrLit _ v from ⟨_, h⟩]⟩
  | var h => exact ⟨.path, Or.inl rfl, by rw [run_cons]; exact run_path h args f st⟩

theorem run_args {ws : List Item} {bs : List Plain.Base} (h : WArgs env ws bs) (f : After) (st : List Blk) :
    ∃ p, (p = .path ∨ p = .lit) ∧ run env (.expr .base true f, st) ws = some (.expr p true f, st) := by
  induction h with
  | one h => exact run_base h true f st
  | more h _ ih =>
    obtain ⟨p, hp, h1⟩ := run_base h true f st
    obtain ⟨p', hp', h2⟩ := ih
    refine ⟨p', hp', ?_⟩
    rw [run_append_of h1, run_cons_of (q' := (.expr .base true f, st)), h2]
    rcases hp with rfl | rfl <;> rfl

theorem step_pipe {p : Pos} (hp : Done p = true) (args : Bool) (f : After) (st : List Blk) :
    step env (.expr p args f, st) (.sign .pipe) = some (.expr .pipe false f, st) := by
  cases p <;> first | rfl | cases hp

theorem run_calls {e e' : Plain.Expr} {ws : List Item} (h : WCalls env e ws e') (f : After) (st : List Blk) :
    ∀ p args, Done p = true → ∃ p' args', Done p' = true ∧ run env (.expr p args f, st) ws = some (.expr p' args' f, st) := by
  induction h with
  | nil => intro p args hp; exact ⟨p, args, hp, rfl⟩
  | call _ ih =>
    intro p args hp
    obtain ⟨p', args', h1, h2⟩ := ih .name false rfl
    exact ⟨p', args', h1, by rw [run_cons_of (step_pipe hp args f st)]; exact h2⟩
  | callArgs ha _ ih =>
    intro p args hp
    obtain ⟨p1, hp1, h1⟩ := run_args ha f st
    obtain ⟨p', args', h2, h3⟩ := ih p1 true (by rcases hp1 with rfl | rfl <;> rfl)
    refine ⟨p', args', h2, ?_⟩
    rw [run_cons_of (step_pipe hp args f st)]
    rw [run_cons_of (q' := (.expr .name false f, st)) rfl, run_cons_of (q' := (.expr .base true f, st)) rfl,
      run_append_of h1, h3]

theorem run_expr {ws : List Item} {e : Plain.Expr} (h : WExpr env ws e) (f : After) (st : List Blk) :
    ∃ p args, Done p = true ∧ run env (.expr .base false f, st) ws = some (.expr p args f, st) := by
  obtain ⟨us, b, vs, rfl, hb, hc⟩ := h
  obtain ⟨p, hp, h1⟩ := run_base hb false f st
  obtain ⟨p', args', h2, h3⟩ := run_calls hc f st p false (by rcases hp with rfl | rfl <;> rfl)
  exact ⟨p', args', h2, by rw [run_append_of h1, h3]⟩

theorem step_end {p : Pos} (hp : Done p = true) (args : Bool) (f : After) (st : List Blk) {i : Item}
    (hi : i = .sign .endExpr ∨ i = .sign .endBlock ∨ ∃ s, i = .word .keyword s) :
    step env (.expr p args f, st) i = afterStep f st i := by
  cases p <;> first | (cases hp; done) | (rcases hi with rfl | rfl | ⟨s, rfl⟩ <;> rfl)

/-- An expression and what ends it. -/
theorem run_expr_end {ws : List Item} {e : Plain.Expr} (h : WExpr env ws e) (f : After) (st : List Blk) {i : Item}
    (hi : i = .sign .endExpr ∨ i = .sign .endBlock ∨ ∃ s, i = .word .keyword s) (rest : List Item) :
    run env (.expr .base false f, st) (ws ++ i :: rest) = (afterStep f st i).bind fun q => run env q rest := by
  obtain ⟨p, args, h1, h2⟩ := run_expr h f st
  rw [run_append_of h2, run_cons, step_end h1 _ _ _ hi]

theorem step_cond {a : Act} {st : List Blk} {i : Item} (h : i ≠ .word .keyword "not".toList) :
    step env (.cond a, st) i = step env (.expr .base false (.act a), st) i := by
  cases i with
  | char => rfl
  | sign => rfl
  | word t s =>
    cases t <;> try rfl
    have : s ≠ "not".toList := fun e => h (by rw [e])
    simp only [step, if_neg this]

theorem base_head {ws : List Item} {b : Plain.Base} (h : WBase env ws b) : ∃ i r, ws = i :: r ∧ i ≠ .word .keyword "not".toList := by
  cases h with
  | true_ => exact ⟨_, _, rfl, by decide⟩
  | false_ => exact ⟨_, _, rfl, by decide⟩
  | number => exact ⟨_, _, rfl, by simp⟩
  | plus => exact ⟨_, _, rfl, by simp⟩
  | minus => exact ⟨_, _, rfl, by simp⟩
  | string => exact ⟨_, _, rfl, by simp⟩
  | var => exact ⟨_, _, rfl, by simp⟩

theorem run_cond {ws : List Item} {n : Bool} {e : Plain.Expr} (h : WCond env ws n e) (a : Act) (st : List Blk) (rest : List Item) :
    run env (.cond a, st) (ws ++ .sign .endBlock :: rest) = (a.on st).bind fun st' => run env (.text, st') rest := by
  have key : ∀ {ws e}, WExpr env ws e → run env (.expr .base false (.act a), st) (ws ++ .sign .endBlock :: rest) =
      (a.on st).bind fun st' => run env (.text, st') rest := by
    intro ws e h
    rw [run_expr_end h _ _ (Or.inr (Or.inl rfl))]
    simp only [afterStep]
    cases a.on st <;> rfl
  cases h with
  | plain h =>
    rw [← key h]
    obtain ⟨us, b, vs, rfl, hb, hc⟩ := h
    obtain ⟨i, r, rfl, hi⟩ := base_head hb
    simp only [List.cons_append]
    rw [run_cons, run_cons, step_cond hi]
  | not h =>
    rw [← key h]
    rw [List.cons_append, run_cons]; simp [step]

/-- A whole block tag and what it does. -/
inductive TagOf (env : Env) : Act → List Item → Prop
  | if_ {is n e} : WCond env is n e → TagOf env (.push .ifOpen) (tag "if" is)
  | else_ : TagOf env .else_ (tag "else" [])
  | elseIf {is n e} : WCond env is n e → TagOf env .elseIf (tag "else" (.word .keyword "if".toList :: is))
  | endif : TagOf env .endif (tag "endif" [])
  | for_ {vs v is e} : WVars vs v → WExpr env is e → TagOf env (.push .for_) (tag "for" (vs ++ .word .keyword "in".toList :: is))
  | endfor : TagOf env .endfor (tag "endfor" [])
  | with_ {is e s} : WExpr env is e → TagOf env (.push .with_) (tag "with" (is ++ [.word .keyword "as".toList, .word .ident s]))
  | endwith : TagOf env .endwith (tag "endwith" [])
  | include_ {raw name} : StrLit raw name → TagOf env .skip (tag "include" [.word .string raw])
  | includeWith {raw name is e} : StrLit raw name → WExpr env is e →
      TagOf env .skip (tag "include" (.word .string raw :: .word .keyword "with".toList :: is))

theorem run_kw (st : List Blk) (kw : Keyword) (rest : List Item) :
    run env (.text, st) (.sign .beginBlock :: .word .keyword kw.human.toList :: rest) =
      (kwStep st kw).bind fun q => run env q rest := by
  rw [run_cons_of (q' := (.block0, st)) rfl, run_cons]
  simp only [step, Parser.fromStr_human, Option.bind_some]

theorem run_tag {a : Act} {T : List Item} (h : TagOf env a T) (st : List Blk) (rest : List Item) :
    run env (.text, st) (T ++ rest) = (a.on st).bind fun st' => run env (.text, st') rest := by
  have fin : ∀ (a : Act) st i, i = Item.sign .endBlock → ((afterStep (.act a) st i).bind fun q => run env q rest) =
      (a.on st).bind fun st' => run env (.text, st') rest := by
    rintro a st i rfl; simp only [afterStep]; cases a.on st <;> rfl
  have tg : ∀ (a : Act) st, run env (.tagEnd a, st) (.sign .endBlock :: rest) = (a.on st).bind fun st' => run env (.text, st') rest := by
    intro a st; rw [run_cons, ← fin a st _ rfl]; rfl
  cases h with
  | if_ h =>
    simp only [tag, List.cons_append, List.append_assoc, List.nil_append]
    rw [show "if".toList = Keyword.if_.human.toList from rfl, run_kw]
    exact run_cond h _ _ _
  | else_ =>
    simp only [tag, List.cons_append, List.append_assoc, List.nil_append]
    rw [show "else".toList = Keyword.else_.human.toList from rfl, run_kw, ← fin .else_ st _ rfl]; rfl
  | elseIf h =>
    simp only [tag, List.cons_append, List.append_assoc, List.nil_append]
    rw [show "else".toList = Keyword.else_.human.toList from rfl, run_kw]
    simp only [kwStep, Option.bind_some]
    rw [run_cons_of (q' := (.cond .elseIf, st)) (by simp [step])]
    exact run_cond h _ _ _
  | endif =>
    simp only [tag, List.cons_append, List.append_assoc, List.nil_append]
    rw [show "endif".toList = Keyword.endif.human.toList from rfl, run_kw]
    exact tg _ _
  | @for_ vs v is e hv he =>
    simp only [tag, List.cons_append, List.append_assoc, List.nil_append]
    rw [show "for".toList = Keyword.for_.human.toList from rfl, run_kw]
    simp only [kwStep, Option.bind_some]
    have key : ∀ q : State, step env q (.word .keyword "in".toList) = some (.expr .base false (.act (.push .for_)), st) →
        run env q (.word .keyword "in".toList :: (is ++ .sign .endBlock :: rest)) = ((Act.push .for_).on st).bind fun st' => run env (.text, st') rest := by
      intro q hq
      rw [run_cons_of hq, run_expr_end he _ _ (Or.inr (Or.inl rfl)), fin _ _ _ rfl]
    cases hv with
    | item => rw [List.cons_append, run_cons_of (q' := (.for1, st)) rfl]; exact key _ (by simp [step])
    | keyValue =>
      simp only [List.cons_append, List.nil_append]
      rw [run_cons_of (q' := (.for1, st)) rfl, run_cons_of (q' := (.for2, st)) rfl, run_cons_of (q' := (.for3, st)) rfl]
      exact key _ (by simp [step])
  | endfor =>
    simp only [tag, List.cons_append, List.append_assoc, List.nil_append]
    rw [show "endfor".toList = Keyword.endfor.human.toList from rfl, run_kw]
    exact tg _ _
  | with_ he =>
    simp only [tag, List.cons_append, List.append_assoc, List.nil_append]
    rw [show "with".toList = Keyword.with_.human.toList from rfl, run_kw]
    simp only [kwStep, Option.bind_some]
    rw [run_expr_end he _ _ (Or.inr (Or.inr ⟨_, rfl⟩))]
    simp only [afterStep, if_true, Option.bind_some]
    rw [run_cons_of (q' := (.tagEnd (.push .with_), st)) rfl]
    exact tg _ _
  | endwith =>
    simp only [tag, List.cons_append, List.append_assoc, List.nil_append]
    rw [show "endwith".toList = Keyword.endwith.human.toList from rfl, run_kw]
    exact tg _ _
  | include_ h =>
    simp only [tag, List.cons_append, List.append_assoc, List.nil_append]
    rw [show "include".toList = Keyword.include_.human.toList from rfl, run_kw]
    simp only [kwStep, Option.bind_some]
    rw [run_cons_of (q' := (.include1, st)) (by simp [step, show ∃ v, StrLit _ v from ⟨_, h⟩]), ← fin .skip st _ rfl]
    rfl
  | includeWith h he =>
    simp only [tag, List.cons_append, List.append_assoc, List.nil_append]
    rw [show "include".toList = Keyword.include_.human.toList from rfl, run_kw]
    simp only [kwStep, Option.bind_some]
    rw [run_cons_of (q' := (.include1, st)) (by simp [step, show ∃ v, StrLit _ v from ⟨_, h⟩]),
      run_cons_of (q' := (.expr .base false (.act .skip), st)) (by simp [step]),
      run_expr_end he _ _ (Or.inr (Or.inl rfl)), fin _ _ _ rfl]

mutual
theorem run_stmts {ws : List Item} {ss : List Plain.Stmt} (h : WStmts env ws ss) (st : List Blk) (rest : List Item) :
    run env (.text, st) (ws ++ rest) = run env (.text, st) rest := by
  match h with
  | .nil => rfl
  | .char h => rw [List.cons_append, run_cons_of (q' := (.text, st)) rfl]; exact run_stmts h st rest
  | .expr h1 h2 =>
    simp only [List.cons_append, List.append_assoc]
    rw [run_cons_of (q' := (.expr .base false .endExpr, st)) rfl, run_expr_end h1 _ _ (Or.inl rfl)]
    exact run_stmts h2 st rest
  | .include_ h1 h2 =>
    rw [List.append_assoc, run_tag (.include_ h1)]
    exact run_stmts h2 st rest
  | .includeWith h1 h2 h3 =>
    rw [List.append_assoc, run_tag (.includeWith h1 h2)]
    exact run_stmts h3 st rest
  | .for_ h1 h2 h3 h4 =>
    simp only [List.append_assoc]
    rw [run_tag (.for_ h1 h2)]
    simp only [Act.on, Option.bind_some]
    rw [run_stmts h3, run_tag .endfor]
    exact run_stmts h4 st rest
  | .with_ h1 h2 h3 =>
    simp only [List.append_assoc]
    rw [run_tag (.with_ h1)]
    simp only [Act.on, Option.bind_some]
    rw [run_stmts h2, run_tag .endwith]
    exact run_stmts h3 st rest
  | .if_ h1 h2 h3 h4 =>
    simp only [List.append_assoc]
    rw [run_tag (.if_ h1)]
    simp only [Act.on, Option.bind_some]
    rw [run_stmts h2, run_else h3]
    exact run_stmts h4 st rest
theorem run_else {ws : List Item} {els : Option (List Plain.Stmt)} (h : WElse env ws els) (st : List Blk) (rest : List Item) :
    run env (.text, .ifOpen :: st) (ws ++ rest) = run env (.text, st) rest := by
  match h with
  | .endif => rw [run_tag .endif]; rfl
  | .else_ h =>
    simp only [List.append_assoc]
    rw [run_tag .else_]
    simp only [Act.on, Option.bind_some]
    rw [run_stmts h, run_tag .endif]; rfl
  | .elseIf h1 h2 h3 =>
    simp only [List.append_assoc]
    rw [run_tag (.elseIf h1)]
    simp only [Act.on, Option.bind_some]
    rw [run_stmts h2, run_else h3]
end

theorem run_accepts {ws : List Item} {ss : List Plain.Stmt} (h : WStmts env ws ss) (st : List Blk) :
    run env (.text, st) ws = some (.text, st) := by
  have := run_stmts h st []
  simpa using this

end Machine
end Upon
