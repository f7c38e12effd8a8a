import Verif.Proofs.Machine
/-
Whatever the machine has read can be completed, unless it is reading a closing tag out of place (for C51).
-/
namespace Upon
open Spec
namespace Machine
open Plain (WStmts WElse WExpr WBase WPath WArgs WCalls WCond WVars tag wappend)

variable {env : Env}

/-! What completes a template, by state -/

/-- Completes a template in which these blocks are open. -/
def Rest (env : Env) : List Blk → List Item → Prop
  | [], ws => ∃ ss, WStmts env ws ss
  | .for_ :: st, ws => ∃ body b r, WStmts env body b ∧ Rest env st r ∧ ws = body ++ (tag "endfor" [] ++ r)
  | .with_ :: st, ws => ∃ body b r, WStmts env body b ∧ Rest env st r ∧ ws = body ++ (tag "endwith" [] ++ r)
  | .ifElse :: st, ws => ∃ body b r, WStmts env body b ∧ Rest env st r ∧ ws = body ++ (tag "endif" [] ++ r)
  | .ifOpen :: st, ws => ∃ body b tl els r, WStmts env body b ∧ WElse env tl els ∧ Rest env st r ∧ ws = body ++ (tl ++ r)

theorem Rest.exists (st : List Blk) : ∃ ws, Rest env st ws := by
  induction st with
  | nil => exact ⟨[], [], .nil⟩
  | cons b st ih =>
    obtain ⟨r, hr⟩ := ih
    cases b with
    | ifOpen => exact ⟨_, [], [], _, _, r, .nil, .endif, hr, rfl⟩
    | ifElse => exact ⟨_, [], [], r, .nil, hr, rfl⟩
    | for_ => exact ⟨_, [], [], r, .nil, hr, rfl⟩
    | with_ => exact ⟨_, [], [], r, .nil, hr, rfl⟩

theorem Rest.prepend {st : List Blk} {ws us : List Item} {ss : List Plain.Stmt} (hu : WStmts env us ss) (h : Rest env st ws) :
    Rest env st (us ++ ws) := by
  cases st with
  | nil => obtain ⟨ss', h⟩ := h; exact ⟨_, wappend hu h⟩
  | cons b st =>
    cases b with
    | ifOpen =>
      obtain ⟨body, b, tl, els, r, h1, h2, h3, rfl⟩ := h
      exact ⟨us ++ body, _, tl, els, r, wappend hu h1, h2, h3, by simp⟩
    | ifElse => obtain ⟨body, b, r, h1, h3, rfl⟩ := h; exact ⟨us ++ body, _, r, wappend hu h1, h3, by simp⟩
    | for_ => obtain ⟨body, b, r, h1, h3, rfl⟩ := h; exact ⟨us ++ body, _, r, wappend hu h1, h3, by simp⟩
    | with_ => obtain ⟨body, b, r, h1, h3, rfl⟩ := h; exact ⟨us ++ body, _, r, wappend hu h1, h3, by simp⟩

theorem Rest.tag {st st' : List Blk} {a : Act} {T ws : List Item} (ht : TagOf env a T) (ha : a.on st = some st')
    (h : Rest env st' ws) : Rest env st (T ++ ws) := by
  cases ht with
  | if_ hc =>
    cases ha
    obtain ⟨body, b, tl, els, r, h1, h2, h3, rfl⟩ := h
    have := h3.prepend (.if_ hc h1 h2 .nil)
    simpa using this
  | else_ =>
    cases st with
    | nil => cases ha
    | cons b st =>
      cases b <;> cases ha
      obtain ⟨body, b, r, h1, h2, rfl⟩ := h
      exact ⟨[], [], _, _, r, .nil, .else_ h1, h2, by simp⟩
  | elseIf hc =>
    cases st with
    | nil => cases ha
    | cons b st =>
      cases b <;> cases ha
      obtain ⟨body, b, tl, els, r, h1, h2, h3, rfl⟩ := h
      exact ⟨[], [], _, _, r, .nil, .elseIf hc h1 h2, h3, by simp⟩
  | endif =>
    cases st with
    | nil => cases ha
    | cons b st =>
      cases b <;> cases ha
      · exact ⟨[], [], _, _, ws, .nil, .endif, h, rfl⟩
      · exact ⟨[], [], ws, .nil, h, rfl⟩
  | for_ hv he =>
    cases ha
    obtain ⟨body, b, r, h1, h2, rfl⟩ := h
    have := h2.prepend (.for_ hv he h1 .nil)
    simpa using this
  | endfor =>
    cases st with
    | nil => cases ha
    | cons b st =>
      cases b <;> cases ha
      exact ⟨[], [], ws, .nil, h, rfl⟩
  | @with_ is e s he =>
    cases ha
    obtain ⟨body, b, r, h1, h2, rfl⟩ := h
    have := h2.prepend (.with_ (s := s) he h1 .nil)
    simpa using this
  | endwith =>
    cases st with
    | nil => cases ha
    | cons b st =>
      cases b <;> cases ha
      exact ⟨[], [], ws, .nil, h, rfl⟩
  | include_ hs => cases ha; have := h.prepend (.include_ hs .nil); simpa using this
  | includeWith hs he => cases ha; have := h.prepend (.includeWith hs he .nil); simpa using this

/-- What may come after an expression. -/
def RestAfter (env : Env) (f : After) (st : List Blk) (ws : List Item) : Prop :=
  match f with
  | .endExpr => ∃ r, ws = .sign .endExpr :: r ∧ Rest env st r
  | .act a => ∃ r st', ws = .sign .endBlock :: r ∧ a.on st = some st' ∧ Rest env st' r
  | .as_ => ∃ s r, ws = .word .keyword "as".toList :: .word .ident s :: .sign .endBlock :: r ∧ Rest env (.with_ :: st) r

/-- Calls, whatever they are applied to. -/
def Calls (env : Env) (ws : List Item) : Prop := ∀ e, ∃ e', WCalls env e ws e'

/-- More arguments. -/
def More (env : Env) (args : Bool) (ws : List Item) : Prop :=
  ws = [] ∨ args = true ∧ ∃ us bs, ws = .sign .comma :: us ∧ WArgs env us bs

/-- What may come after a base expression. -/
def RestCalls (env : Env) (args : Bool) (f : After) (st : List Blk) (ws : List Item) : Prop :=
  ∃ m c r, ws = m ++ (c ++ r) ∧ More env args m ∧ Calls env c ∧ RestAfter env f st r

def RestPath (env : Env) (args : Bool) (f : After) (st : List Blk) (ws : List Item) : Prop :=
  ∃ p ms r, ws = p ++ r ∧ WPath env p ms ∧ RestCalls env args f st r

def RestBase (env : Env) (args : Bool) (f : After) (st : List Blk) (ws : List Item) : Prop :=
  ∃ b x r, ws = b ++ r ∧ WBase env b x ∧ RestCalls env args f st r

def RestName (env : Env) (f : After) (st : List Blk) (ws : List Item) : Prop :=
  RestCalls env false f st ws ∨ ∃ r, ws = .sign .colon :: r ∧ RestBase env true f st r

def RestExpr (env : Env) (p : Pos) (args : Bool) (f : After) (st : List Blk) (ws : List Item) : Prop :=
  match p with
  | .base => RestBase env args f st ws
  | .sign neg => ∃ s v r, ws = .word .number s :: r ∧ NumLit env s neg v ∧ RestCalls env args f st r
  | .path => RestPath env args f st ws
  | .access => (∃ s r, ws = .word .ident s :: r ∧ RestPath env args f st r) ∨
      ∃ s r, ws = .word .index s :: r ∧ decimal s < 2 ^ env.usizeBits ∧ RestPath env args f st r
  | .lit => RestCalls env args f st ws
  | .pipe => ∃ s r, ws = .word .ident s :: r ∧ RestName env f st r
  | .name => RestName env f st ws

def RestIn (env : Env) (st : List Blk) (ws : List Item) : Prop :=
  ∃ r, ws = .word .keyword "in".toList :: r ∧ RestBase env false (.act (.push .for_)) st r

def RestOf (env : Env) (q : State) (ws : List Item) : Prop :=
  match q.1 with
  | .text => Rest env q.2 ws
  | .block0 => Rest env q.2 (.sign .beginBlock :: ws)
  | .else_ => Rest env q.2 (.sign .beginBlock :: .word .keyword "else".toList :: ws)
  | .for0 => ∃ vs v r, ws = vs ++ r ∧ WVars vs v ∧ RestIn env q.2 r
  | .for1 => RestIn env q.2 ws ∨ ∃ s r, ws = .sign .comma :: .word .ident s :: r ∧ RestIn env q.2 r
  | .for2 => ∃ s r, ws = .word .ident s :: r ∧ RestIn env q.2 r
  | .for3 => RestIn env q.2 ws
  | .include0 => ∃ s v r, ws = .word .string s :: r ∧ StrLit s v ∧
      (RestAfter env (.act .skip) q.2 r ∨ ∃ r', r = .word .keyword "with".toList :: r' ∧ RestBase env false (.act .skip) q.2 r')
  | .include1 => RestAfter env (.act .skip) q.2 ws ∨
      ∃ r', ws = .word .keyword "with".toList :: r' ∧ RestBase env false (.act .skip) q.2 r'
  | .withName => ∃ s r, ws = .word .ident s :: r ∧ RestAfter env (.act (.push .with_)) q.2 r
  | .tagEnd a => RestAfter env (.act a) q.2 ws
  | .cond a => ∃ is n e r, ws = is ++ r ∧ WCond env is n e ∧ RestAfter env (.act a) q.2 r
  | .expr p args f => RestExpr env p args f q.2 ws

/-! One step -/

theorem after_step {f : After} {st : List Blk} {i : Item} {q : State} (h : afterStep f st i = some q) {ws : List Item}
    (hr : RestOf env q ws) : RestAfter env f st (i :: ws) := by
  unfold afterStep at h
  split at h
  · cases h; exact ⟨ws, rfl, hr⟩
  · rename_i a
    cases ha : a.on st with
    | none => rw [ha] at h; cases h
    | some st' => rw [ha] at h; cases h; exact ⟨ws, st', rfl, ha, hr⟩
  · split at h
    · next s hs =>
      cases h
      obtain ⟨s', r, rfl, r', st', rfl, ha, hr⟩ := hr
      cases ha
      exact ⟨s', r', by rw [hs], hr⟩
    · cases h
  · cases h

theorem calls_nil : Calls env [] := fun e => ⟨e, .nil⟩

theorem RestCalls.of_after {args : Bool} {f : After} {st : List Blk} {ws : List Item} (h : RestAfter env f st ws) :
    RestCalls env args f st ws := ⟨[], [], ws, rfl, Or.inl rfl, calls_nil, h⟩

theorem RestCalls.comma {f : After} {st : List Blk} {ws : List Item} (h : RestBase env true f st ws) :
    RestCalls env true f st (.sign .comma :: ws) := by
  obtain ⟨b, x, r, rfl, hb, m, c, r', rfl, hm, hc, ha⟩ := h
  rcases hm with rfl | ⟨_, us, bs, rfl, hu⟩
  · exact ⟨.sign .comma :: b, c, r', by simp, Or.inr ⟨rfl, b, [x], rfl, .one hb⟩, hc, ha⟩
  · exact ⟨.sign .comma :: (b ++ .sign .comma :: us), c, r', by simp, Or.inr ⟨rfl, _, _, rfl, .more hb hu⟩, hc, ha⟩

theorem RestCalls.pipe {args : Bool} {f : After} {st : List Blk} {ws : List Item} {s : Str} (h : RestName env f st ws) :
    RestCalls env args f st (.sign .pipe :: .word .ident s :: ws) := by
  rcases h with ⟨m, c, r, rfl, hm, hc, ha⟩ | ⟨r, rfl, b, x, r', rfl, hb, m, c, r'', rfl, hm, hc, ha⟩
  · rcases hm with rfl | ⟨h, _⟩
    · refine ⟨[], .sign .pipe :: .word .ident s :: c, r, by simp, Or.inl rfl, ?_, ha⟩
      intro e
      obtain ⟨e', h⟩ := hc (.call s none e)
      exact ⟨e', .call h⟩
    · cases h
  · have : ∃ bs, WArgs env (b ++ m) bs := by
      rcases hm with rfl | ⟨_, us, bs, rfl, hu⟩
      · exact ⟨[x], by simpa using .one hb⟩
      · exact ⟨_, .more hb hu⟩
    obtain ⟨bs, hargs⟩ := this
    refine ⟨[], .sign .pipe :: .word .ident s :: .sign .colon :: ((b ++ m) ++ c), r'', by simp, Or.inl rfl, ?_, ha⟩
    intro e
    obtain ⟨e', h⟩ := hc (.call s (some bs) e)
    exact ⟨e', .callArgs hargs h⟩

theorem expr_step {p : Pos} {args : Bool} {f : After} {st : List Blk} {i : Item} {q : State}
    (h : exprStep env p args f st i = some q) {ws : List Item} (hr : RestOf env q ws) : RestExpr env p args f st (i :: ws) := by
  have pipe : ∀ args, RestOf env (.expr .pipe false f, st) ws → RestCalls env args f st (.sign .pipe :: ws) := by
    rintro args ⟨s, r, rfl, h⟩; exact RestCalls.pipe h
  have ret : ∀ args, afterStep f st i = some q → RestCalls env args f st (i :: ws) :=
    fun args h => RestCalls.of_after (after_step h hr)
  unfold exprStep at h
  cases p with
  | base =>
    dsimp only at h
    split at h
    · next s =>
      by_cases hs : s = "true".toList ∨ s = "false".toList
      · rw [if_pos hs] at h; cases h
        rcases hs with rfl | rfl
        · exact ⟨_, _, ws, rfl, .true_, hr⟩
        · exact ⟨_, _, ws, rfl, .false_, hr⟩
      · rw [if_neg hs] at h; cases h
    · next s =>
      by_cases hs : ∃ v, NumLit env s false v
      · rw [if_pos hs] at h; cases h; obtain ⟨v, hs⟩ := hs; exact ⟨_, _, ws, rfl, .number hs, hr⟩
      · rw [if_neg hs] at h; cases h
    · next s =>
      by_cases hs : ∃ v, StrLit s v
      · rw [if_pos hs] at h; cases h; obtain ⟨v, hs⟩ := hs; exact ⟨_, _, ws, rfl, .string hs, hr⟩
      · rw [if_neg hs] at h; cases h
    · next s => cases h; obtain ⟨p, ms, r, rfl, hp, hr⟩ := hr; exact ⟨.word .ident s :: p, _, r, rfl, .var hp, hr⟩
    · cases h; obtain ⟨s, v, r, rfl, hv, hr⟩ := hr; exact ⟨_, _, r, rfl, .plus hv, hr⟩
    · cases h; obtain ⟨s, v, r, rfl, hv, hr⟩ := hr; exact ⟨_, _, r, rfl, .minus hv, hr⟩
    · cases h
  | sign neg =>
    dsimp only at h
    split at h
    · next s =>
      by_cases hs : ∃ v, NumLit env s neg v
      · rw [if_pos hs] at h; cases h; obtain ⟨v, hs⟩ := hs; exact ⟨_, _, ws, rfl, hs, hr⟩
      · rw [if_neg hs] at h; cases h
    · cases h
  | access =>
    dsimp only at h
    split at h
    · cases h; exact Or.inl ⟨_, ws, rfl, hr⟩
    · next s =>
      by_cases hs : decimal s < 2 ^ env.usizeBits
      · rw [if_pos hs] at h; cases h; exact Or.inr ⟨s, ws, rfl, hs, hr⟩
      · rw [if_neg hs] at h; cases h
    · cases h
  | pipe =>
    dsimp only at h
    split at h
    · cases h; exact ⟨_, ws, rfl, hr⟩
    · cases h
  | path =>
    have dot : ∀ (tk : Token) (op : AccessOp), (op = .direct ∧ tk = .dot) ∨ (op = .optional ∧ tk = .questionDot) → RestOf env (.expr .access args f, st) ws →
        RestPath env args f st (.sign tk :: ws) := by
      intro tk op ho hr
      rcases hr with ⟨s, r, rfl, p, ms, r', rfl, hp, hr⟩ | ⟨s, r, rfl, hd, p, ms, r', rfl, hp, hr⟩
      · exact ⟨.sign tk :: .word .ident s :: p, _, r', rfl, .key ho hp, hr⟩
      · exact ⟨.sign tk :: .word .index s :: p, _, r', rfl, .index ho hd hp, hr⟩
    dsimp only at h
    split at h
    · cases h; exact dot _ .direct (Or.inl ⟨rfl, rfl⟩) hr
    · cases h; exact dot _ .optional (Or.inr ⟨rfl, rfl⟩) hr
    · split at h
      · next ha => cases h; subst ha; exact ⟨[], [], _, rfl, .nil, RestCalls.comma hr⟩
      · cases h
    · cases h; exact ⟨[], [], _, rfl, .nil, pipe _ hr⟩
    · exact ⟨[], [], _, rfl, .nil, ret _ h⟩
  | lit =>
    dsimp only at h
    split at h
    · split at h
      · next ha => cases h; subst ha; exact RestCalls.comma hr
      · cases h
    · cases h; exact pipe _ hr
    · exact ret _ h
  | name =>
    dsimp only at h
    split at h
    · cases h; exact Or.inr ⟨ws, rfl, hr⟩
    · cases h; exact Or.inl (pipe _ hr)
    · exact Or.inl (ret _ h)

/-- The tag of a block that ends here. -/
theorem tag_eq (w : String) (inner r : List Item) :
    .sign .beginBlock :: .word .keyword w.toList :: (inner ++ .sign .endBlock :: r) = tag w inner ++ r := by simp [tag]

theorem RestBase.expr {f : After} {st : List Blk} {ws : List Item} (h : RestBase env false f st ws) :
    ∃ is e r, ws = is ++ r ∧ WExpr env is e ∧ RestAfter env f st r := by
  obtain ⟨b, x, r, rfl, hb, m, c, r', rfl, hm, hc, ha⟩ := h
  rcases hm with rfl | ⟨h, _⟩
  · obtain ⟨e, he⟩ := hc (.base x)
    exact ⟨b ++ c, e, r', by simp, ⟨b, x, c, rfl, hb, he⟩, ha⟩
  · cases h

theorem rest_act {a : Act} {st : List Blk} {w : String} {inner r : List Item} (ht : TagOf env a (tag w inner))
    (h : RestAfter env (.act a) st r) : Rest env st (.sign .beginBlock :: .word .keyword w.toList :: (inner ++ r)) := by
  obtain ⟨r, st', rfl, ha, hr⟩ := h
  rw [tag_eq]
  exact Rest.tag ht ha hr

theorem kw_step {st : List Blk} {kw : Keyword} {q : State} (h : kwStep st kw = some q) {ws : List Item} (hr : RestOf env q ws) :
    Rest env st (.sign .beginBlock :: .word .keyword kw.human.toList :: ws) := by
  cases kw <;> first | (cases h; done) | skip
  · cases h
    obtain ⟨is, n, e, r, rfl, hc, hr⟩ := hr
    exact rest_act (.if_ hc) hr
  · cases h; exact hr
  · cases h; exact rest_act (inner := []) .endif hr
  · cases h
    obtain ⟨vs, v, r, rfl, hv, r', rfl, hb⟩ := hr
    obtain ⟨is, e, r'', rfl, he, hr⟩ := hb.expr
    have := rest_act (.for_ hv he) hr
    rw [show Keyword.for_.human.toList = "for".toList from rfl]
    simpa using this
  · cases h; exact rest_act (inner := []) .endfor hr
  · cases h
    obtain ⟨is, e, r, rfl, he, s, r', rfl, hr⟩ := RestBase.expr (env := env) (show RestBase env _ _ _ _ from hr)
    have := Rest.tag (.with_ (s := s) he) (st := st) rfl ‹Rest env _ r'›
    rw [show Keyword.with_.human.toList = "with".toList from rfl]
    simpa [tag] using this
  · cases h; exact rest_act (inner := []) .endwith hr
  · cases h
    obtain ⟨s, v, r, rfl, hs, hr⟩ := hr
    rcases hr with hr | ⟨r', rfl, hb⟩
    · exact rest_act (inner := [_]) (.include_ hs) hr
    · obtain ⟨is, e, r'', rfl, he, hr⟩ := hb.expr
      have := rest_act (.includeWith hs he) hr
      rw [show Keyword.include_.human.toList = "include".toList from rfl]
      simpa using this

theorem step_rest {q q' : State} {i : Item} (h : step env q i = some q') {ws : List Item} (hr : RestOf env q' ws) :
    RestOf env q (i :: ws) := by
  obtain ⟨c, st⟩ := q
  unfold step at h
  cases c with
  | text =>
    dsimp only at h
    split at h
    · cases h; exact Rest.prepend (us := [_]) (.char .nil) hr
    · cases h
      obtain ⟨is, e, r, rfl, he, r', rfl, hr⟩ := RestBase.expr (env := env) hr
      have := Rest.prepend (.expr he .nil) ‹Rest env _ r'›
      show Rest env st _
      simpa using this
    · cases h; exact hr
    · cases h
  | block0 =>
    dsimp only at h
    split at h
    · next s =>
      cases hk : Keyword.fromStr s with
      | none => rw [hk] at h; cases h
      | some kw => rw [hk] at h; rw [fromStr_some hk]; exact kw_step h hr
    · cases h
  | else_ =>
    dsimp only at h
    split at h
    · next s =>
      by_cases hs : s = "if".toList
      · rw [if_pos hs] at h; cases h
        obtain ⟨is, n, e, r, rfl, hc, hr⟩ := hr
        subst hs
        exact rest_act (.elseIf hc) hr
      · rw [if_neg hs] at h; cases h
    · exact rest_act (inner := []) .else_ (after_step h hr)
  | for0 =>
    dsimp only at h
    split at h
    · next s =>
      cases h
      rcases hr with hr | ⟨s', r, rfl, hr⟩
      · exact ⟨[.word .ident s], _, ws, rfl, .item, hr⟩
      · exact ⟨[.word .ident s, .sign .comma, .word .ident s'], _, r, rfl, .keyValue, hr⟩
    · cases h
  | for1 =>
    dsimp only at h
    split at h
    · cases h; obtain ⟨s, r, rfl, hr⟩ := hr; exact Or.inr ⟨s, r, rfl, hr⟩
    · next s =>
      by_cases hs : s = "in".toList
      · rw [if_pos hs] at h; cases h; subst hs; exact Or.inl ⟨ws, rfl, hr⟩
      · rw [if_neg hs] at h; cases h
    · cases h
  | for2 =>
    dsimp only at h
    split at h
    · cases h; exact ⟨_, ws, rfl, hr⟩
    · cases h
  | for3 =>
    dsimp only at h
    split at h
    · next s =>
      by_cases hs : s = "in".toList
      · rw [if_pos hs] at h; cases h; subst hs; exact ⟨ws, rfl, hr⟩
      · rw [if_neg hs] at h; cases h
    · cases h
  | include0 =>
    dsimp only at h
    split at h
    · next s =>
      by_cases hs : ∃ v, StrLit s v
      · rw [if_pos hs] at h; cases h; obtain ⟨v, hs⟩ := hs; exact ⟨s, v, ws, rfl, hs, hr⟩
      · rw [if_neg hs] at h; cases h
    · cases h
  | include1 =>
    dsimp only at h
    split at h
    · next s =>
      by_cases hs : s = "with".toList
      · rw [if_pos hs] at h; cases h; subst hs; exact Or.inr ⟨ws, rfl, hr⟩
      · rw [if_neg hs] at h; cases h
    · exact Or.inl (after_step h hr)
  | withName =>
    dsimp only at h
    split at h
    · cases h; exact ⟨_, ws, rfl, hr⟩
    · cases h
  | tagEnd a => exact after_step h hr
  | cond a =>
    have base : ∀ {i}, exprStep env .base false (.act a) st i = some q' → RestOf env (.cond a, st) (i :: ws) := by
      intro i h
      obtain ⟨is, e, r, he1, he, hr⟩ := RestBase.expr (expr_step h hr)
      exact ⟨is, false, e, r, he1, .plain he, hr⟩
    dsimp only at h
    split at h
    · next s =>
      by_cases hs : s = "not".toList
      · rw [if_pos hs] at h; cases h
        subst hs
        obtain ⟨is, e, r, rfl, he, hr⟩ := RestBase.expr (env := env) hr
        exact ⟨_, true, e, r, rfl, .not he, hr⟩
      · rw [if_neg hs] at h; exact base h
    · exact base h
  | expr p args f => exact expr_step h hr

theorem run_rest {q q' : State} {us : List Item} (h : run env q us = some q') {ws : List Item} (hr : RestOf env q' ws) :
    RestOf env q (us ++ ws) := by
  induction us generalizing q with
  | nil => cases h; exact hr
  | cons i us ih =>
    rw [run_cons] at h
    cases hs : step env q i with
    | none => rw [hs] at h; cases h
    | some q1 => rw [hs] at h; exact step_rest hs (ih h)

/-! Live states -/

/-- What the tag being read will do. -/
def doing : Ctl → Act
  | .else_ => .else_
  | .tagEnd a => a
  | .cond a => a
  | .expr _ _ (.act a) => a
  | _ => .skip

/-- The tag being read is in place. -/
def Live (q : State) : Prop := (doing q.1).on q.2 ≠ none

theorem live_after {f : After} {st : List Blk} (h : Live (.expr .base false f, st)) : ∃ ws, RestAfter env f st ws := by
  cases f with
  | endExpr => obtain ⟨r, hr⟩ := Rest.exists (env := env) st; exact ⟨_, r, rfl, hr⟩
  | act a =>
    cases ha : a.on st with
    | none => exact absurd ha h
    | some st' => obtain ⟨r, hr⟩ := Rest.exists (env := env) st'; exact ⟨_, r, st', rfl, ha, hr⟩
  | as_ => obtain ⟨r, hr⟩ := Rest.exists (env := env) (.with_ :: st); exact ⟨_, [], r, rfl, hr⟩

theorem live_base {f : After} {st : List Blk} {args : Bool} (h : Live (.expr .base false f, st)) :
    ∃ ws, RestBase env args f st ws := by
  obtain ⟨r, hr⟩ := live_after (env := env) h
  exact ⟨_, [.word .ident []], _, r, rfl, .var .nil, .of_after hr⟩

theorem live_in (st : List Blk) : ∃ ws, RestIn env st ws := by
  obtain ⟨r, hr⟩ := live_base (env := env) (f := .act (.push .for_)) (st := st) (args := false) (by simp [Live, doing, Act.on])
  exact ⟨_, r, rfl, hr⟩

theorem numLit_zero (neg : Bool) : ∃ v, NumLit env "0".toList neg v := by
  have h : IntLit "0".toList 0 :=
    .dec (by intro r e; cases e) (by intro r e; cases e) (by intro r e; cases e) (.digit (ds := []) (c := '0') (d := 0) .nil (by decide) (by decide))
  exact ⟨_, .int h (by cases neg <;> simp [signed, FitsI64])⟩

theorem strLit_empty : StrLit "\"\"".toList [] := ⟨[], rfl, .nil⟩

/-- In place, there is a way to go on to the end. -/
theorem Live.rest {q : State} (h : Live q) : ∃ ws, RestOf env q ws := by
  obtain ⟨c, st⟩ := q
  cases c with
  | text => exact Rest.exists st
  | block0 =>
    obtain ⟨r, hr⟩ := Rest.exists (env := env) st
    exact ⟨_, Rest.tag (ws := r) (.include_ strLit_empty) (st := st) rfl hr⟩
  | else_ =>
    obtain ⟨r, hr⟩ := live_after (env := env) (f := .act .else_) (st := st) h
    exact ⟨r, rest_act (inner := []) .else_ hr⟩
  | for0 => obtain ⟨r, hr⟩ := live_in (env := env) st; exact ⟨_, [.word .ident []], _, r, rfl, .item, hr⟩
  | for1 => obtain ⟨r, hr⟩ := live_in (env := env) st; exact ⟨r, Or.inl hr⟩
  | for2 => obtain ⟨r, hr⟩ := live_in (env := env) st; exact ⟨_, [], r, rfl, hr⟩
  | for3 => exact live_in st
  | include0 =>
    obtain ⟨r, hr⟩ := live_after (env := env) (f := .act .skip) (st := st) h
    exact ⟨_, _, _, r, rfl, strLit_empty, Or.inl hr⟩
  | include1 =>
    obtain ⟨r, hr⟩ := live_after (env := env) (f := .act .skip) (st := st) h
    exact ⟨_, Or.inl hr⟩
  | withName =>
    obtain ⟨r, hr⟩ := live_after (env := env) (f := .act (.push .with_)) (st := st) (by simp [Live, doing, Act.on])
    exact ⟨_, [], r, rfl, hr⟩
  | tagEnd a => exact live_after (f := .act a) (st := st) h
  | cond a =>
    obtain ⟨r, hr⟩ := live_base (env := env) (args := false) (f := .act a) (st := st) h
    obtain ⟨is, e, r, rfl, he, hr⟩ := hr.expr
    exact ⟨_, is, _, e, r, rfl, .plain he, hr⟩
  | expr p args f =>
    have h' : Live (.expr .base false f, st) := by cases f <;> exact h
    obtain ⟨r, hr⟩ := live_after (env := env) h'
    cases p with
    | base => exact live_base h'
    | sign neg => obtain ⟨v, hv⟩ := numLit_zero (env := env) neg; exact ⟨_, _, v, r, rfl, hv, .of_after hr⟩
    | path => exact ⟨r, [], [], r, rfl, .nil, .of_after hr⟩
    | access => exact ⟨_, Or.inl ⟨[], r, rfl, [], [], r, rfl, .nil, .of_after hr⟩⟩
    | lit => exact ⟨r, .of_after hr⟩
    | pipe => exact ⟨_, [], r, rfl, Or.inl (.of_after hr)⟩
    | name => exact ⟨r, Or.inl (.of_after hr)⟩

theorem after_live {f : After} {st : List Blk} {i : Item} {q : State} (h : afterStep f st i = some q) :
    Live (.expr .base false f, st) := by
  unfold afterStep at h
  split at h
  · simp [Live, doing, Act.on]
  · rename_i a
    intro e
    have e : a.on st = none := e
    rw [e] at h; cases h
  · simp [Live, doing, Act.on]
  · cases h

/-- A tag out of place stays so. -/
theorem step_live {q q' : State} {i : Item} (h : step env q i = some q') (hl : Live q') : Live q := by
  obtain ⟨c, st⟩ := q
  have skip : (Act.skip).on st ≠ none := by simp [Act.on]
  have expr : ∀ p args f, exprStep env p args f st i = some q' → Live (.expr .base false f, st) := by
    intro p args f h
    have keep : ∀ p args, some ((Ctl.expr p args f, st) : State) = some q' → Live (.expr .base false f, st) := by
      intro p args e; cases e; cases f <;> exact hl
    unfold exprStep at h
    cases p <;> dsimp only at h <;> repeat' split at h
    all_goals first | exact keep _ _ h | exact after_live h | cases h
  unfold step at h
  cases c with
  | text => exact skip
  | block0 => exact skip
  | for0 => exact skip
  | for1 => exact skip
  | for2 => exact skip
  | for3 => exact skip
  | include0 => exact skip
  | include1 => exact skip
  | withName => exact skip
  | else_ =>
    dsimp only at h
    split at h
    · next s =>
      by_cases hs : s = "if".toList
      · rw [if_pos hs] at h; cases h
        intro e
        apply hl
        cases st with
        | nil => rfl
        | cons b st => cases b <;> first | rfl | cases e
      · rw [if_neg hs] at h; cases h
    · exact after_live h
  | tagEnd a => exact after_live h
  | cond a =>
    dsimp only at h
    split at h
    · next s =>
      by_cases hs : s = "not".toList
      · rw [if_pos hs] at h; cases h; exact hl
      · rw [if_neg hs] at h; exact expr _ _ _ h
    · exact expr _ _ _ h
  | expr p args f =>
    have := expr _ _ _ h
    cases f <;> exact this

theorem run_live {q q' : State} {ws : List Item} (h : run env q ws = some q') (hl : Live q') : Live q := by
  induction ws generalizing q with
  | nil => cases h; exact hl
  | cons i ws ih =>
    rw [run_cons] at h
    cases hs : step env q i with
    | none => rw [hs] at h; cases h
    | some q1 => rw [hs] at h; exact step_live hs (ih h)

/-- These words can be completed exactly if the machine can read them and is not in a tag out of place. -/
theorem viable_iff {ws : List Item} : (∃ more ss, WStmts env (ws ++ more) ss) ↔ ∃ q, run env (.text, []) ws = some q ∧ Live q := by
  constructor
  · rintro ⟨more, ss, h⟩
    have := run_accepts h []
    rw [run_append] at this
    cases hq : run env (.text, []) ws with
    | none => rw [hq] at this; cases this
    | some q => rw [hq] at this; exact ⟨q, rfl, run_live this (by simp [Live, doing, Act.on])⟩
  · rintro ⟨q, h, hl⟩
    obtain ⟨more, hm⟩ := hl.rest (env := env)
    obtain ⟨ss, hss⟩ := run_rest h hm
    exact ⟨more, ss, hss⟩

end Machine
end Upon
