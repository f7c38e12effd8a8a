import Verif.Proofs.OwnErr
import Verif.Props.Render
import Verif.Proofs.ParseErr
/-
C35: which template an error is about.
-/
namespace Upon
open Spec Compiler
variable {σ : Type} {cfg : RenderCfg σ} {k : Nat} {st : Stack} {name : Option Str} {src : Str}

theorem attach_name {env : Env} {e : Err} (h : AboutSource env src e) (name : Option Str) : (e.attachName name).name = name := by
  cases name with
  | none => exact h.unnamed
  | some s => simp [Err.attachName, Err.withTemplateName, h.unnamed]

theorem Spec.Raised.mono {e : Err} {w' : World σ} {ss ss' : List Stmt}
    (hm : ∀ n x, ContainsAny ss n x → ContainsAny ss' n x) (h : Raised cfg e w' k name src ss) :
    Raised cfg e w' k name src ss' := by
  cases h with
  | here h1 h2 h3 => exact .here h1 h2 h3
  | write h1 h2 => exact .write h1 h2
  | depth h1 h2 => exact .depth h1 h2
  | included h1 h2 h3 h4 h5 => exact .included (hm _ _ h1) h2 h3 h4 h5

theorem ofOption_ok {α : Type} {o : Option α} {a : α} (h : Res.ofOption o = .ok a) : o = some a := by
  cases o with
  | none => cases h
  | some b => cases h; rfl

theorem bind_ok' {α β : Type} {x : Res α} {f : α → Res β} {b : β} (h : (x >>= f) = .ok b) : ∃ a, x = .ok a ∧ f a = .ok b := by
  cases x with
  | ok a => exact ⟨a, rfl, h⟩
  | err e => cases h
  | crash => cases h

theorem errRender_ok {α : Type} {env : Env} {m : String} {sp : Span} {a : α} : errRender env m src sp ≠ .ok a := by
  intro h
  rw [errRender, throwAt] at h
  split at h <;> cases h

theorem raised_of {α : Type} {r : Res α} (ho : Own cfg.env src r) {K : α → RunRes σ} {e : Err} {w w' : World σ} {ss : List Stmt}
    (h : RunRes.err e w' = andThen name w r K) :
    Raised cfg e w' k name src ss ∨ ∃ a, r = .ok a ∧ RunRes.err e w' = K a := by
  cases r with
  | ok a => exact Or.inr ⟨a, rfl, h⟩
  | err e' =>
    cases h
    exact Or.inl (.here (ho e' rfl) rfl (attach_name (ho e' rfl) _))
  | crash => cases h

theorem raised_write {f : Formatter} {v : Value} {sp : Span} {e : Err} {w w' : World σ} {ss : List Stmt}
    (h : RunRes.err e w' = Spec.write cfg name f v src sp w) : Raised cfg e w' k name src ss := by
  rw [Spec.write] at h
  split at h
  · cases h
  · rcases raised_of (k := k) (ss := ss) (Own.throwAt .format _ sp) h with h | ⟨_, _, h⟩
    · exact h
    · cases h

theorem raised_emit (hl : Live cfg k st) {x : Expr} {sp : Span} {e : Err} {w w' : World σ}
    (h : Piece cfg k name src [.inlineExpr x sp] st w (.err e w')) : Raised cfg e w' k name src [.inlineExpr x sp] := by
  obtain ⟨tree, htr⟩ := trees_exist hl.compiled
  have htr := trees_of_parsed htr
  obtain ⟨ρ, hr⟩ := rel_exists hl.rounds
  have hx := fun e => valueOf_eq cfg src hr e
  rw [piece_iff htr hr hl.depth, evalStmts_one, evalStmt, emitExpr.eq_def] at h
  split at h
  · rw [← hx] at h
    rcases raised_of (own_valueOf _ _ _) h with h | ⟨v, _, h⟩
    · exact h
    rcases raised_of (Own.ofOption _) h with h | ⟨n, _, h⟩
    · exact h
    split at h
    · exact raised_write h
    · rw [← callFilter_eq cfg.env _ src hr] at h
      rcases raised_of (own_call _ _ _ _ _) h with h | ⟨v, _, h⟩
      · exact h
      · exact raised_write h
    · rcases raised_of (Own.err _ _) h with h | ⟨n, _, h⟩
      · exact h
      · cases h
  · rw [← hx] at h
    rcases raised_of (own_valueOf _ _ _) h with h | ⟨v, _, h⟩
    · exact h
    · exact raised_write h

theorem inTurn_err {round : Nat → World σ → RunRes σ → Prop} {n i : Nat} {w : World σ} {e : Err} {w' : World σ}
    (h : InTurn round n i w (.err e w')) : ∃ j w1, j < n ∧ round j w1 (.err e w') := by
  generalize hr : RunRes.err e w' = r at h
  induction h with
  | done => cases hr
  | next _ _ _ ih => exact ih hr
  | stop h1 h2 _ => subst hr; exact ⟨_, _, h1, h2⟩

theorem listRound_on {n : Str} {o : Bool} {l : List Value} {j : Nat} (h : j < l.length) :
    (listRound n o l j).indexAndRem ≠ none := by
  rw [listRound, List.getElem?_eq_getElem h]; intro h; cases h

theorem mapRound_on {kn vn : Str} {o : Bool} {l : List (Str × Value)} {j : Nat} (h : j < l.length) :
    (mapRound kn vn o l j).indexAndRem ≠ none := by
  rw [mapRound, List.getElem?_eq_getElem h]; intro h; cases h

section stmts
variable (hinc : ∀ n x st w e w', Live cfg k st → Piece cfg k name src [.include_ n x] st w (.err e w') →
  Raised cfg e w' k name src [.include_ n x])
include hinc

mutual
theorem raised_stmt (s : Stmt) {st : Stack} (hl : Live cfg k st) {w w' : World σ} {e : Err}
    (h : Piece cfg k name src [s] st w (.err e w')) : Raised cfg e w' k name src [s] := by
  match s with
  | .raw sp =>
    cases hs : sp.of src with
    | none =>
      obtain ⟨tree, ρ, _, _, _, hp⟩ := live_piece (src := src) (name := name) hl
      rw [hp, evalStmts_one, evalStmt, hs] at h
      cases h
    | some t =>
      rw [C16_raw hl hs] at h
      split at h
      · cases h
      · cases h
        exact .write rfl (by cases name <;> rfl)
  | .inlineExpr x sp => exact raised_emit hl h
  | .include_ n x => exact hinc n x st w e w' hl h
  | .ifElse neg cond thn none =>
    obtain ⟨tree, ρ, _, _, hx, hp⟩ := live_piece (src := src) (name := name) hl
    rw [hp, evalStmts_one, evalStmt.eq_def] at h
    dsimp only at h
    rw [← hx] at h
    rcases raised_of (own_valueOf _ _ _) h with h | ⟨v, _, h⟩
    · exact h
    split at h
    · exact (raised_stmts thn hl ((hp _ _ _).mpr h)).mono fun n x h => .head (.thn h)
    · cases h
  | .ifElse neg cond thn (some els) =>
    obtain ⟨tree, ρ, _, _, hx, hp⟩ := live_piece (src := src) (name := name) hl
    rw [hp, evalStmts_one, evalStmt.eq_def] at h
    dsimp only at h
    rw [← hx] at h
    rcases raised_of (own_valueOf _ _ _) h with h | ⟨v, _, h⟩
    · exact h
    split at h
    · exact (raised_stmts thn hl ((hp _ _ _).mpr h)).mono fun n x h => .head (.thn h)
    · exact (raised_stmts els hl ((hp _ _ _).mpr h)).mono fun n x h => .head (.els h)
  | .with_ x n body =>
    have h0 := h
    obtain ⟨tree, ρ, _, _, hx, hp⟩ := live_piece (src := src) (name := name) hl
    rw [hp, evalStmts_one, evalStmt.eq_def] at h
    dsimp only at h
    rw [← hx] at h
    rcases raised_of (own_valueOf _ _ _) h with h | ⟨v, hv, h⟩
    · exact h
    exact (raised_stmts body (hl.var n v) ((C20_with hl hv n body w _).mp h0)).mono fun n x h => .head (.with_ h)
  | .forLoop vars x body =>
    have h0 := h
    obtain ⟨tree, ρ, _, _, hx, hp⟩ := live_piece (src := src) (name := name) hl
    rw [hp, evalStmts_one, evalStmt.eq_def] at h
    dsimp only at h
    rw [← hx] at h
    rcases raised_of (own_valueOf _ _ _) h with h | ⟨v, hv, h⟩
    · exact h
    have ho : Own cfg.env src (rounds cfg.env src vars v x.span) := by
      rw [rounds.eq_def]; simp only [← errRender_eq]; own
    rcases raised_of ho h with h | ⟨bs, hbs, _⟩
    · exact h
    rw [rounds.eq_def] at hbs
    split at hbs
    · next l i hvl _ =>
      obtain ⟨n, hn, _⟩ := bind_ok' hbs
      have hn : i.span.of src = some n := ofOption_ok hn
      obtain ⟨j, w1, hj, hr⟩ := inTurn_err ((C18_list hl hv hvl hn body w _).mp h0)
      exact (raised_stmts body (hl.round (listRound_on hj)) hr).mono fun n x h => .head (.for_ h)
    · exact absurd hbs errRender_ok
    · next m ki vi sp hvl _ =>
      obtain ⟨kn, hk, hbs⟩ := bind_ok' hbs
      obtain ⟨vn, hn, _⟩ := bind_ok' hbs
      have hk : ki.span.of src = some kn := ofOption_ok hk
      have hn : vi.span.of src = some vn := ofOption_ok hn
      obtain ⟨j, w1, hj, hr⟩ := inTurn_err ((C18_map hl hv hvl hk hn sp body w _).mp h0)
      exact (raised_stmts body (hl.round (mapRound_on hj)) hr).mono fun n x h => .head (.for_ h)
    · exact absurd hbs errRender_ok
    · exact absurd hbs errRender_ok
theorem raised_stmts (ss : List Stmt) {st : Stack} (hl : Live cfg k st) {w w' : World σ} {e : Err}
    (h : Piece cfg k name src ss st w (.err e w')) : Raised cfg e w' k name src ss := by
  match ss with
  | [] => rw [C20_nil hl] at h; cases h
  | s :: ss =>
    rcases (C20_restored hl [s] ss w _).mp h with ⟨w1, _, h⟩ | ⟨h, _⟩
    · exact (raised_stmts ss hl h).mono fun n x h => .tail h
    · refine (raised_stmt s hl h).mono fun n x h => ?_
      cases h with
      | head h => exact .head h
      | tail h => cases h
end
end stmts

theorem raised_include (hinc : ∀ (name : Option Str) (src : Str) ss st w e w', Live cfg (k + 1) st →
      Piece cfg (k + 1) name src ss st w (.err e w') → Raised cfg e w' (k + 1) name src ss)
    (n : AstString) (x : Option Expr) (hl : Live cfg k st) {w w' : World σ} {e : Err}
    (h : Piece cfg k name src [.include_ n x] st w (.err e w')) : Raised cfg e w' k name src [.include_ n x] := by
  -- the value first
  have main : ∀ st', Live cfg k st' → (∀ w1 t T, getTemplate cfg src n w = (w1, .ok t) → Parsed cfg.env t T →
        k + 2 ≤ cfg.maxIncludeDepth → Piece cfg (k + 1) (some n.name) T.source T.body st' w1 (.err e w')) →
      (∀ w1 t, getTemplate cfg src n w = (w1, .ok t) → ¬ k + 2 ≤ cfg.maxIncludeDepth → e = depthErr cfg.maxIncludeDepth) →
      (∀ w1 e1, getTemplate cfg src n w = (w1, .err e1) → e = e1.attachName name) →
      (∀ w1, getTemplate cfg src n w ≠ (w1, .crash)) → Raised cfg e w' k name src [.include_ n x] := by
    intro st' hl' h1 h2 h3 h4
    rcases hg : getTemplate cfg src n w with ⟨w1, r⟩
    cases r with
    | ok t =>
      by_cases hk : k + 2 ≤ cfg.maxIncludeDepth
      · obtain ⟨T, hT⟩ := compiled_parsed (hl.compiled t (find_includable (by rw [← find_eq]; exact hg)))
        have hp := h1 w1 t T hg hT hk
        have hl2 : Live cfg (k + 1) st' := ⟨hl'.compiled, hl'.rounds, by omega⟩
        exact .included (.head .here) hg hT hp (hinc _ _ _ _ _ _ _ hl2 hp)
      · exact .depth (h2 w1 t hg hk) hk
    | err e1 =>
      have ho := own_getTemplate (src := src) cfg n w e1 (by rw [hg])
      have := h3 w1 e1 hg
      exact .here ho this (this ▸ attach_name ho name)
    | crash => exact absurd hg (h4 w1)
  cases x with
  | none =>
    refine main st hl ?_ ?_ ?_ ?_
    · intro w1 t T hg hT hk; exact (C21_include hl hg hT.code hk _).mp h
    · intro w1 t hg hk; have := (C23_too_deep hl hg hk _).mp h; cases this; rfl
    · intro w1 e1 hg; have := (C21_unknown hl hg _).mp h; cases this; rfl
    · intro w1 hg
      obtain ⟨tree, ρ, _, _, hx, hp⟩ := live_piece (src := src) (name := name) hl
      rw [find_eq] at hg
      rw [hp, evalStmts_one, evalStmt, include_, hg] at h
      cases h
  | some x =>
    have h0 := h
    obtain ⟨tree, ρ, _, _, hx, hp⟩ := live_piece (src := src) (name := name) hl
    rw [hp, evalStmts_one, evalStmt, ← hx] at h
    rcases raised_of (own_valueOf _ _ _) h with h | ⟨v, hv, h⟩
    · exact h
    refine main [.scope v] ⟨hl.compiled, inRound_cons inRound_nil (fun _ h => by cases h), hl.depth⟩ ?_ ?_ ?_ ?_
    · intro w1 t T hg hT hk; exact (C22_include_with hl hv hg hT.code hk _).mp h0
    · intro w1 t hg hk
      have := hl.depth
      rw [find_eq] at hg
      rw [show max 1 cfg.maxIncludeDepth - 1 - k = 0 by omega, include_, hg] at h
      cases h; rfl
    · intro w1 e1 hg
      rw [find_eq] at hg
      rw [include_, hg] at h
      cases h; rfl
    · intro w1 hg
      rw [find_eq] at hg
      rw [include_, hg] at h
      cases h

/-- **C35** Whatever error a piece of a template ends with: it bears the name of the template that raised
it and is about a place in that template's source. That template is the running one, or one included from
here, found where its own errors end the render unchanged; or the include depth was exceeded. -/
theorem C35_raised (hl : Live cfg k st) {ss : List Stmt} {w w' : World σ} {e : Err}
    (h : Piece cfg k name src ss st w (.err e w')) : Raised cfg e w' k name src ss := by
  have hd := hl.depth
  obtain ⟨m, hm⟩ : ∃ m, m + k + 1 = max 1 cfg.maxIncludeDepth := ⟨max 1 cfg.maxIncludeDepth - k - 1, by omega⟩
  induction m generalizing k st name src ss w e w' with
  | zero =>
    refine raised_stmts (fun n x st w e w' hl h => raised_include ?_ n x hl h) ss hl h
    intro _ _ _ _ _ _ _ hl _
    have := hl.depth; omega
  | succ m ih =>
    exact raised_stmts (fun n x st w e w' hl h => raised_include
      (fun _ _ _ _ _ _ _ hl h => ih hl h hl.depth (by omega)) n x hl h) ss hl h

/-- **C35** The same for a whole render. -/
theorem C35_render {env : Env} {r : Renderer} {sink : Sink σ} (hh : Healthy env r) {T : Tree} (hT : Parsed env r.template T)
    {b : SState} (hb : r.base = .ok b) (out : σ) {e : Err} {w : World σ}
    (h : Halts (r.cfg env sink) (initVM r.template r.name b out) (.err e w)) :
    Raised (r.cfg env sink) e w 0 r.name T.source T.body :=
  C35_raised (live_initial (hh.all sink) hb) ((render_piece hT b out _).mp h)

/-- **C35** Without includes: every error bears the name of the template, if it has one. -/
theorem C35_no_include (hl : Live cfg k st) {ss : List Stmt} (hn : ∀ n x, ¬ ContainsAny ss n x) {w w' : World σ} {e : Err}
    (h : Piece cfg k name src ss st w (.err e w')) :
    e.name = name ∨ e = depthErr cfg.maxIncludeDepth := by
  cases C35_raised hl h with
  | here _ _ h => exact .inl h
  | write _ h => exact .inl h
  | depth h _ => exact .inr h
  | included h => exact absurd h (hn _ _)

/-- Where an error raised by statements is. -/
theorem raised_located {e : Err} {w' : World σ} {ss : List Stmt} (h : Raised cfg e w' k name src ss) :
    (e.pretty = none ∧ (e.reason = none ∨ e = depthErr cfg.maxIncludeDepth)) ∨
    ∃ src' sp t p, (src' = src ∨ ∃ t T, Includable cfg t ∧ Parsed cfg.env t T ∧ T.source = src') ∧
      sp.of src' = some t ∧ Pretty.build cfg.env src' sp = some p ∧ e.pretty = some p := by
  induction h with
  | @here k name src ss e' h1 h2 h3 =>
    obtain ⟨sp, t, p, a, b, c⟩ := h1.located
    exact .inr ⟨src, sp, t, p, .inl rfl, a, b, by rw [h2]; cases name <;> exact c⟩
  | @write k name src ss h1 _ => exact .inl (by rw [h1]; cases name <;> exact ⟨rfl, .inl rfl⟩)
  | depth h1 _ => exact .inl ⟨by rw [h1]; rfl, .inr h1⟩
  | @included k name src ss n x w1 w2 t T st h1 h2 h3 h4 h5 ih =>
    rcases ih with h | ⟨src', sp, t', p, h, a, b, c⟩
    · exact .inl h
    · refine .inr ⟨src', sp, t', p, .inr ?_, a, b, c⟩
      rcases h with h | h
      · exact ⟨t, T, find_includable (by rw [← find_eq]; exact h2), h3, h.symm⟩
      · exact h

/-- **C36** Every error of a render has a location built from a range of the source of one of the
templates, except failed plain writes and the depth error, which have none. -/
theorem C36_render {env : Env} {r : Renderer} {sink : Sink σ} (hh : Healthy env r) {T : Tree} (hT : Parsed env r.template T)
    {b : SState} (hb : r.base = .ok b) (out : σ) {e : Err} {w : World σ}
    (h : Halts (r.cfg env sink) (initVM r.template r.name b out) (.err e w)) :
    (e.pretty = none ∧ (e.reason = none ∨ e = depthErr (r.cfg env sink).maxIncludeDepth)) ∨
    ∃ src sp t p, (src = T.source ∨ ∃ t' T', Includable (r.cfg env sink) t' ∧ Parsed env t' T' ∧ T'.source = src) ∧
      sp.of src = some t ∧ Pretty.build env src sp = some p ∧ e.pretty = some p :=
  raised_located (C35_render hh hT hb out h)

/-- **C35** An error of `add_template` bears the name being added (and is about the text being added). -/
theorem C35_add {env : Env} {eng : Engine} {n source : Str} {e : Err} (h : (eng.addTemplate env n source).2 = .err e) :
    e.name = some n ∧ ∃ sp t p, sp.of source = some t ∧ Pretty.build env source sp = some p ∧ e.pretty = some p := by
  rw [Engine.addTemplate] at h
  split at h
  · cases h
  · next err hc =>
    cases h
    obtain ⟨reason, sp, p, hp, rfl⟩ := (located_compileSource (cx := ⟨env, eng.searcher, source⟩)).1 err hc
    obtain ⟨t, ht⟩ := pretty_span hp
    exact ⟨rfl, sp, t, p, ht, hp, rfl⟩
  · cases h

end Upon
