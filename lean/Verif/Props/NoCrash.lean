import Verif.Props.Blame
import Verif.Proofs.NoCrash
import Verif.Proofs.ParsedIn
/-
C14: rendering does not panic.
-/
namespace Upon
open Spec Compiler
variable {σ : Type} {cfg : RenderCfg σ} {k : Nat} {st : Stack} {name : Option Str} {src : Str}

theorem andThen_crash {α : Type} {r : Res α} (hs : Safe r) {K : α → RunRes σ} {w : World σ}
    (h : RunRes.crash = andThen name w r K) : ∃ a, r = .ok a ∧ RunRes.crash = K a := by
  cases r with
  | ok a => exact ⟨a, rfl, h⟩
  | err e' => cases h
  | crash => exact absurd rfl hs.not

theorem write_safe (hne : src ≠ []) {f : Formatter} {v : Value} {sp : Span} (hsp : SpanIn src sp) {w : World σ} :
    RunRes.crash ≠ Spec.write cfg name f v src sp w := by
  intro h
  rw [Spec.write] at h
  split at h
  · cases h
  · obtain ⟨_, h, _⟩ := andThen_crash (Safe.throwAt _ _ hne hsp) h
    rw [throwAt] at h
    split at h <;> cases h

theorem emit_safe (hne : src ≠ []) (hl : Live cfg k st) (hr : Readable src st) {x : Expr} (hx : ExprIn src x) {sp : Span} {w : World σ} :
    ¬ Piece cfg k name src [.inlineExpr x sp] st w .crash := by
  intro h
  obtain ⟨tree, htr⟩ := trees_exist hl.compiled
  have htr := trees_of_parsed htr
  obtain ⟨ρ, hrel⟩ := rel_exists hl.rounds
  have he := fun e => valueOf_eq cfg src hrel e
  rw [piece_iff htr hrel hl.depth, evalStmts_one, evalStmt, emitExpr.eq_def] at h
  split at h
  · rw [← he] at h
    obtain ⟨v, _, h⟩ := andThen_crash (safe_valueOf cfg hne hr.inSight hx.2.2.1) h
    obtain ⟨n, _, h⟩ := andThen_crash (Safe.span hx.1) h
    split at h
    · exact write_safe hne hx.1 h
    · rw [← callFilter_eq cfg.env _ src hrel] at h
      obtain ⟨v, _, h⟩ := andThen_crash (safe_call hne hr.inSight _ hx.1 _ (by simp)) h
      exact write_safe hne hx.2.2.2 h
    · obtain ⟨n, h, _⟩ := andThen_crash (Safe.err hne hx.1) h
      exact absurd h errRender_ok
  · rw [← he] at h
    obtain ⟨v, _, h⟩ := andThen_crash (safe_valueOf cfg hne hr.inSight hx) h
    exact write_safe hne (expr_span_in hx) h

theorem inTurn_crash {round : Nat → World σ → RunRes σ → Prop} {n i : Nat} {w : World σ}
    (h : InTurn round n i w .crash) : ∃ j w1, j < n ∧ round j w1 .crash := by
  generalize hr : RunRes.crash = r at h
  induction h with
  | done => cases hr
  | next _ _ _ ih => exact ih hr
  | stop h1 h2 _ => subst hr; exact ⟨_, _, h1, h2⟩

theorem Readable.cons {s : SState} (hr : Readable src st) (hs : ∀ n c, s ≠ .var n c) : Readable src (s :: st) := by
  intro n c h
  rcases List.mem_cons.mp h with h | h
  · exact absurd h.symm (hs n c)
  · exact hr n c h

theorem readable_iff : Readable src st ↔ ∀ i ∈ withNames st, SpanIn src i.span := by
  constructor
  · intro h i hi
    obtain ⟨s, hs, he⟩ := List.mem_filterMap.mp hi
    cases s with
    | var n c => cases he; exact h _ _ hs
    | _ => cases he
  · intro h n c hm
    exact h n (List.mem_filterMap.mpr ⟨_, hm, rfl⟩)

theorem Spec.Unreadable.mono {tree : Template → Tree} {ss ss' : List Stmt} {l is : List Ident}
    (hm : ∀ n x js, EnclosedAny ss n x js → EnclosedAny ss' n x (js ++ l)) (h : Unreadable cfg tree src ss (l ++ is)) :
    Unreadable cfg tree src ss' is := by
  cases h with
  | here h1 h2 h3 h4 => exact .here (hm _ _ _ h1) h2 (by simpa using h3) h4
  | plain h1 h2 h3 => exact .plain (hm _ _ _ h1) h2 (by simpa using h3)
  | with_ h1 h2 h3 => exact .with_ (hm _ _ _ h1) h2 h3

theorem Spec.Unreadable.within {tree : Template → Tree} {ss ss' : List Stmt} {is : List Ident}
    (hm : ∀ n x js, EnclosedAny ss n x js → EnclosedAny ss' n x js) (h : Unreadable cfg tree src ss is) :
    Unreadable cfg tree src ss' is := by
  cases h with
  | here h1 h2 h3 h4 => exact .here (hm _ _ _ h1) h2 h3 h4
  | plain h1 h2 h3 => exact .plain (hm _ _ _ h1) h2 h3
  | with_ h1 h2 h3 => exact .with_ (hm _ _ _ h1) h2 h3

section stmts
variable {tree : Template → Tree} (hne : src ≠ []) (hinc : ∀ n x st w, Live cfg k st → Readable src st →
  StmtIn src (.include_ n x) → Piece cfg k name src [.include_ n x] st w .crash →
  Unreadable cfg tree src [.include_ n x] (withNames st))
include hne hinc

mutual
theorem panics_stmt (s : Stmt) (hi : StmtIn src s) {st : Stack} (hl : Live cfg k st) (hr : Readable src st) {w : World σ}
    (h : Piece cfg k name src [s] st w .crash) : Unreadable cfg tree src [s] (withNames st) := by
  match s with
  | .raw sp =>
    obtain ⟨t, hs⟩ := hi
    rw [C16_raw hl hs] at h
    split at h <;> cases h
  | .inlineExpr x sp => exact absurd h (emit_safe hne hl hr hi.1)
  | .include_ n x => exact hinc n x st w hl hr hi h
  | .ifElse neg cond thn none =>
    obtain ⟨tree, ρ, _, _, hx, hp⟩ := live_piece (src := src) (name := name) hl
    rw [hp, evalStmts_one, evalStmt.eq_def] at h
    dsimp only at h
    rw [← hx] at h
    obtain ⟨v, _, h⟩ := andThen_crash (safe_valueOf cfg hne hr.inSight hi.1) h
    split at h
    · exact (panics_stmts thn hi.2 hl hr ((hp _ _ _).mpr h)).within fun n x js h => .head (.thn h)
    · cases h
  | .ifElse neg cond thn (some els) =>
    obtain ⟨tree, ρ, _, _, hx, hp⟩ := live_piece (src := src) (name := name) hl
    rw [hp, evalStmts_one, evalStmt.eq_def] at h
    dsimp only at h
    rw [← hx] at h
    obtain ⟨v, _, h⟩ := andThen_crash (safe_valueOf cfg hne hr.inSight hi.1) h
    split at h
    · exact (panics_stmts thn hi.2.1 hl hr ((hp _ _ _).mpr h)).within fun n x js h => .head (.thn h)
    · exact (panics_stmts els hi.2.2 hl hr ((hp _ _ _).mpr h)).within fun n x js h => .head (.els h)
  | .with_ x n body =>
    have h0 := h
    obtain ⟨tree, ρ, _, _, hx, hp⟩ := live_piece (src := src) (name := name) hl
    rw [hp, evalStmts_one, evalStmt.eq_def] at h
    dsimp only at h
    rw [← hx] at h
    obtain ⟨v, hv, h⟩ := andThen_crash (safe_valueOf cfg hne hr.inSight hi.1) h
    refine (panics_stmts body hi.2.2 (hl.var n v) ?_ ((C20_with hl hv n body w _).mp h0)).mono (l := [n])
      fun n x js h => .head (.with_ h)
    intro n' c' hm
    rcases List.mem_cons.mp hm with hm | hm
    · cases hm; exact hi.2.1
    · exact hr n' c' hm
  | .forLoop vars x body =>
    have h0 := h
    obtain ⟨tree, ρ, _, _, hx, hp⟩ := live_piece (src := src) (name := name) hl
    rw [hp, evalStmts_one, evalStmt.eq_def] at h
    dsimp only at h
    rw [← hx] at h
    obtain ⟨v, hv, h⟩ := andThen_crash (safe_valueOf cfg hne hr.inSight hi.2.1) h
    have hsp := expr_span_in hi.2.1
    have hvi := hi.1
    have hr' : ∀ ls, Readable src (.loop ls :: st) := fun ls => hr.cons (fun _ _ h => by cases h)
    have ho : Safe (rounds cfg.env src vars v x.span) := by
      rw [rounds.eq_def]
      split
      · exact .bind (.span hvi) fun _ _ => .ok _
      · exact .err hne hvi.2.2
      · exact .bind (.span hvi.1) fun _ _ => .bind (.span hvi.2.1) fun _ _ => .ok _
      · exact .err hne hvi
      · exact .err hne hsp
    obtain ⟨bs, hbs, _⟩ := andThen_crash ho h
    rw [rounds.eq_def] at hbs
    split at hbs
    · next l i hvl _ =>
      obtain ⟨n, hn, _⟩ := bind_ok' hbs
      obtain ⟨j, w1, hj, hrd⟩ := inTurn_crash ((C18_list hl hv hvl (ofOption_ok hn) body w _).mp h0)
      exact (panics_stmts body hi.2.2 (hl.round (listRound_on hj)) (hr' _) hrd).within fun n x js h => .head (.for_ h)
    · exact absurd hbs errRender_ok
    · next m ki vi sp hvl _ =>
      obtain ⟨kn, hk, hbs⟩ := bind_ok' hbs
      obtain ⟨vn, hn, _⟩ := bind_ok' hbs
      obtain ⟨j, w1, hj, hrd⟩ := inTurn_crash ((C18_map hl hv hvl (ofOption_ok hk) (ofOption_ok hn) sp body w _).mp h0)
      exact (panics_stmts body hi.2.2 (hl.round (mapRound_on hj)) (hr' _) hrd).within fun n x js h => .head (.for_ h)
    · exact absurd hbs errRender_ok
    · exact absurd hbs errRender_ok
theorem panics_stmts (ss : List Stmt) (hi : StmtsIn src ss) {st : Stack} (hl : Live cfg k st) (hr : Readable src st) {w : World σ}
    (h : Piece cfg k name src ss st w .crash) : Unreadable cfg tree src ss (withNames st) := by
  match ss with
  | [] => rw [C20_nil hl] at h; cases h
  | s :: ss =>
    rcases (C20_restored hl [s] ss w _).mp h with ⟨w1, _, h⟩ | ⟨h, _⟩
    · exact (panics_stmts ss hi.2 hl hr h).within fun n x js h => .tail h
    · refine (panics_stmt s hi.1 hl hr h).within fun n x js h => ?_
      cases h with
      | head h => exact .head h
      | tail h => cases h
end
end stmts

/-- **C14** A piece of a template panics only if a template included from it has a source in which the name of a
`with` variable in scope, which is a byte range of the including template, is not a slice. -/
theorem C14_piece (hl : Live cfg k st) {tree : Template → Tree} (htr : ∀ t, Includable cfg t → Parsed cfg.env t (tree t))
    {ss : List Stmt} (hne : src ≠ []) (hi : StmtsIn src ss) (hr : ∀ i ∈ withNames st, SpanIn src i.span) {w : World σ}
    (h : Piece cfg k name src ss st w .crash) : Unreadable cfg tree src ss (withNames st) := by
  have hr := readable_iff.mpr hr
  have hd := hl.depth
  obtain ⟨m, hm⟩ : ∃ m, m + k + 1 = max 1 cfg.maxIncludeDepth := ⟨max 1 cfg.maxIncludeDepth - k - 1, by omega⟩
  have inc : ∀ (k : Nat) (name : Option Str) (src : Str), src ≠ [] →
      (k + 2 ≤ cfg.maxIncludeDepth → ∀ st w t (n : AstString), Includable cfg t → Live cfg (k + 1) st →
        Readable (tree t).source st → Piece cfg (k + 1) (some n.name) (tree t).source (tree t).body st w .crash →
        Unreadable cfg tree (tree t).source (tree t).body (withNames st)) →
      ∀ n x st w, Live cfg k st → Readable src st → StmtIn src (.include_ n x) →
        Piece cfg k name src [.include_ n x] st w .crash → Unreadable cfg tree src [.include_ n x] (withNames st) := by
    intro k name src hne ih n x st w hl hr hi h
    have hn : SpanIn src n.span := by
      cases x with
      | none => exact hi
      | some e => exact hi.1
    have hg : ∀ w1, getTemplate cfg src n w ≠ (w1, .crash) := by
      intro w1 hg
      have : Safe (getTemplate cfg src n w).2 := by
        rw [getTemplate]
        split
        · dsimp only; split
          · exact .ok _
          · exact .err hne hn
        · dsimp only; split
          · exact .ok _
          · exact .err hne hn
      rw [hg] at this
      exact this.not rfl
    have main : ∀ st', Live cfg k st' → (∀ w1 t, getTemplate cfg src n w = (w1, .ok t) →
        k + 2 ≤ cfg.maxIncludeDepth → Piece cfg (k + 1) (some n.name) (tree t).source (tree t).body st' w1 .crash) →
        (∀ w1 t, getTemplate cfg src n w = (w1, .ok t) → k + 2 ≤ cfg.maxIncludeDepth) →
        (∀ w1 e1, getTemplate cfg src n w ≠ (w1, .err e1)) → ∃ w1 t, getTemplate cfg src n w = (w1, .ok t) ∧
          ((∃ i ∈ withNames st', ¬ SpanIn (tree t).source i.span) ∨
            Unreadable cfg tree (tree t).source (tree t).body (withNames st')) := by
      intro st' hl' h1 h2 h3
      rcases hgt : getTemplate cfg src n w with ⟨w1, r⟩
      cases r with
      | ok t =>
        refine ⟨w1, t, rfl, ?_⟩
        have hk := h2 w1 t hgt
        have hinc : Includable cfg t := find_includable (by rw [← find_eq]; exact hgt)
        by_cases hrd : Readable (tree t).source st'
        · exact .inr (ih hk st' w1 t n hinc ⟨hl'.compiled, hl'.rounds, by omega⟩ hrd (h1 w1 t hgt hk))
        · rw [readable_iff] at hrd
          refine .inl (Classical.byContradiction fun hn => hrd fun i hi => Classical.byContradiction fun hx => hn ⟨i, hi, hx⟩)
      | err e => exact absurd hgt (h3 _ _)
      | crash => exact absurd hgt (hg _)
    cases x with
    | none =>
      obtain ⟨w1, t, hgt, ho⟩ := main st hl
        (fun w1 t hg hk => (C21_include hl hg (htr t (find_includable (by rw [← find_eq]; exact hg))).code hk _).mp h)
        (fun w1 t hg => Classical.byContradiction fun hk => by have := (C23_too_deep hl hg hk _).mp h; cases this)
        (fun w1 e1 hg => by have := (C21_unknown hl hg _).mp h; cases this)
      rcases ho with ⟨i, hi, hx⟩ | ho
      · exact .here (.head .here) hgt (by simpa using hi) hx
      · exact .plain (.head .here) hgt (by simpa using ho)
    | some x =>
      have h0 := h
      obtain ⟨tree', ρ, _, _, hx, hp⟩ := live_piece (src := src) (name := name) hl
      rw [hp, evalStmts_one, evalStmt, ← hx] at h
      obtain ⟨v, hv, h⟩ := andThen_crash (safe_valueOf cfg hne hr.inSight hi.2) h
      obtain ⟨w1, t, hgt, ho⟩ := main [.scope v] ⟨hl.compiled, inRound_cons inRound_nil (fun _ h => by cases h), hl.depth⟩
        (fun w1 t hg hk => (C22_include_with hl hv hg (htr t (find_includable (by rw [← find_eq]; exact hg))).code hk _).mp h0)
        (fun w1 t hg => Classical.byContradiction fun hk => by
          have := hl.depth
          rw [find_eq] at hg
          rw [show max 1 cfg.maxIncludeDepth - 1 - k = 0 by omega, include_, hg] at h
          cases h)
        (fun w1 e1 hg => by
          rw [find_eq] at hg
          rw [include_, hg] at h
          cases h)
      rcases ho with ⟨i, hi, _⟩ | ho
      · cases hi
      · exact .with_ (.head .here) hgt ho
  induction m generalizing k st name src ss w with
  | zero =>
    refine panics_stmts hne (fun n x st w hl hr hi h => inc k name src hne ?_ n x st w hl hr hi h) ss hi hl hr h
    intro hk; omega
  | succ m ih =>
    refine panics_stmts hne (fun n x st w hl hr hi h => inc k name src hne ?_ n x st w hl hr hi h) ss hi hl hr h
    intro hk st w t n hinc hl hrd h
    have hT := htr t hinc
    by_cases hT0 : (tree t).source = []
    · rw [hT.empty hT0, C20_nil hl] at h; cases h
    · exact ih hl hT0 hT.inside (readable_iff.mp hrd) h hrd hl.depth (by omega)

/-- **C14** Rendering ends without a panic, unless a template included without `with`, from inside a `with`
block of a template that includes it (directly or through others), has a source in which the byte range of
the name that this block binds is not a slice. -/
theorem C14_panics {env : Env} {r : Renderer} {sink : Sink σ} (hh : Healthy env r) {T : Tree} (hT : Parsed env r.template T)
    {tree : Template → Tree} (htr : ∀ t, Includable (r.cfg env sink) t → Parsed env t (tree t))
    {b : SState} (hb : r.base = .ok b) (out : σ) :
    (∃ res, Halts (r.cfg env sink) (initVM r.template r.name b out) res ∧ res ≠ .crash) ∨
      Unreadable (r.cfg env sink) tree T.source T.body [] := by
  obtain ⟨res, h⟩ := C15_terminates hh (sink := sink) hb out
  by_cases hc : res = .crash
  · subst hc
    rw [render_piece hT] at h
    have hl := live_initial (hh.all sink) hb
    have hnw : withNames [b] = [] := by
      rcases base_cases hb with ⟨f, rfl, _⟩ | ⟨c, rfl, _⟩ <;> rfl
    by_cases hT0 : T.source = []
    · rw [hT.empty hT0, C20_nil hl] at h; cases h
    · have := C14_piece hl htr hT0 hT.inside (by rw [hnw]; intro _ h; cases h) h
      rw [hnw] at this
      exact .inr this
  · exact .inl ⟨res, h, hc⟩

mutual
theorem Spec.Enclosed.contains {s : Stmt} {n : AstString} {x : Option Expr} {js : List Ident} : Enclosed s n x js → Contains s n x
  | .here => .here
  | .thn h => .thn (EnclosedAny.contains h)
  | .els h => .els (EnclosedAny.contains h)
  | .for_ h => .for_ (EnclosedAny.contains h)
  | .with_ h => .with_ (EnclosedAny.contains h)
theorem Spec.EnclosedAny.contains {ss : List Stmt} {n : AstString} {x : Option Expr} {js : List Ident} :
    EnclosedAny ss n x js → ContainsAny ss n x
  | .head h => .head (Enclosed.contains h)
  | .tail h => .tail (EnclosedAny.contains h)
end

mutual
theorem tame_enclosed {s : Stmt} {n : AstString} {js : List Ident} (h : Enclosed s n none js) (ht : TameStmt s) : js = [] := by
  match h with
  | .here => rfl
  | .thn (e := none) h => exact tame_enclosedAny h ht
  | .thn (e := some _) h => exact tame_enclosedAny h ht.1
  | .els h => exact tame_enclosedAny h ht.2
  | .for_ h => exact tame_enclosedAny h ht
  | .with_ h => exact absurd h.contains (ht.2 n)
theorem tame_enclosedAny {ss : List Stmt} {n : AstString} {js : List Ident} (h : EnclosedAny ss n none js) (ht : Tame ss) : js = [] := by
  match h with
  | .head h => exact tame_enclosed h ht.1
  | .tail h => exact tame_enclosedAny h ht.2
end

theorem tame_readable {cfg : RenderCfg σ} {tree : Template → Tree} (htree : ∀ t, Includable cfg t → Tame (tree t).body) {src : Str}
    {ss : List Stmt} (ht : Tame ss) : ¬ Unreadable cfg tree src ss [] := by
  intro h
  have find : ∀ {src n w1 w2 t}, getTemplate cfg src n w1 = (w2, .ok t) → Tame (tree t).body :=
    fun hg => htree _ (find_includable (by rw [← find_eq]; exact hg))
  generalize hi : ([] : List Ident) = is at h
  induction h with
  | here h1 h2 h3 _ => subst hi; rw [tame_enclosedAny h1 ht] at h3; cases h3
  | plain h1 h2 _ ih => subst hi; exact ih (find h2) (by rw [tame_enclosedAny h1 ht]; rfl)
  | with_ h1 h2 _ ih => exact ih (find h2) rfl

/-- **C14** In particular there is no panic when neither the template nor those it may include have a plain
`include` inside a `with` block. -/
theorem C14_tame {env : Env} {r : Renderer} {sink : Sink σ} (hh : Healthy env r) {T : Tree} (hT : Parsed env r.template T)
    (ht : Tame T.body) (hall : ∀ t, Includable (r.cfg env sink) t → ∃ T, Parsed env t T ∧ Tame T.body)
    {b : SState} (hb : r.base = .ok b) (out : σ) :
    ∃ res, Halts (r.cfg env sink) (initVM r.template r.name b out) res ∧ res ≠ .crash := by
  classical
  let tree : Template → Tree := fun t => if h : Includable (r.cfg env sink) t then Classical.choose (hall t h) else T
  have htree : ∀ t, Includable (r.cfg env sink) t → Parsed env t (tree t) ∧ Tame (tree t).body := by
    intro t h
    simp only [tree, dif_pos h]
    exact Classical.choose_spec (hall t h)
  exact (C14_panics hh hT (tree := tree) (fun t h => (htree t h).1) hb out).resolve_right (tame_readable (fun t h => (htree t h).2) ht)

/-- **C14** Nor when every name bound by a `with` around a plain `include`, as a byte range, is a slice of the
source of every template that may be included. -/
theorem C14_ranges {env : Env} {r : Renderer} {sink : Sink σ} (hh : Healthy env r) {T : Tree} (hT : Parsed env r.template T)
    {tree : Template → Tree} (htr : ∀ t, Includable (r.cfg env sink) t → Parsed env t (tree t))
    (hr : ∀ U, (U = T ∨ ∃ t, Includable (r.cfg env sink) t ∧ U = tree t) → ∀ n js, EnclosedAny U.body n none js → ∀ i ∈ js,
      ∀ t, Includable (r.cfg env sink) t → SpanIn (tree t).source i.span)
    {b : SState} (hb : r.base = .ok b) (out : σ) :
    ∃ res, Halts (r.cfg env sink) (initVM r.template r.name b out) res ∧ res ≠ .crash := by
  refine (C14_panics hh hT htr hb out).resolve_right fun h => ?_
  have find : ∀ {src n w1 w2 t}, getTemplate (r.cfg env sink) src n w1 = (w2, .ok t) → Includable (r.cfg env sink) t :=
    fun hg => find_includable (by rw [← find_eq]; exact hg)
  have hr0 := hr T (.inl rfl)
  generalize hs : T.source = src at h
  generalize T.body = ss at h hr0
  have hi : ∀ i ∈ ([] : List Ident), ∀ t, Includable (r.cfg env sink) t → SpanIn (tree t).source i.span := fun _ h => by cases h
  generalize ([] : List Ident) = is at h hi
  clear hs
  have app : ∀ {ss n js is}, (∀ n js, EnclosedAny ss n none js → ∀ i ∈ js, ∀ t, Includable (r.cfg env sink) t → SpanIn (tree t).source i.span) →
      (∀ i ∈ is, ∀ t, Includable (r.cfg env sink) t → SpanIn (tree t).source i.span) → EnclosedAny ss n none js →
      ∀ i ∈ js ++ is, ∀ t, Includable (r.cfg env sink) t → SpanIn (tree t).source i.span := by
    intro ss n js is h1 h2 h i hm
    rcases List.mem_append.mp hm with hm | hm
    · exact h1 n js h i hm
    · exact h2 i hm
  induction h with
  | here h1 h2 h3 h4 => exact h4 (app hr0 hi h1 _ h3 _ (find h2))
  | plain h1 h2 _ ih => exact ih (hr _ (.inr ⟨_, find h2, rfl⟩)) (app hr0 hi h1)
  | with_ h1 h2 _ ih => exact ih (hr _ (.inr ⟨_, find h2, rfl⟩)) (fun _ h => by cases h)

end Upon
