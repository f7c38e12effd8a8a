import Verif.Proofs.Effects
import Verif.Props.NoCrash
import Verif.Proofs.Escaping
/-
Renders with functions that answer differently each time: no panics, and what can reach the output (C58).
-/
namespace Upon
namespace Eff
open Spec
variable {σ : Type} {cfg : RenderCfg σ} {bs : Nat → Behaviour} {src : Str} {name : Option Str} {st : Stack} {ρ : Scope}

theorem inSight_acting (b : Behaviour) (st : Stack) : inSight (st.map (SState.acting b)) = (inSight st).map (SState.acting b) := by
  induction st with
  | nil => rfl
  | cons s st ih => cases s <;> simp [inSight, SState.acting, ih]

theorem sight_acting (b : Behaviour) (h : InSight src st) : InSight src (st.map (SState.acting b)) := by
  intro n c hm
  rw [inSight_acting] at hm
  obtain ⟨s, hs, he⟩ := List.mem_map.mp hm
  cases s <;> cases he
  exact h _ _ hs

theorem safe_callOn (hne : src ≠ []) (hr : Rel st ρ) (hs : InSight src st) {fn : Ident} (hf : SpanIn src fn.span) {args : Option Args}
    (ha : ∀ a, args = some a → ∀ x ∈ a.values, BaseIn src x) (v : Cow) : Safe (callOn asBuilt cfg src ρ fn args v) := by
  rw [callOn]
  refine .bind (.span hf) fun n _ => ?_
  split
  · rw [← callFilter_eq cfg.env _ src hr]
    refine .bind (safe_call hne hs _ hf _ ?_) fun r _ => .ok _
    intro x hx
    cases args with
    | none => cases hx
    | some a => exact ha a rfl x hx
  · exact .err hne hf
  · exact .err hne hf

theorem safe_evalAt (hne : src ≠ []) (hr : Rel st ρ) (hs : InSight src st) {e : Expr} (he : ExprIn src e) {a b : Nat} {r : Res Cow}
    (h : evalAt asBuilt cfg bs src ρ e a r b) : Safe r := by
  induction e generalizing r b with
  | base x =>
    obtain ⟨t, _, _, rfl⟩ := h
    cases x with
    | var v => rw [evalBase, ← lookupVar_eq cfg.env src (rel_acting (bs t) hr)]; exact safe_lookupVar hne (sight_acting _ hs) he
    | lit l => exact .ok _
  | call fn args recv sp ih =>
    obtain ⟨v, c, hv, t, _, _, rfl⟩ := h
    exact .bind (ih he.2.2.1 hv) fun v _ => safe_callOn hne (rel_acting _ hr) (sight_acting _ hs) he.1 he.2.1 v

theorem safe_emitAt (hne : src ≠ []) (hr : Rel st ρ) (hs : InSight src st) {e : Expr} (he : ExprIn src e) {w : World σ} {a b : Nat} :
    ¬ emitAt asBuilt cfg bs name src ρ e w a .crash b := by
  intro h
  rw [emitAt.eq_def] at h
  dsimp only at h
  split at h
  · obtain ⟨r, c, hv, t, _, _, h⟩ := h
    obtain ⟨v, _, h⟩ := andThen_crash (safe_evalAt hne hr hs he.2.2.1 hv) h
    rw [emitCall] at h
    obtain ⟨n, _, h⟩ := andThen_crash (Safe.span he.1) h
    split at h
    · exact write_safe hne he.1 h
    · rw [← callFilter_eq _ _ src (rel_acting (bs t) hr)] at h
      obtain ⟨v, _, h⟩ := andThen_crash (safe_call hne (sight_acting _ hs) _ he.1 _ (by simp)) h
      exact write_safe hne (expr_span_in he) h
    · obtain ⟨v, h1, _⟩ := andThen_crash (Safe.err (α := Unit) hne he.1) h
      exact absurd h1 errRender_ok
  · obtain ⟨r, c, hv, t, _, _, h⟩ := h
    obtain ⟨v, _, h⟩ := andThen_crash (safe_evalAt hne hr hs he hv) h
    exact write_safe hne (expr_span_in he) h

theorem andThenAt_crash {α : Type} {r : Res α} (hs : Safe r) {K : α → Timed (RunRes σ)} {w : World σ} {a b : Nat}
    (h : andThenAt name w r K a .crash b) : ∃ x, r = .ok x ∧ K x a .crash b := by
  cases r with
  | ok x => exact ⟨x, rfl, h⟩
  | err e => exact nomatch h.1
  | crash => exact absurd rfl hs.not

theorem forEachAt_crash {α : Type} {f : α → World σ → Timed (RunRes σ)} {xs : List α} {w : World σ} {a b : Nat}
    (h : forEachAt f xs w a .crash b) : ∃ x ∈ xs, ∃ w a b, f x w a .crash b := by
  induction xs generalizing w a with
  | nil => exact nomatch h.1
  | cons x xs ih =>
    obtain ⟨r, c, ⟨c', d, _, h1, _⟩, h2⟩ := h
    cases r with
    | ok w' =>
      obtain ⟨y, hy, h⟩ := ih h2
      exact ⟨y, by simp [hy], h⟩
    | err e w' => exact nomatch h2.1
    | crash => exact ⟨x, by simp, w, _, _, h1⟩

theorem listRounds_rel {n : Str} {o : Bool} {i : Nat} {l : List Value} {x : Binding} (h : x ∈ listRounds n o i l) (hr : Rel st ρ) :
    ∃ ls, Rel (.loop ls :: st) (x :: ρ) := by
  induction l generalizing i with
  | nil => cases h
  | cons v l ih =>
    rw [listRounds] at h
    rcases List.mem_cons.mp h with rfl | h
    · exact ⟨_, Rel.list o n 0 l i v hr⟩
    · exact ih h

theorem mapRounds_rel {k v : Str} {o : Bool} {i : Nat} {l : List (Str × Value)} {x : Binding} (h : x ∈ mapRounds k v o i l)
    (hr : Rel st ρ) : ∃ ls, Rel (.loop ls :: st) (x :: ρ) := by
  induction l generalizing i with
  | nil => cases h
  | cons y l ih =>
    obtain ⟨key, y⟩ := y
    rw [mapRounds] at h
    rcases List.mem_cons.mp h with rfl | h
    · exact ⟨_, Rel.map o k v 0 l i key y hr⟩
    · exact ih h

theorem rounds_rel {vars : LoopVars} {v : Cow} {sp : Span} {rs : List Binding} {env : Env} (h : rounds env src vars v sp = .ok rs) {x : Binding}
    (hx : x ∈ rs) (hr : Rel st ρ) : ∃ ls, Rel (.loop ls :: st) (x :: ρ) := by
  rw [rounds.eq_def] at h
  split at h
  · obtain ⟨n, _, h⟩ := bind_ok' h
    cases h
    exact listRounds_rel hx hr
  · exact absurd h errRender_ok
  · obtain ⟨n, _, h⟩ := bind_ok' h
    obtain ⟨n', _, h⟩ := bind_ok' h
    cases h
    exact mapRounds_rel hx hr
  · exact absurd h errRender_ok
  · exact absurd h errRender_ok

theorem safe_rounds {env : Env} (hne : src ≠ []) {vars : LoopVars} {x : Expr} (hx : ExprIn src x) {body : List Stmt}
    (hi : StmtIn src (.forLoop vars x body)) (v : Cow) : Safe (rounds env src vars v x.span) := by
  have hvi := hi.1
  rw [rounds.eq_def]
  split
  · exact .bind (.span hvi) fun _ _ => .ok _
  · exact .err hne hvi.2.2
  · exact .bind (.span hvi.1) fun _ _ => .bind (.span hvi.2.1) fun _ _ => .ok _
  · exact .err hne hvi
  · exact .err hne (expr_span_in hx)

section stmts
variable {tree : Template → Tree} {inc : IncludeAt σ} (hne : src ≠ [])
  (hinc : ∀ n x st ρ w a b, Rel st ρ → InSight src st → StmtIn src (.include_ n x) →
    stmtAt asBuilt cfg bs inc name src ρ (.include_ n x) w a .crash b →
    Unreadable cfg tree src [.include_ n x] (withNames (inSight st)))
include hne hinc

mutual
theorem panics_stmtAt (s : Stmt) (hi : StmtIn src s) {st : Stack} {ρ : Scope} (hr : Rel st ρ) (hs : InSight src st) {w : World σ} {a b : Nat}
    (h : stmtAt asBuilt cfg bs inc name src ρ s w a .crash b) : Unreadable cfg tree src [s] (withNames (inSight st)) := by
  match s with
  | .raw sp =>
    obtain ⟨t, ht⟩ := hi
    rw [stmtAt, writeRaw, ht] at h
    have h := h.1
    simp only [Res.ofOption, andThen] at h
    split at h <;> cases h
  | .inlineExpr x sp => rw [stmtAt] at h; exact absurd h (safe_emitAt hne hr hs hi.1)
  | .include_ n x => exact hinc n x st ρ w a b hr hs hi h
  | .ifElse neg cond thn none =>
    rw [stmtAt] at h
    obtain ⟨r, c, h1, h⟩ := h
    obtain ⟨v, _, h⟩ := andThenAt_crash (safe_evalAt hne hr hs hi.1 h1) h
    split at h
    · exact (panics_stmtsAt thn hi.2 hr hs h).within fun n x js h => .head (.thn h)
    · exact nomatch h.1
  | .ifElse neg cond thn (some els) =>
    rw [stmtAt] at h
    obtain ⟨r, c, h1, h⟩ := h
    obtain ⟨v, _, h⟩ := andThenAt_crash (safe_evalAt hne hr hs hi.1 h1) h
    split at h
    · exact (panics_stmtsAt thn hi.2.1 hr hs h).within fun n x js h => .head (.thn h)
    · exact (panics_stmtsAt els hi.2.2 hr hs h).within fun n x js h => .head (.els h)
  | .with_ x n body =>
    rw [stmtAt] at h
    obtain ⟨r, c, h1, h⟩ := h
    obtain ⟨v, _, h⟩ := andThenAt_crash (safe_evalAt hne hr hs hi.1 h1) h
    have hw : withName asBuilt src n = fun src => n.span.of src := rfl
    rw [hw] at h
    refine (panics_stmtsAt body hi.2.2 (Rel.var n v hr) ?_ h).mono (l := [n]) fun n x js h => .head (.with_ h)
    intro n' c' hm
    rcases List.mem_cons.mp hm with hm | hm
    · cases hm; exact hi.2.1
    · exact hs n' c' hm
  | .forLoop vars x body =>
    rw [stmtAt] at h
    obtain ⟨r, c, h1, h⟩ := h
    obtain ⟨v, _, h⟩ := andThenAt_crash (safe_evalAt hne hr hs hi.2.1 h1) h
    obtain ⟨rs, hrs, h⟩ := andThenAt_crash (safe_rounds hne hi.2.1 hi v) h
    obtain ⟨y, hy, w', a', b', h⟩ := forEachAt_crash h
    obtain ⟨ls, hl⟩ := rounds_rel hrs hy hr
    refine (panics_stmtsAt body hi.2.2 hl ?_ h).within fun n x js h => .head (.for_ h)
    intro n' c' hm
    rcases List.mem_cons.mp hm with hm | hm
    · cases hm
    · exact hs n' c' hm
theorem panics_stmtsAt (ss : List Stmt) (hi : StmtsIn src ss) {st : Stack} {ρ : Scope} (hr : Rel st ρ) (hs : InSight src st) {w : World σ}
    {a b : Nat} (h : stmtsAt asBuilt cfg bs inc name src ρ ss w a .crash b) : Unreadable cfg tree src ss (withNames (inSight st)) := by
  match ss with
  | [] => rw [stmtsAt] at h; exact nomatch h.1
  | s :: ss =>
    rw [stmtsAt] at h
    obtain ⟨r, c, ⟨c', d, _, h1, _⟩, h2⟩ := h
    cases r with
    | ok w1 => exact (panics_stmtsAt ss hi.2 hr hs h2).within fun n x js h => .tail h
    | err e w1 => exact nomatch h2.1
    | crash =>
      refine (panics_stmtAt s hi.1 hr hs h1).within fun n x js h => ?_
      cases h with
      | head h => exact .head h
      | tail h => cases h
end
end stmts

theorem sight_iff : InSight src st ↔ ∀ i ∈ withNames (inSight st), SpanIn src i.span := by
  constructor
  · intro h i hi
    obtain ⟨s, hs, he⟩ := List.mem_filterMap.mp hi
    cases s with
    | var n c => cases he; exact h _ _ hs
    | _ => cases he
  · intro h n c hm
    exact h n (List.mem_filterMap.mpr ⟨_, hm, rfl⟩)

/-- Statements of a template panic only through an `include`. -/
theorem panicsAt {tree : Template → Tree} (htr : ∀ t, Includable cfg t → Parsed cfg.env t (tree t)) (left : Nat) :
    ∀ {src : Str} {name : Option Str} {ss : List Stmt} {st : Stack} {ρ : Scope}, src ≠ [] → StmtsIn src ss → Rel st ρ → InSight src st →
    ∀ {w : World σ} {a b : Nat}, stmtsAt asBuilt cfg bs (includeAt asBuilt cfg bs tree left) name src ρ ss w a .crash b →
    Unreadable cfg tree src ss (withNames (inSight st)) := by
  have body : ∀ (left : Nat) {src : Str} {name : Option Str} {n : AstString} {st : Stack} {ρ : Scope} {w w1 : World σ} {t : Template} {a b : Nat},
      (∀ {src : Str} {name : Option Str} {ss : List Stmt} {st : Stack} {ρ : Scope}, src ≠ [] → StmtsIn src ss → Rel st ρ → InSight src st →
        ∀ {w : World σ} {a b : Nat}, stmtsAt asBuilt cfg bs (includeAt asBuilt cfg bs tree left) name src ρ ss w a .crash b →
        Unreadable cfg tree src ss (withNames (inSight st))) →
      Rel st ρ → find cfg src n w = (w1, .ok t) →
      stmtsAt asBuilt cfg bs (includeAt asBuilt cfg bs tree left) name (tree t).source ρ (tree t).body w1 a .crash b →
      (∃ i ∈ withNames (inSight st), ¬ SpanIn (tree t).source i.span) ∨
        Unreadable cfg tree (tree t).source (tree t).body (withNames (inSight st)) := by
    intro left src name n st ρ w w1 t a b ih hr hf h
    have hT := htr t (find_includable hf)
    by_cases hv : InSight (tree t).source st
    · refine .inr ?_
      by_cases h0 : (tree t).source = []
      · rw [hT.empty h0, stmtsAt] at h; exact nomatch h.1
      · exact ih h0 hT.inside hr hv h
    · rw [sight_iff] at hv
      exact .inl (Classical.byContradiction fun hn => hv fun i hi => Classical.byContradiction fun hx => hn ⟨i, hi, hx⟩)
  have safe : ∀ {src : Str} {n : AstString} {w w1 : World σ}, src ≠ [] → SpanIn src n.span → find cfg src n w ≠ (w1, .crash) := by
    intro src n w w1 hne hn hg
    have : Safe (getTemplate cfg src n w).2 := by
      rw [getTemplate]
      split
      · dsimp only; split
        · exact .ok _
        · exact .err hne hn
      · dsimp only; split
        · exact .ok _
        · exact .err hne hn
    rw [find_eq, hg] at this
    exact this.not rfl
  induction left with
  | zero =>
    intro src name ss st ρ hne hi hr hs w a b h
    refine panics_stmtsAt hne (fun n x st ρ w a b hr hs hi h => ?_) ss hi hr hs h
    have never : ∀ ρ a b, SpanIn src n.span → ¬ includeAt asBuilt cfg bs tree 0 n src name ρ w a .crash b := by
      intro ρ a b hn h
      rw [includeAt.eq_def] at h
      dsimp only at h
      rcases hf : find cfg src n w with ⟨w1, r⟩
      rw [hf] at h
      cases r with
      | ok t => exact nomatch h.1
      | err e => exact nomatch h.1
      | crash => exact safe hne hn hf
    cases x with
    | none => rw [stmtAt] at h; exact absurd h (never _ _ _ hi)
    | some e =>
      rw [stmtAt] at h
      obtain ⟨r, c, h1, h⟩ := h
      obtain ⟨v, _, h⟩ := andThenAt_crash (safe_evalAt hne hr hs hi.2 h1) h
      exact absurd h (never _ _ _ hi.1)
  | succ left ih =>
    intro src name ss st ρ hne hi hr hs w a b h
    refine panics_stmtsAt hne (fun n x st ρ w a b hr hs hi h => ?_) ss hi hr hs h
    have found : ∀ {ρ a b}, SpanIn src n.span → includeAt asBuilt cfg bs tree (left + 1) n src name ρ w a .crash b →
        ∃ w1 t, find cfg src n w = (w1, .ok t) ∧ stmtsAt asBuilt cfg bs (includeAt asBuilt cfg bs tree left) (some n.name)
          (tree t).source ρ (tree t).body w1 a .crash b := by
      intro ρ a b hn h
      rw [includeAt.eq_def] at h
      dsimp only at h
      rcases hf : find cfg src n w with ⟨w1, r⟩
      rw [hf] at h
      cases r with
      | ok t => exact ⟨w1, t, rfl, h⟩
      | err e => exact nomatch h.1
      | crash => exact absurd hf (safe hne hn)
    cases x with
    | none =>
      rw [stmtAt] at h
      obtain ⟨w1, t, hf, h⟩ := found hi h
      rcases body left ih hr hf h with ⟨i, hi, hx⟩ | ho
      · exact .here (.head .here) hf (by simpa using hi) hx
      · exact .plain (.head .here) hf (by simpa using ho)
    | some e =>
      rw [stmtAt] at h
      obtain ⟨r, c, h1, h⟩ := h
      obtain ⟨v, _, h⟩ := andThenAt_crash (safe_evalAt hne hr hs hi.2 h1) h
      obtain ⟨w1, t, hf, h⟩ := found hi.1 h
      rcases body left ih (Rel.scope v (Rel.boundary hr)) hf h with ⟨i, hi, hx⟩ | ho
      · cases hi
      · exact .with_ (.head .here) hf ho

/-! What reaches the output. -/

section
open Escaping
variable {J : σ → Prop} {P : Str → Prop} {tree : Template → Tree} {q : Quirks} {S : Tree → Prop}

theorem afterAt_andThen {α : Type} {w : World σ} {r : Res α} {K : α → Timed (RunRes σ)} (h : J w.out) {a b : Nat} {res : RunRes σ}
    (hK : ∀ x, r = .ok x → K x a res b → Escaping.After J res) (ha : andThenAt name w r K a res b) : Escaping.After J res := by
  cases r with
  | ok x => exact hK x rfl ha
  | err e => rw [ha.1]; exact h
  | crash => rw [ha.1]; trivial

theorem afterAt_forEach {α : Type} {f : α → World σ → Timed (RunRes σ)}
    (hf : ∀ x w a res b, J w.out → f x w a res b → Escaping.After J res) (xs : List α) {w : World σ} (h : J w.out) {a b : Nat} {res : RunRes σ}
    (he : forEachAt f xs w a res b) : Escaping.After J res := by
  induction xs generalizing w a with
  | nil => rw [he.1]; exact h
  | cons x xs ih =>
    obtain ⟨r, c, ⟨c', d, _, h1, _⟩, h2⟩ := he
    have hr := hf _ _ _ _ _ h h1
    cases r with
    | ok w' => exact ih hr h2
    | err e w' => rw [h2.1]; exact hr
    | crash => rw [h2.1]; exact hr

variable (hJ : ∀ s t, J s → P t → J (cfg.sink.write s t).1) (hS : ∀ t, Sound S P (cfg.acting (bs t)) tree)
include hJ hS

theorem afterAt_emit {T : Tree} (hT : S T) {e : Expr} (he : e ∈ stmtsShown T.body) {w : World σ} (h : J w.out) {a b : Nat} {res : RunRes σ}
    (hh : emitAt q cfg bs name T.source ρ e w a res b) : Escaping.After J res := by
  rw [emitAt.eq_def] at hh
  dsimp only at hh
  split at hh
  · rename_i i recv sp
    obtain ⟨r, c, _, t, _, _, rfl⟩ := hh
    refine after_andThen _ h fun v _ => after_andThen _ h fun n hn => ?_
    split
    · rename_i f hf
      refine after_write (cfg := cfg.acting (bs t)) hJ ((hS t).named T hT n f ⟨i, recv, sp, he, ?_⟩ hf _) _ _ h
      cases hs : i.span.of T.source with
      | none => rw [hs] at hn; cases hn
      | some x => rw [hs] at hn; cases hn; rfl
    · exact after_andThen _ h fun r _ => after_write (cfg := cfg.acting (bs t)) hJ ((hS t).shown _) _ _ h
    · exact after_andThen _ h fun _ _ => trivial
  · obtain ⟨r, c, _, t, _, _, rfl⟩ := hh
    exact after_andThen _ h fun r _ => after_write (cfg := cfg.acting (bs t)) hJ ((hS t).shown _) _ _ h

section
variable {T : Tree} (hT : S T) {inc : IncludeAt σ}
  (hinc : ∀ n, HasInclude T n.name → ∀ src name ρ w a res b, J w.out → inc n src name ρ w a res b → Escaping.After J res)
include hT hinc

mutual
theorem afterAt_stmt (name : Option Str) (ρ : Scope) (s : Stmt) (h1 : ∀ sp ∈ stmtRaws s, sp ∈ stmtsRaws T.body)
    (h2 : ∀ e ∈ stmtShown s, e ∈ stmtsShown T.body) (h3 : ∀ n ∈ stmtIncludes s, n ∈ stmtsIncludes T.body) {w : World σ} (h : J w.out)
    {a b : Nat} {res : RunRes σ} (hh : stmtAt q cfg bs inc name T.source ρ s w a res b) : Escaping.After J res := by
  match s with
  | .raw sp =>
    rw [stmtAt, writeRaw] at hh
    rw [hh.1]
    refine after_andThen _ h fun t ht => ?_
    have hp : P t := by
      refine (hS 0).text T hT t ⟨sp, h1 sp (by simp [stmtRaws]), ?_⟩
      cases hs : sp.of T.source with
      | none => rw [hs] at ht; cases ht
      | some x => rw [hs] at ht; cases ht; rfl
    have := hJ w.out t h hp
    split <;> rename_i e <;> rw [e] at this <;> exact this
  | .inlineExpr e sp => rw [stmtAt] at hh; exact afterAt_emit hJ hS hT (h2 e (by simp [stmtShown])) h hh
  | .include_ n none => rw [stmtAt] at hh; exact hinc n ⟨n, h3 n (by simp [stmtIncludes]), rfl⟩ _ _ _ _ _ _ _ h hh
  | .include_ n (some e) =>
    rw [stmtAt] at hh
    obtain ⟨r, c, _, hh⟩ := hh
    exact afterAt_andThen h (fun v _ hh => hinc n ⟨n, h3 n (by simp [stmtIncludes]), rfl⟩ _ _ _ _ _ _ _ h hh) hh
  | .ifElse neg c t none =>
    rw [stmtAt] at hh
    obtain ⟨r, c, _, hh⟩ := hh
    refine afterAt_andThen h (fun v _ hh => ?_) hh
    simp only [stmtRaws, stmtShown, stmtIncludes] at h1 h2 h3
    split at hh
    · exact afterAt_stmts name ρ t h1 h2 h3 h hh
    · rw [hh.1]; exact h
  | .ifElse neg c t (some f) =>
    rw [stmtAt] at hh
    obtain ⟨r, c, _, hh⟩ := hh
    refine afterAt_andThen h (fun v _ hh => ?_) hh
    simp only [stmtRaws, stmtShown, stmtIncludes, List.mem_append] at h1 h2 h3
    split at hh
    · exact afterAt_stmts name ρ t (fun x hx => h1 x (.inl hx)) (fun x hx => h2 x (.inl hx)) (fun x hx => h3 x (.inl hx)) h hh
    · exact afterAt_stmts name ρ f (fun x hx => h1 x (.inr hx)) (fun x hx => h2 x (.inr hx)) (fun x hx => h3 x (.inr hx)) h hh
  | .forLoop vs e body =>
    rw [stmtAt] at hh
    obtain ⟨r, c, _, hh⟩ := hh
    simp only [stmtRaws, stmtShown, stmtIncludes] at h1 h2 h3
    exact afterAt_andThen h (fun v _ hh => afterAt_andThen h (fun rs _ hh =>
      afterAt_forEach (fun x w a res b h hh => afterAt_stmts name (x :: ρ) body h1 h2 h3 h hh) rs h hh) hh) hh
  | .with_ e n body =>
    rw [stmtAt] at hh
    obtain ⟨r, c, _, hh⟩ := hh
    simp only [stmtRaws, stmtShown, stmtIncludes] at h1 h2 h3
    exact afterAt_andThen h (fun v _ hh => afterAt_stmts name _ body h1 h2 h3 h hh) hh
theorem afterAt_stmts (name : Option Str) (ρ : Scope) (ss : List Stmt) (h1 : ∀ sp ∈ stmtsRaws ss, sp ∈ stmtsRaws T.body)
    (h2 : ∀ e ∈ stmtsShown ss, e ∈ stmtsShown T.body) (h3 : ∀ n ∈ stmtsIncludes ss, n ∈ stmtsIncludes T.body) {w : World σ} (h : J w.out)
    {a b : Nat} {res : RunRes σ} (hh : stmtsAt q cfg bs inc name T.source ρ ss w a res b) : Escaping.After J res := by
  match ss with
  | [] => rw [stmtsAt] at hh; rw [hh.1]; exact h
  | s :: ss =>
    rw [stmtsAt] at hh
    simp only [stmtsRaws, stmtsShown, stmtsIncludes, List.mem_append] at h1 h2 h3
    obtain ⟨r, c, ⟨c', d, _, g1, _⟩, g2⟩ := hh
    have hr := afterAt_stmt name ρ s (fun x hx => h1 x (.inl hx)) (fun x hx => h2 x (.inl hx)) (fun x hx => h3 x (.inl hx)) h g1
    cases r with
    | ok w' => exact afterAt_stmts name ρ ss (fun x hx => h1 x (.inr hx)) (fun x hx => h2 x (.inr hx)) (fun x hx => h3 x (.inr hx)) hr g2
    | err e w' => rw [g2.1]; exact hr
    | crash => rw [g2.1]; exact hr
end
end

theorem afterAt_include (left : Nat) : ∀ {T : Tree}, S T → ∀ n, HasInclude T n.name → ∀ src name ρ w a res b, J w.out →
    includeAt q cfg bs tree left n src name ρ w a res b → Escaping.After J res := by
  induction left with
  | zero =>
    intro T hT n hn src name ρ w a res b h hh
    rw [includeAt.eq_def] at hh
    dsimp only at hh
    have := (after_find (cfg := cfg.acting (bs 0)) hJ (hS 0) hT hn src w).1
    rw [show find (cfg.acting (bs 0)) src n w = find cfg src n w from rfl] at this
    rcases hf : find cfg src n w with ⟨w', r⟩
    rw [hf] at hh this
    cases r with
    | ok t => rw [hh.1]; show J w'.out; rw [this]; exact h
    | err e => rw [hh.1]; show J w'.out; rw [this]; exact h
    | crash => rw [hh.1]; trivial
  | succ left ih =>
    intro T hT n hn src name ρ w a res b h hh
    rw [includeAt.eq_def] at hh
    dsimp only at hh
    obtain ⟨k1, k2⟩ := after_find (cfg := cfg.acting (bs 0)) hJ (hS 0) hT hn src w
    rw [show find (cfg.acting (bs 0)) src n w = find cfg src n w from rfl] at k1 k2
    rcases hf : find cfg src n w with ⟨w', r⟩
    rw [hf] at hh k1 k2
    cases r with
    | ok t =>
      have hU := k2 t rfl
      exact afterAt_stmts hJ hS hU (fun n hn src name ρ w a res b h hh => ih hU n hn src name ρ w a res b h hh) _ _ _ (fun _ h => h)
        (fun _ h => h) (fun _ h => h) (by rw [k1]; exact h) hh
    | err e => rw [hh.1]; show J w'.out; rw [k1]; exact h
    | crash => rw [hh.1]; trivial

theorem afterAt_render {T : Tree} (hT : S T) (name : Option Str) (ρ : Scope) {w : World σ} (h : J w.out) {a b : Nat} {res : RunRes σ}
    (hh : renderAt q cfg bs tree T name ρ w a res b) : Escaping.After J res :=
  afterAt_stmts hJ hS hT (afterAt_include hJ hS _ hT) _ _ _ (fun _ h => h) (fun _ h => h) (fun _ h => h) h hh

end

/-! Functions that always behave the same. -/

section
variable {act : Behaviour} {q : Quirks}

theorem eval_same {e : Expr} {a b : Nat} {r : Res Cow} (h : evalAt q cfg (fun _ => act) src ρ e a r b) :
    r = evalExpr q (cfg.acting act) src (Scope.acting act ρ) e := by
  induction e generalizing r b with
  | base x => obtain ⟨t, _, _, rfl⟩ := h; rfl
  | call fn args recv sp ih => obtain ⟨v, c, hv, t, _, _, rfl⟩ := h; rw [ih hv]; rfl

theorem emit_same {e : Expr} {w : World σ} {a b : Nat} {res : RunRes σ} (h : emitAt q cfg (fun _ => act) name src ρ e w a res b) :
    res = emitExpr q (cfg.acting act) name src (Scope.acting act ρ) e w := by
  rw [emitAt.eq_def] at h
  dsimp only at h
  split at h
  · obtain ⟨r, c, h1, t, _, _, rfl⟩ := h; rw [eval_same h1]; rfl
  · next hne =>
    obtain ⟨r, c, h1, t, _, _, rfl⟩ := h
    rw [eval_same h1, emitExpr.eq_def]
    split
    · exact absurd rfl (hne _ _ _)
    · rfl

theorem andThen_same {α : Type} {w : World σ} {r : Res α} {K : α → Timed (RunRes σ)} {k : α → RunRes σ} {a b : Nat} {res : RunRes σ}
    (hK : ∀ x, r = .ok x → K x a res b → res = k x) (h : andThenAt name w r K a res b) : res = andThen name w r k := by
  cases r with
  | ok x => exact hK x rfl h
  | err e => exact h.1
  | crash => exact h.1

theorem forEach_same {α : Type} {f : α → World σ → Timed (RunRes σ)} {g : α → World σ → RunRes σ} {xs : List α}
    (hf : ∀ x ∈ xs, ∀ w a res b, f x w a res b → res = g x w) {w : World σ} {a b : Nat} {res : RunRes σ} (h : forEachAt f xs w a res b) :
    res = forEach g xs w := by
  induction xs generalizing w a with
  | nil => exact h.1
  | cons x xs ih =>
    obtain ⟨r, c, ⟨c', d, _, h1, _⟩, h2⟩ := h
    rw [forEach, ← hf x (by simp) _ _ _ _ h1]
    cases r with
    | ok w' => exact ih (fun x hx => hf x (by simp [hx])) h2
    | err e w' => exact h2.1
    | crash => exact h2.1

theorem listRounds_acting {n : Str} {o : Bool} {i : Nat} {l : List Value} {x : Binding} (h : x ∈ listRounds n o i l) : x.acting act = x := by
  induction l generalizing i with
  | nil => cases h
  | cons v l ih =>
    rw [listRounds] at h
    rcases List.mem_cons.mp h with rfl | h
    · rfl
    · exact ih h

theorem mapRounds_acting {k v : Str} {o : Bool} {i : Nat} {l : List (Str × Value)} {x : Binding} (h : x ∈ mapRounds k v o i l) :
    x.acting act = x := by
  induction l generalizing i with
  | nil => cases h
  | cons y l ih =>
    obtain ⟨key, y⟩ := y
    rw [mapRounds] at h
    rcases List.mem_cons.mp h with rfl | h
    · rfl
    · exact ih h

theorem rounds_acting {vars : LoopVars} {v : Cow} {sp : Span} {rs : List Binding} {env : Env} (h : rounds env src vars v sp = .ok rs) {x : Binding}
    (hx : x ∈ rs) : x.acting act = x := by
  rw [rounds.eq_def] at h
  split at h
  · obtain ⟨n, _, h⟩ := bind_ok' h
    cases h
    exact listRounds_acting hx
  · exact absurd h errRender_ok
  · obtain ⟨n, _, h⟩ := bind_ok' h
    obtain ⟨n', _, h⟩ := bind_ok' h
    cases h
    exact mapRounds_acting hx
  · exact absurd h errRender_ok
  · exact absurd h errRender_ok

section
variable {inc : IncludeAt σ} {inc' : Include σ}
  (hinc : ∀ n src name ρ w a res b, inc n src name ρ w a res b → res = inc' n src name (Scope.acting act ρ) w)
include hinc

mutual
theorem stmt_same (ρ : Scope) (s : Stmt) {w : World σ} {a b : Nat} {res : RunRes σ}
    (h : stmtAt q cfg (fun _ => act) inc name src ρ s w a res b) :
    res = evalStmt q (cfg.acting act) inc' name src (Scope.acting act ρ) s w := by
  match s with
  | .raw sp => rw [stmtAt] at h; exact h.1
  | .inlineExpr e sp => rw [stmtAt] at h; rw [evalStmt]; exact emit_same h
  | .include_ n none => rw [stmtAt] at h; rw [evalStmt]; exact hinc _ _ _ _ _ _ _ _ h
  | .include_ n (some e) =>
    rw [stmtAt] at h; rw [evalStmt]
    obtain ⟨r, c, h1, h⟩ := h
    rw [← eval_same h1]
    exact andThen_same (fun v _ h => hinc _ _ _ _ _ _ _ _ h) h
  | .ifElse neg cond th none =>
    rw [stmtAt] at h; rw [evalStmt]
    obtain ⟨r, c, h1, h⟩ := h
    rw [← eval_same h1]
    refine andThen_same (fun v _ h => ?_) h
    split at h
    · next hb => rw [if_pos hb]; exact stmts_same ρ th h
    · next hb => rw [if_neg hb]; exact h.1
  | .ifElse neg cond th (some el) =>
    rw [stmtAt] at h; rw [evalStmt]
    obtain ⟨r, c, h1, h⟩ := h
    rw [← eval_same h1]
    refine andThen_same (fun v _ h => ?_) h
    split at h
    · next hb => rw [if_pos hb]; exact stmts_same ρ th h
    · next hb => rw [if_neg hb]; exact stmts_same ρ el h
  | .forLoop vars e body =>
    rw [stmtAt] at h; rw [evalStmt]
    obtain ⟨r, c, h1, h⟩ := h
    rw [← eval_same h1]
    refine andThen_same (fun v _ h => andThen_same (fun rs hrs h => forEach_same (fun x hx w a res b h => ?_) h) h) h
    have := stmts_same (x :: ρ) body h
    rwa [show Scope.acting act (x :: ρ) = x.acting act :: Scope.acting act ρ from rfl, rounds_acting hrs hx] at this
  | .with_ e n body =>
    rw [stmtAt] at h; rw [evalStmt]
    obtain ⟨r, c, h1, h⟩ := h
    rw [← eval_same h1]
    exact andThen_same (fun v _ h => stmts_same (.name (withName q src n) v :: ρ) body h) h
theorem stmts_same (ρ : Scope) (ss : List Stmt) {w : World σ} {a b : Nat} {res : RunRes σ}
    (h : stmtsAt q cfg (fun _ => act) inc name src ρ ss w a res b) :
    res = evalStmts q (cfg.acting act) inc' name src (Scope.acting act ρ) ss w := by
  match ss with
  | [] => rw [stmtsAt] at h; exact h.1
  | s :: ss =>
    rw [stmtsAt] at h
    obtain ⟨r, c, ⟨c', d, _, h1, _⟩, h2⟩ := h
    rw [evalStmts, ← stmt_same ρ s h1]
    cases r with
    | ok w' => exact stmts_same ρ ss h2
    | err e w' => exact h2.1
    | crash => exact h2.1
end
end

theorem include_same {tree : Template → Tree} (left : Nat) : ∀ n src name ρ w a res b,
    includeAt q cfg (fun _ => act) tree left n src name ρ w a res b →
    res = include_ q (cfg.acting act) tree left n src name (Scope.acting act ρ) w := by
  induction left with
  | zero =>
    intro n src name ρ w a res b h
    rw [includeAt.eq_def] at h
    rw [include_]
    dsimp only at h
    rw [show find (cfg.acting act) src n w = find cfg src n w from rfl]
    rcases hf : find cfg src n w with ⟨w', r⟩
    rw [hf] at h
    cases r <;> exact h.1
  | succ left ih =>
    intro n src name ρ w a res b h
    rw [includeAt.eq_def] at h
    rw [include_]
    dsimp only at h
    rw [show find (cfg.acting act) src n w = find cfg src n w from rfl]
    rcases hf : find cfg src n w with ⟨w', r⟩
    rw [hf] at h
    cases r with
    | ok t => exact stmts_same ih _ _ h
    | err e => exact h.1
    | crash => exact h.1

theorem render_same {tree : Template → Tree} {T : Tree} {w : World σ} {a b : Nat} {res : RunRes σ}
    (h : renderAt q cfg (fun _ => act) tree T name ρ w a res b) :
    res = render q (cfg.acting act) tree T name (Scope.acting act ρ) w := stmts_same (include_same _) _ _ h

end
end Eff
end Upon
