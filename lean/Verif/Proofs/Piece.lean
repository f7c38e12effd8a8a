import Verif.Proofs.SimStmt
import Verif.Spec.Rendering
import Verif.Props.Parsing
/-
Pieces of templates: what the machine does with a list of statements, on any stack.
-/
namespace Upon
open Spec Compiler
variable {σ : Type}

theorem rel_exists {st : Stack} (h : InRound st) : ∃ ρ, Rel st ρ := by
  induction st with
  | nil => exact ⟨[], .nil⟩
  | cons s st ih =>
    obtain ⟨ρ, hr⟩ := ih (fun ls hm => h ls (List.mem_cons_of_mem _ hm))
    cases s with
    | valueFn f => exact ⟨_, .valueFn f hr⟩
    | scope c => exact ⟨_, .scope c hr⟩
    | var n c => exact ⟨_, .var n c hr⟩
    | boundary => exact ⟨_, .boundary hr⟩
    | loop ls =>
      have := h ls List.mem_cons_self
      cases ls with
      | list o i n rem v =>
        rcases v with _ | ⟨k, x⟩
        · exact absurd rfl this
        · exact ⟨_, .list o i n rem k x hr⟩
      | map o kn vn n rem v =>
        rcases v with _ | ⟨k, s, x⟩
        · exact absurd rfl this
        · exact ⟨_, .map o kn vn n rem k s x hr⟩

theorem inRound_nil : InRound [] := fun _ h => by cases h

theorem inRound_cons {s : SState} {st : Stack} (h : InRound st) (hs : ∀ ls, s = .loop ls → ls.indexAndRem ≠ none) :
    InRound (s :: st) := by
  intro ls hm
  rcases List.mem_cons.mp hm with e | hm
  · exact hs ls e.symm
  · exact h ls hm

theorem compiled_parsed {env : Env} {t : Template} (h : Compiled env t) : ∃ T, Parsed env t T := by
  obtain ⟨b, a, src, s, hw, hc⟩ := h
  obtain ⟨ts, ast, h1, h2, h3⟩ := (C09_grammar s hw t).mp hc
  exact ⟨⟨src, ast⟩, b, a, ts, s, hw, hc, h1, h2⟩

theorem Spec.Parsed.code {env : Env} {t : Template} {T : Tree} (h : Parsed env t T) :
    compileTemplate T.source T.body = some t := by
  obtain ⟨b, a, ts, s, hw, hc, h1, h2⟩ := h
  obtain ⟨ts', ast, h1', h2', h3⟩ := (C09_grammar s hw t).mp hc
  have e := C09_tokens_unique s hw h1 h1'
  subst e
  have e := C09_tree_unique s hw h1 h2 h2'
  dsimp only at h3
  rw [e]; exact h3

theorem Spec.Parsed.source {env : Env} {t : Template} {T : Tree} (h : Parsed env t T) : T.source = t.source := by
  have := h.code
  rw [compileTemplate_eq] at this
  exact congrArg Template.source (Option.some.inj this)

theorem trees_exist {cfg : RenderCfg σ} (h : AllCompiled cfg) :
    ∃ tree : Template → Tree, ∀ t, Includable cfg t → Parsed cfg.env t (tree t) := by
  classical
  refine ⟨fun t => if h' : Includable cfg t then (compiled_parsed (h t h')).choose else ⟨[], []⟩, fun t ht => ?_⟩
  dsimp only
  rw [dif_pos ht]
  exact (compiled_parsed (h t ht)).choose_spec

theorem trees_of_parsed {cfg : RenderCfg σ} {tree : Template → Tree}
    (h : ∀ t, Includable cfg t → Parsed cfg.env t (tree t)) : Trees cfg tree :=
  fun t ht => (h t ht).code

theorem valueOf_eq (cfg : RenderCfg σ) (src : Str) {st : Stack} {ρ : Scope} (h : Rel st ρ) (e : Expr) :
    valueOf cfg src st e = evalExpr asBuilt cfg src ρ e := by
  induction e with
  | base b =>
    cases b with
    | var v => rw [valueOf, evalExpr, evalBase, lookupVar_eq _ _ h]
    | lit l => rfl
  | call name args recv sp ih =>
    rw [valueOf, evalExpr, ih]
    congr 1; funext v
    congr 1; funext n
    cases BMap.get cfg.functions n with
    | none => rfl
    | some f => cases f with
      | formatter f => rfl
      | filter f => dsimp only; rw [callFilter_eq _ _ _ h]

/-- The templates below have nothing to do. -/
theorem idle_halts {cfg : RenderCfg σ} (k : Nat) (hk : k ≤ max 1 cfg.maxIncludeDepth) (st : Stack) (w : World σ) :
    Halts cfg ⟨List.replicate k idle, st, none, w⟩ (.ok w) := by
  induction k with
  | zero => exact Halts.one rfl
  | succ k ih =>
    refine Steps.halts (Steps.one ?_) (ih (by omega))
    have : ¬ (k > cfg.maxIncludeDepth) := by omega
    simp [List.replicate_succ, idle, step, checkDepth, this]

/-- The meaning of a piece. -/
theorem piece_iff {cfg : RenderCfg σ} {tree : Template → Tree} (ht : Trees cfg tree) {st : Stack} {ρ : Scope}
    (hr : Rel st ρ) {k : Nat} (hk : k + 1 ≤ max 1 cfg.maxIncludeDepth) (name : Option Str) (src : Str) (ss : List Stmt)
    (w : World σ) (res : RunRes σ) :
    Piece cfg k name src ss st w res ↔
      res = evalStmts asBuilt cfg (include_ asBuilt cfg tree (max 1 cfg.maxIncludeDepth - 1 - k)) name src ρ ss w := by
  have hc : compileTemplate src ss = some ⟨src, codeStmts 0 ss⟩ := compileTemplate_eq _ _
  have key : Halts cfg ⟨⟨⟨src, codeStmts 0 ss⟩, name, 0, false⟩ :: List.replicate k idle, st, none, w⟩
      (evalStmts asBuilt cfg (include_ asBuilt cfg tree (max 1 cfg.maxIncludeDepth - 1 - k)) name src ρ ss w) := by
    have := stmts_does (name := name) (hs := false) (fs := List.replicate k idle)
      (include_does ht (max 1 cfg.maxIncludeDepth - 1 - k) (List.replicate k idle) (by simp; omega)) ss hr
      (t := ⟨src, codeStmts 0 ss⟩) (pc := 0) ⟨[], [], by simp, rfl⟩ w
    revert this
    dsimp only
    cases evalStmts asBuilt cfg (include_ asBuilt cfg tree (max 1 cfg.maxIncludeDepth - 1 - k)) name src ρ ss w with
    | ok w =>
      intro h
      refine Steps.halts h ?_
      refine Steps.halts (Steps.one (b := ⟨List.replicate k idle, st, none, w⟩) ?_) (idle_halts k (by omega) st w)
      have : ¬ (k > cfg.maxIncludeDepth) := by omega
      simp [step, checkDepth, this]
    | err e w => exact id
    | crash => exact id
  constructor
  · rintro ⟨t, h1, h2⟩
    rw [hc] at h1
    cases h1
    exact h2.unique key
  · rintro rfl
    exact ⟨_, hc, key⟩

end Upon
