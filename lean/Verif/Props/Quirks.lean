import Verif.Props.NoCrash
import Verif.Proofs.Demo
import Verif.Spec.Apart
/-
C14, C16, C21, C24: where the code deviates from its documented meaning, and that it does so nowhere else.
-/
namespace Upon
open Spec Compiler
variable {σ : Type} {cfg : RenderCfg σ} {name : Option Str} {src : Str}

/-- **C14** The unrestricted claim is false: rendering `{% with a as longname %}{% include "d" %}{% endwith %}`,
where `d` is `{{ a }}`, panics. -/
theorem C14_false_with_include : ∃ r : Renderer, Healthy asciiEnv r ∧ r.template.source =
      "{% with a as longname %}{% include \"d\" %}{% endwith %}".toList ∧
    (∃ t, r.engine.getTemplate ['d'] = some t ∧ t.source = "{{ a }}".toList) ∧ r.ToString asciiEnv .crash := by
  obtain ⟨a, _⟩ := default_setup asciiEnv []
  refine ⟨Demo.renderer a 64 Demo.c none (Demo.globals [("a", .integer 1)]), Demo.healthy _ _ (by simp [Demo.all]) _ _, rfl,
    ⟨_, rfl, rfl⟩, .crash _ rfl (Demo.halts (n := 20) ?_)⟩
  decide +kernel

/-- **C21** The claim is false for variables bound by `with`: rendering
`{% with a as b %}{% include "f" %}{% endwith %}`, where `f` is `          {{ z }}`, with `a = 1` and `z = 2`,
writes the value of `a` for `z`. -/
theorem C21_false_with : ∃ r : Renderer, Healthy asciiEnv r ∧ r.template.source =
      "{% with a as b %}{% include \"f\" %}{% endwith %}".toList ∧
    (∃ t, r.engine.getTemplate ['f'] = some t ∧ t.source = "          {{ z }}".toList) ∧
    r.globals = .borrowed (.map [(['a'], .integer 1), (['z'], .integer 2)]) ∧
    r.ToString asciiEnv (.ok "          1".toList) := by
  obtain ⟨a, _⟩ := default_setup asciiEnv []
  refine ⟨Demo.renderer a 64 Demo.e none (Demo.globals [("a", .integer 1), ("z", .integer 2)]), Demo.healthy _ _ (by simp [Demo.all]) _ _, rfl,
    ⟨_, rfl, rfl⟩, rfl, .ok _ ⟨_, []⟩ rfl (Demo.halts (n := 20) ?_)⟩
  decide +kernel

/-- **C24** An optional access to a loop variable that finds nothing does not give none: the name is looked up
again outside the loop. Rendering `{% for u in us %}{{ u?.m }}{% endfor %}` with one empty map in `us` writes
what `u.m` is outside. -/
theorem C24_false_loop_optional : ∃ r : Renderer, Healthy asciiEnv r ∧ r.template.source =
      "{% for u in us %}{{ u?.m }}{% endfor %}".toList ∧
    r.globals = .borrowed (.map [(['u'], .map [(['m'], .integer 7)]), (['u', 's'], .list [.map []])]) ∧
    r.ToString asciiEnv (.ok "7".toList) := by
  obtain ⟨a, _⟩ := default_setup asciiEnv []
  refine ⟨Demo.renderer a 64 Demo.g none (Demo.globals [("u", Demo.globals [("m", .integer 7)]), ("us", .list [Demo.globals []])]),
    Demo.healthy _ _ (by simp [Demo.all]) _ _, rfl, rfl, .ok _ ⟨_, []⟩ rfl (Demo.halts (n := 20) ?_)⟩
  decide +kernel

/-! Elsewhere the two meanings agree -/

section agree
variable {L : Str → Prop}

/-- The same bindings, seen from the source `src`. -/
inductive Agree (L : Str → Prop) (src : Str) : Scope → Scope → Prop
  | nil : Agree L src [] []
  | globals {c ρ ρ'} : Agree L src ρ ρ' → Agree L src (.globals c :: ρ) (.globals c :: ρ')
  | provider {f ρ ρ'} : Agree L src ρ ρ' → Agree L src (.provider f :: ρ) (.provider f :: ρ')
  | name {n n' c ρ ρ'} : n src = n' src → Agree L src ρ ρ' → Agree L src (.name n c :: ρ) (.name n' c :: ρ')
  | item {n c i a ρ ρ'} : L n → Agree L src ρ ρ' → Agree L src (.item n c i a :: ρ) (.item n c i a :: ρ')
  | entry {kn vn k c i a ρ ρ'} : L vn → Agree L src ρ ρ' → Agree L src (.entry kn vn k c i a :: ρ) (.entry kn vn k c i a :: ρ')

/-- No `with` variable. -/
def NoNames (ρ : Scope) : Prop := ∀ n c, Binding.name n c ∉ ρ

theorem Agree.other {ρ ρ' : Scope} (h : Agree L src ρ ρ') (hn : NoNames ρ) (src' : Str) : Agree L src' ρ ρ' := by
  induction h with
  | nil => exact .nil
  | globals _ ih => exact .globals (ih fun n c h => hn n c (by simp [h]))
  | provider _ ih => exact .provider (ih fun n c h => hn n c (by simp [h]))
  | name _ _ ih => exact absurd (List.mem_cons_self) (hn _ _)
  | item h _ ih => exact .item h (ih fun n c h => hn n c (by simp [h]))
  | entry h _ ih => exact .entry h (ih fun n c h => hn n c (by simp [h]))

theorem followItem_agree (env : Env) (c : Cow) {v : Var} (hv : VarApart L src v) {n : Str}
    (hn : v.first.access.span.of src = some n) (hL : L n) :
    followItem asBuilt env src c v.rest = followItem documented env src c v.rest := by
  have hd : ∀ m ∈ v.rest, m.op = .direct := by
    intro m hm
    cases ho : m.op with
    | direct => rfl
    | optional => exact absurd hL (hv ⟨m, hm, ho⟩ n hn)
  have := follow_direct (env := env) (src := src) (v := c.val) hd
  rw [followItem, followItem]
  cases hf : follow env src c.val v.rest with
  | ok o =>
    cases o with
    | some x => rfl
    | none => exact absurd hf this
  | err e => rfl
  | crash => rfl

theorem resolve_agree (env : Env) {ρ ρ' : Scope} (h : Agree L src ρ ρ') {v : Var} (hv : VarApart L src v) :
    resolve asBuilt env src ρ v = resolve documented env src ρ' v := by
  induction h with
  | nil => rfl
  | globals _ ih => rw [resolve, resolve, ih]; rfl
  | provider _ ih => rw [resolve, resolve, ih]; rfl
  | name hn _ ih =>
    rw [resolve, resolve, ih]
    simp only [Binding.get, hn]
  | @item n c i a _ _ hL _ ih =>
    rw [resolve, resolve, ih]
    congr 1
    simp only [Binding.get]
    cases ha : v.first.access with
    | index _ => rfl
    | key k =>
      dsimp only
      cases hk : k.span.of src with
      | none => rfl
      | some s =>
        simp only [Res.ofOption, Res.ok_bind]
        by_cases h1 : s = "loop".toList
        · rw [if_pos h1, if_pos h1]
        · rw [if_neg h1, if_neg h1]
          by_cases h2 : s = n
          · rw [if_pos h2, if_pos h2, followItem_agree env c hv (n := s) (by rw [ha]; exact hk) (h2 ▸ hL)]
          · rw [if_neg h2, if_neg h2]
  | @entry kn vn k c i a _ _ hL _ ih =>
    rw [resolve, resolve, ih]
    congr 1
    simp only [Binding.get]
    cases ha : v.first.access with
    | index _ => rfl
    | key k =>
      dsimp only
      cases hk : k.span.of src with
      | none => rfl
      | some s =>
        simp only [Res.ofOption, Res.ok_bind]
        by_cases h1 : s = "loop".toList
        · rw [if_pos h1, if_pos h1]
        · rw [if_neg h1, if_neg h1]
          by_cases h3 : s = kn
          · rw [if_pos h3, if_pos h3]
          · rw [if_neg h3, if_neg h3]
            by_cases h2 : s = vn
            · rw [if_pos h2, if_pos h2, followItem_agree env c hv (n := s) (by rw [ha]; exact hk) (h2 ▸ hL)]
            · rw [if_neg h2, if_neg h2]

theorem evalArgs_agree (env : Env) {ρ ρ' : Scope} (h : Agree L src ρ ρ') (ts : List ArgTy) {as : List BaseExpr}
    (ha : ∀ x ∈ as, BaseApart L src x) : evalArgs asBuilt env src ρ ts as = evalArgs documented env src ρ' ts as := by
  induction ts generalizing as with
  | nil => rfl
  | cons t ts ih =>
    cases as with
    | nil => rfl
    | cons a as =>
      rw [evalArgs, evalArgs, ih fun x h => ha x (by simp [h])]
      congr 1
      cases a with
      | lit l => rfl
      | var v => rw [evalArg, evalArg, resolve_agree env h (ha (.var v) (by simp))]

theorem applyFilter_agree (env : Env) {ρ ρ' : Scope} (h : Agree L src ρ ρ') (f : Filter) (n : Ident) (v : Cow) {as : List BaseExpr}
    (ha : ∀ x ∈ as, BaseApart L src x) : applyFilter asBuilt env src ρ f n v as = applyFilter documented env src ρ' f n v as := by
  rw [applyFilter, applyFilter, evalArgs_agree env h f.args ha]

theorem evalExpr_agree {ρ ρ' : Scope} (h : Agree L src ρ ρ') {e : Expr} (he : ExprApart L src e) :
    evalExpr asBuilt cfg src ρ e = evalExpr documented cfg src ρ' e := by
  induction e with
  | base b => cases b with
    | var v => exact resolve_agree _ h he
    | lit l => rfl
  | call name args recv sp ih =>
    rw [evalExpr, evalExpr, ih he.2]
    congr 1; funext v; congr 1; funext n
    cases BMap.get cfg.functions n with
    | none => rfl
    | some f => cases f with
      | formatter f => rfl
      | filter f =>
        dsimp only
        rw [applyFilter_agree cfg.env h f name v (as := (args.map Args.values).getD []) (by
          intro x hx
          cases args with
          | none => cases hx
          | some a => exact he.1 a rfl x hx)]

theorem emitExpr_agree {ρ ρ' : Scope} (h : Agree L src ρ ρ') {e : Expr} (he : ExprApart L src e) (w : World σ) :
    emitExpr asBuilt cfg name src ρ e w = emitExpr documented cfg name src ρ' e w := by
  cases e with
  | base b => rw [emitExpr, emitExpr, evalExpr_agree h he]; all_goals simp
  | call fn args recv sp =>
    cases args with
    | some a => rw [emitExpr, emitExpr, evalExpr_agree h he]; all_goals simp
    | none =>
      rw [emitExpr, emitExpr, evalExpr_agree h he.2]
      congr 1; funext v; congr 1; funext n
      cases BMap.get cfg.functions n with
      | none => rfl
      | some f => cases f with
        | formatter f => rfl
        | filter f => dsimp only; rw [applyFilter_agree cfg.env h f fn v (as := []) (by simp)]

theorem noNames_cons {b : Binding} {ρ : Scope} (h : NoNames ρ) (hb : ∀ n c, b ≠ .name n c) : NoNames (b :: ρ) := by
  intro n c hm
  rcases List.mem_cons.mp hm with e | hm
  · exact hb n c e.symm
  · exact h n c hm

theorem rounds_agree {env : Env} {vars : LoopVars} (hv : LoopNames L src vars) {c : Cow} {sp : Span} {bs : List Binding}
    (h : rounds env src vars c sp = .ok bs) {ρ ρ' : Scope} (ha : Agree L src ρ ρ') : ∀ b ∈ bs, Agree L src (b :: ρ) (b :: ρ') ∧
      ∀ n c, b ≠ .name n c := by
  rw [rounds.eq_def] at h
  split at h
  · obtain ⟨n, hn, h⟩ := bind_ok' h
    cases h
    have hn := ofOption_ok hn
    intro b hb
    obtain ⟨j, hj⟩ := List.mem_iff_getElem?.mp hb
    rw [listRounds_get] at hj
    obtain ⟨x, _, rfl⟩ := Option.map_eq_some_iff.mp hj
    exact ⟨.item (hv n hn) ha, fun _ _ h => by cases h⟩
  · exact absurd h errRender_ok
  · obtain ⟨kn, hk, h⟩ := bind_ok' h
    obtain ⟨vn, hn, h⟩ := bind_ok' h
    cases h
    have hn := ofOption_ok hn
    intro b hb
    obtain ⟨j, hj⟩ := List.mem_iff_getElem?.mp hb
    rw [mapRounds_get] at hj
    obtain ⟨x, _, rfl⟩ := Option.map_eq_some_iff.mp hj
    exact ⟨.entry (hv vn hn) ha, fun _ _ h => by cases h⟩
  · exact absurd h errRender_ok
  · exact absurd h errRender_ok

theorem forEach_agree (bs : List Binding) (f g : Binding → World σ → RunRes σ) (h : ∀ b ∈ bs, ∀ w, f b w = g b w)
    (w : World σ) : forEach f bs w = forEach g bs w := by
  induction bs generalizing w with
  | nil => rfl
  | cons b bs ih =>
    rw [forEach, forEach, h b (by simp)]
    congr 1; funext w
    exact ih (fun b hm => h b (by simp [hm])) w

theorem loop_agree (r : Res (List Binding)) (f g : Binding → World σ → RunRes σ)
    (h : ∀ bs, r = .ok bs → ∀ b ∈ bs, ∀ w, f b w = g b w) (w : World σ) :
    andThen name w r (fun bs => forEach f bs w) = andThen name w r (fun bs => forEach g bs w) := by
  cases r with
  | err e => rfl
  | crash => rfl
  | ok bs => exact forEach_agree bs f g (h bs rfl) w

variable {inc inc' : Include σ}
  (hplain : ∀ n src name ρ ρ' w, Agree L src ρ ρ' → NoNames ρ → inc n src name ρ w = inc' n src name ρ' w)
  (hwall : ∀ n src name v ρ ρ' w, inc n src name (.globals v :: .wall :: ρ) w = inc' n src name (.globals v :: .wall :: ρ') w)
include hplain hwall

mutual
theorem evalStmt_agree (s : Stmt) {ρ ρ' : Scope} (h : Agree L src ρ ρ') (ha : StmtApart L src s) (ht : TameStmt s)
    (hw : NoNames ρ ∨ ∀ n, ¬ Contains s n none) (w : World σ) :
    evalStmt asBuilt cfg inc name src ρ s w = evalStmt documented cfg inc' name src ρ' s w := by
  match s with
  | .raw sp => rw [evalStmt, evalStmt]
  | .inlineExpr e sp => rw [evalStmt, evalStmt]; exact emitExpr_agree h ha w
  | .include_ n none =>
    rw [evalStmt, evalStmt]
    refine hplain _ _ _ _ _ _ h ?_
    rcases hw with h | h
    · exact h
    · exact absurd .here (h n)
  | .include_ n (some e) =>
    rw [evalStmt, evalStmt, evalExpr_agree h ha]
    congr 1; funext v
    exact hwall _ _ _ _ _ _ _
  | .ifElse neg cond thn none =>
    rw [evalStmt.eq_def, evalStmt.eq_def]
    dsimp only
    rw [evalExpr_agree h ha.1]
    congr 1; funext v
    rw [evalStmts_agree thn h ha.2 ht (hw.imp id fun h n hc => h n (.thn hc)) w]
  | .ifElse neg cond thn (some els) =>
    rw [evalStmt.eq_def, evalStmt.eq_def]
    dsimp only
    rw [evalExpr_agree h ha.1]
    congr 1; funext v
    rw [evalStmts_agree thn h ha.2.1 ht.1 (hw.imp id fun h n hc => h n (.thn hc)) w,
      evalStmts_agree els h ha.2.2 ht.2 (hw.imp id fun h n hc => h n (.els hc)) w]
  | .forLoop vars e body =>
    rw [evalStmt.eq_def, evalStmt.eq_def]
    dsimp only
    rw [evalExpr_agree h ha.2.1]
    congr 1; funext v
    refine loop_agree (rounds cfg.env src vars v e.span) _ _ (fun bs hr b hb w => ?_) w
    obtain ⟨h1, h2⟩ := rounds_agree ha.1 hr h b hb
    exact evalStmts_agree body h1 ha.2.2 ht (hw.imp (fun h => noNames_cons h h2) fun h n hc => h n (.for_ hc)) w
  | .with_ e n body =>
    rw [evalStmt.eq_def, evalStmt.eq_def]
    dsimp only
    rw [evalExpr_agree h ha.1]
    congr 1; funext v
    exact evalStmts_agree body (.name (n := withName asBuilt src n) (n' := withName documented src n) rfl h) ha.2 ht.1 (.inr ht.2) w
theorem evalStmts_agree (ss : List Stmt) {ρ ρ' : Scope} (h : Agree L src ρ ρ') (ha : Apart L src ss) (ht : Tame ss)
    (hw : NoNames ρ ∨ ∀ n, ¬ ContainsAny ss n none) (w : World σ) :
    evalStmts asBuilt cfg inc name src ρ ss w = evalStmts documented cfg inc' name src ρ' ss w := by
  match ss with
  | [] => rfl
  | s :: ss =>
    rw [evalStmts, evalStmts, evalStmt_agree s h ha.1 ht.1 (hw.imp id fun h n hc => h n (.head hc))]
    congr 1; funext w
    exact evalStmts_agree ss h ha.2 ht.2 (hw.imp id fun h n hc => h n (.tail hc)) w
end
end agree

theorem include_agree {L : Str → Prop} {tree : Template → Tree}
    (hall : ∀ t, Includable cfg t → Tame (tree t).body ∧ Apart L (tree t).source (tree t).body) (left : Nat) :
    (∀ n src name ρ ρ' (w : World σ), Agree L src ρ ρ' → NoNames ρ →
      include_ asBuilt cfg tree left n src name ρ w = include_ documented cfg tree left n src name ρ' w) := by
  induction left with
  | zero =>
    intro n src name ρ ρ' w _ _
    rw [include_, include_]
  | succ left ih =>
    intro n src name ρ ρ' w h hn
    rw [include_, include_]
    rcases hf : find cfg src n w with ⟨w', r⟩
    cases r with
    | err e => rfl
    | crash => rfl
    | ok t =>
      dsimp only
      obtain ⟨ht, ha⟩ := hall t (find_includable hf)
      refine evalStmts_agree ih ?_ _ (h.other hn _) ha ht (.inl hn) _
      intro n src name v ρ ρ' w
      refine (include_wall (cfg := cfg) asBuilt tree left [.globals v] ρ _ _ _ _).trans
        (Eq.trans ?_ (include_wall (cfg := cfg) documented tree left [.globals v] ρ' _ _ _ _).symm)
      exact ih _ _ _ _ _ _ (.globals .nil) (noNames_cons (fun _ _ h => by cases h) (fun _ _ h => by cases h))

/-- **C16** For templates without a plain `include` inside a `with` and without optional accesses to loop
variables, the documented meaning of the tree is the meaning the code has. -/
theorem C16_documented {L : Str → Prop} {tree : Template → Tree} {T : Tree}
    (hall : ∀ t, Includable cfg t → Tame (tree t).body ∧ Apart L (tree t).source (tree t).body)
    (ht : Tame T.body) (ha : Apart L T.source T.body) {b : Binding} (hb : (∃ c, b = .globals c) ∨ ∃ f, b = .provider f)
    (w : World σ) : Spec.render asBuilt cfg tree T name [b] w = Spec.render documented cfg tree T name [b] w := by
  rw [Spec.render, Spec.render]
  have hn : NoNames [b] := by
    refine noNames_cons (fun _ _ h => by cases h) ?_
    rcases hb with ⟨c, rfl⟩ | ⟨f, rfl⟩ <;> exact fun _ _ h => by cases h
  have hag : Agree L T.source [b] [b] := by
    rcases hb with ⟨c, rfl⟩ | ⟨f, rfl⟩
    · exact .globals .nil
    · exact .provider .nil
  refine evalStmts_agree (include_agree hall _) ?_ _ hag ha ht (.inl hn) w
  intro n src name v ρ ρ' w
  refine (include_wall (cfg := cfg) asBuilt tree _ [.globals v] ρ _ _ _ _).trans
    (Eq.trans ?_ (include_wall (cfg := cfg) documented tree _ [.globals v] ρ' _ _ _ _).symm)
  exact include_agree hall _ _ _ _ _ _ _ (.globals .nil) (noNames_cons (fun _ _ h => by cases h) (fun _ _ h => by cases h))

/-- **C16** … so for those templates `to_string` returns what the documented meaning says. -/
theorem C16_to_string_documented {env : Env} {r : Renderer} {tree : Template → Tree} {L : Str → Prop}
    (htr : ∀ t, Includable (r.cfg env stringSink) t → Parsed env t (tree t)) {T : Tree} (hT : Parsed env r.template T)
    (hall : ∀ t, Includable (r.cfg env stringSink) t → Tame (tree t).body ∧ Apart L (tree t).source (tree t).body)
    (ht : Tame T.body) (ha : Apart L T.source T.body) {b : SState} (hb : r.base = .ok b) (res : Res Str) :
    r.ToString env res ↔
      res = stringResult (Spec.render documented (r.cfg env stringSink) tree T r.name [ofBase b] ⟨[], []⟩) := by
  rw [C16_to_string htr hT hb, C16_documented hall ht ha]
  rcases base_cases hb with ⟨f, rfl, _⟩ | ⟨c, rfl, _⟩
  · exact .inr ⟨f, rfl⟩
  · exact .inl ⟨c, rfl⟩

/-- The hypotheses of `C14_tame` and `C16_to_string_documented` hold for a template with a loop, a filter and
an include, with `x` as the only loop variable. -/
example (a : AC.Auto) (v : Value) :
    (∀ t, Includable ((Demo.renderer a 64 Demo.main none v).cfg asciiEnv stringSink) t → Tame (Demo.tree t).body ∧
      Apart (· = ['x']) (Demo.tree t).source (Demo.tree t).body) ∧
    Tame Demo.main.body ∧ Apart (· = ['x']) Demo.main.source Demo.main.body := by
  have hb : ∀ s : Str, (⟨4, 5⟩ : Span).of s = some ['a'] → Apart (· = ['x']) s Demo.b.body := by
    intro s hb
    unfold Demo.b
    simp [Apart, StmtApart, ExprApart, BaseApart, VarApart, Demo.path, Access.span, hb]
  have hd : ∀ s : Str, Apart (· = ['x']) s Demo.d.body := by
    intro s; unfold Demo.d; simp [Apart, StmtApart, ExprApart, BaseApart, VarApart, Demo.name]
  have hf : ∀ s : Str, Apart (· = ['x']) s Demo.f.body := by
    intro s; unfold Demo.f; simp [Apart, StmtApart, ExprApart, BaseApart, VarApart, Demo.name]
  have hh : ∀ s : Str, Apart (· = ['x']) s Demo.h.body := by
    intro s; unfold Demo.h; simp [Apart, StmtApart]
  have hm : ∀ s : Str, (⟨7, 8⟩ : Span).of s = some ['x'] → Apart (· = ['x']) s Demo.main.body := by
    intro s hm
    unfold Demo.main
    simp [Apart, StmtApart, ExprApart, BaseApart, VarApart, LoopNames, Demo.name, Demo.path, hm]
  have tb : Tame Demo.b.body := by unfold Demo.b; simp only [Tame, TameStmt, and_self]
  have td : Tame Demo.d.body := by unfold Demo.d; simp only [Tame, TameStmt, and_self]
  have tf : Tame Demo.f.body := by unfold Demo.f; simp only [Tame, TameStmt, and_self]
  have th : Tame Demo.h.body := by unfold Demo.h; simp only [Tame, TameStmt, and_self]
  have tm : Tame Demo.main.body := by unfold Demo.main; simp only [Tame, TameStmt, and_self]
  refine ⟨fun t ht => ?_, tm, hm _ (by decide +kernel)⟩
  rcases Demo.includable ht with ⟨_, h2⟩ | ⟨_, h2⟩ | ⟨_, h2⟩ | ⟨_, h2⟩
  · rw [h2]; exact ⟨tb, hb _ (by decide +kernel)⟩
  · rw [h2]; exact ⟨td, hd _⟩
  · rw [h2]; exact ⟨tf, hf _⟩
  · rw [h2]; exact ⟨th, hh _⟩

end Upon
