import Verif.Proofs.Compose
import Verif.Proofs.Tame
import Verif.Props.Words
/-
C45: rendering a template that is one template followed by another. C46: an include is its template inlined.
-/
namespace Upon
open Spec

/-- The renderer's included templates were compiled (`tree` gives their trees), keep clear of the known defect with variables at
includes, and the answer to a request does not depend on earlier requests. -/
structure Spec.Steady (env : Env) (tree : Template → Tree) (r : Renderer) : Prop where
  parsed : ∀ t, Includable (r.cfg env stringSink) t → Parsed env t (tree t)
  tame : ∀ t, Includable (r.cfg env stringSink) t → Tame (tree t).body
  steady : ∀ f, r.templateFn = some f → ∀ asked asked' n, f asked n = f asked' n

/-- The renderer finds `t` under the name `n`. -/
def Spec.Provides (r : Renderer) (n : Str) (t : Template) : Prop :=
  match r.templateFn with
  | some f => ∀ asked, f asked n = .ok t
  | none => r.engine.getTemplate n = some t

section
variable {env : Env} {tree : Template → Tree} {r : Renderer}

theorem Spec.Steady.cfg (h : Steady env tree r) : Plain.Steady (Plain.ofCfg (r.cfg env stringSink) tree) := by
  intro a a' n
  unfold Plain.ofCfg Renderer.cfg
  dsimp only
  cases hf : r.templateFn with
  | none => rfl
  | some f => simp only [h.steady f hf a a' n]

theorem Spec.Steady.change (h : Steady env tree r) (t : Template) : Steady env tree { r with template := t } := ⟨h.parsed, h.tame, h.steady⟩

/-- What `to_string` returns, without places. -/
theorem to_string_plain (h : Steady env tree r) {T : Tree} (hT : Parsed env r.template T) (ht : Tame T.body) {b : SState} (hb : r.base = .ok b)
    {res : Res Str} (h1 : r.ToString env res) :
    Unplaced res = stringResult (Plain.render (Plain.ofCfg (r.cfg env stringSink) tree) (Plain.ofStmts T.source T.body) r.name
      [ofBase b] ⟨[], []⟩) := by
  rw [C16_to_string h.parsed hT hb] at h1
  subst h1
  have hg : (∃ c, ofBase b = .globals c) ∨ ∃ f, ofBase b = .provider f := by
    rcases base_cases hb with ⟨f, _, e⟩ | ⟨c, _, e⟩
    · exact .inr ⟨f, e⟩
    · exact .inl ⟨c, e⟩
  rw [← Plain.render_plain rfl (fun t ht => .of (h.parsed t ht) (h.tame t ht)) (.of hT ht) _ hg]
  generalize Spec.render asBuilt (r.cfg env stringSink) tree T r.name [ofBase b] ⟨[], []⟩ = m
  cases m <;> rfl

theorem to_string_failed {res : Res Str} (h1 : r.ToString env res) :
    (∃ e, r.base = .err e ∧ res = .err e) ∨ (r.base = .crash ∧ res = .crash) ∨ ∃ b, r.base = .ok b := by
  cases h1 with
  | globalsErr e h => exact .inl ⟨e, h, rfl⟩
  | globalsCrash h => exact .inr (.inl ⟨h, rfl⟩)
  | ok b w h => exact .inr (.inr ⟨b, h⟩)
  | err b e w h => exact .inr (.inr ⟨b, h⟩)
  | crash b h => exact .inr (.inr ⟨b, h⟩)

theorem Spec.Says.body {t : Template} {T : Tree} {ws : List Item} (h : Says env t T ws) :
    Plain.WStmts env ws (Plain.ofStmts T.source T.body) := by
  obtain ⟨_, _, ts, _, _, _, _, h1, rfl⟩ := h
  exact Plain.stmts_words h1

theorem unplaced_then (x y : Res Str) : Unplaced (OneByOne x y) = OneByOne (Unplaced x) (Unplaced y) := by
  cases x <;> cases y <;> rfl

/-- **C45** A template that says what two others say one after the other renders as the two texts one after the other, or fails as
the first of them that fails. -/
theorem C45_to_string (h : Steady env tree r) {ta tb tc : Template} {A B C : Tree} {wa wb : List Item}
    (ha : Says env ta A wa) (hb : Says env tb B wb) (hc : Says env tc C (wa ++ wb)) (na : Tame A.body) (nb : Tame B.body)
    {ra rb rc : Res Str} (h1 : { r with template := ta }.ToString env ra) (h2 : { r with template := tb }.ToString env rb)
    (h3 : { r with template := tc }.ToString env rc) : Unplaced rc = Unplaced (OneByOne ra rb) := by
  have nc : Tame C.body := (Plain.tame_append ha.body hb.body hc.body).mpr ⟨na, nb⟩
  rcases to_string_failed h1 with ⟨e, hf, rfl⟩ | ⟨hf, rfl⟩ | ⟨b, hf⟩
  · rcases to_string_failed h3 with ⟨e', hf', rfl⟩ | ⟨hf', rfl⟩ | ⟨b', hf'⟩
    · cases hf.symm.trans hf'; cases rb <;> rfl
    · cases hf.symm.trans hf'
    · cases hf.symm.trans hf'
  · rcases to_string_failed h3 with ⟨e', hf', rfl⟩ | ⟨hf', rfl⟩ | ⟨b', hf'⟩
    · cases hf.symm.trans hf'
    · cases rb <;> rfl
    · cases hf.symm.trans hf'
  · have k1 := to_string_plain (h.change ta) ha.parsed na hf h1
    have k2 := to_string_plain (h.change tb) hb.parsed nb hf h2
    have k3 := to_string_plain (h.change tc) hc.parsed nc hf h3
    have e := Plain.stmts_unique hc.body (Plain.wappend ha.body hb.body)
    rw [unplaced_then, k1, k2, k3, e, Plain.render_append (h.change tc).cfg]
    show stringResult (seq (Plain.render (Plain.ofCfg (r.cfg env stringSink) tree) _ r.name _ _) fun w =>
      Plain.Shift w.out w.asked (Plain.render (Plain.ofCfg (r.cfg env stringSink) tree) _ r.name _ _)) =
      OneByOne (stringResult (Plain.render (Plain.ofCfg (r.cfg env stringSink) tree) _ r.name _ _))
        (stringResult (Plain.render (Plain.ofCfg (r.cfg env stringSink) tree) _ r.name _ _))
    generalize Plain.render (Plain.ofCfg (r.cfg env stringSink) tree) (Plain.ofStmts A.source A.body) r.name [ofBase b] ⟨[], []⟩ = p
    generalize Plain.render (Plain.ofCfg (r.cfg env stringSink) tree) (Plain.ofStmts B.source B.body) r.name [ofBase b] ⟨[], []⟩ = q
    cases p <;> cases q <;> rfl

theorem near_result {d : Nat} {p q : RunRes Str} (h : Plain.Near d p q) {res res' : Res Str} (h1 : Unplaced res = stringResult p)
    (h2 : Unplaced res' = stringResult q) : Unplaced res = .err (depthErr d) ∨ Bare res = Bare res' := by
  have hb : ∀ {x : Res Str} {y : RunRes Str}, Unplaced x = stringResult y → Bare x = Bare (stringResult y) := by
    intro x y e
    rw [← e]
    cases x <;> rfl
  rw [hb h1, hb h2, h1]
  cases h with
  | ok h => exact .inr (by simp only [stringResult, h])
  | err h _ => exact .inr (congrArg Res.err h)
  | crash => exact .inr rfl
  | deep => exact .inl rfl

theorem provides_find (h : Steady env tree r) {n : Str} {t : Template} (hp : Provides r n t) (a : List Str) :
    (Plain.ofCfg (r.cfg env stringSink) tree).find a n = .ok (Plain.ofStmts (tree t).source (tree t).body) := by
  unfold Provides at hp
  unfold Plain.ofCfg Renderer.cfg
  dsimp only
  cases hf : r.templateFn with
  | none =>
    rw [hf] at hp
    have hp : BMap.get r.engine.templates n = some t := hp
    simp only [hp]
  | some f =>
    rw [hf] at hp
    simp only [hp a]

/-- **C46** Replacing some of the tags `{% include "b" %}` of a template, wherever they are, by what the template `b` says changes
nothing but the template name and the place in an error, unless the includes reach the limit. -/
theorem C46_to_string (h : Steady env tree r) {b : Str} {tb tc td : Template} {C D : Tree} {wb wc wd : List Item}
    (hp : Provides r b tb) (hb : Says env tb (tree tb) wb) (hc : Says env tc C wc) (hd : Says env td D wd) (nc : Tame C.body)
    (nd : Tame D.body) (hi : Inlined b wb wc wd) {rc rd : Res Str}
    (h1 : { r with template := tc }.ToString env rc) (h2 : { r with template := td }.ToString env rd) :
    Unplaced rc = .err (depthErr (r.maxIncludeDepth.getD r.engine.maxIncludeDepth)) ∨ Bare rc = Bare rd := by
  rcases to_string_failed h1 with ⟨e, hf, rfl⟩ | ⟨hf, rfl⟩ | ⟨b, hf⟩
  · rcases to_string_failed h2 with ⟨e', hf', rfl⟩ | ⟨hf', rfl⟩ | ⟨b', hf'⟩
    · cases hf.symm.trans hf'; exact .inr rfl
    · cases hf.symm.trans hf'
    · cases hf.symm.trans hf'
  · rcases to_string_failed h2 with ⟨e', hf', rfl⟩ | ⟨hf', rfl⟩ | ⟨b', hf'⟩
    · cases hf.symm.trans hf'
    · exact .inr rfl
    · cases hf.symm.trans hf'
  · have k1 := to_string_plain (h.change tc) hc.parsed nc hf h1
    have k2 := to_string_plain (h.change td) hd.parsed nd hf h2
    have hs := Plain.sub_of hb.body hi hc.body hd.body
    exact near_result (Plain.render_inline h.cfg (provides_find h hp) hs r.name r.name [ofBase b] (w := ⟨[], []⟩) (w' := ⟨[], []⟩) rfl) k1 k2

/-- **C46** In particular, a text that is rendered with the include is rendered without it. -/
theorem C46_same_text (h : Steady env tree r) {b : Str} {tb tc td : Template} {C D : Tree} {wb wc wd : List Item}
    (hp : Provides r b tb) (hb : Says env tb (tree tb) wb) (hc : Says env tc C wc) (hd : Says env td D wd) (nc : Tame C.body)
    (nd : Tame D.body) (hi : Inlined b wb wc wd) {s : Str} {rd : Res Str}
    (h1 : { r with template := tc }.ToString env (.ok s)) (h2 : { r with template := td }.ToString env rd) : rd = .ok s := by
  rcases C46_to_string h hp hb hc hd nc nd hi h1 h2 with e | e
  · cases e
  · cases rd <;> simp_all [Bare]

/-- A text whose tokens say `ws` is compiled, if `ws` has a tree. -/
theorem says_of_tree {ws : List Item} {ss : List Plain.Stmt} (h : Plain.WStmts env ws ss) {b : SyntaxBuilder} {a : AC.Auto} {src : Str}
    (s : Setup b ⟨env, a, src⟩) (hw : Tidy b.build src) {ts : List Tok} (hl : Layout b.build env src (.text false) 0 ts)
    (e : words src ts = ws) : ∃ t T, compileSource ⟨env, a, src⟩ = .ok t ∧ T.source = src ∧ Says env t T ws := by
  subst e
  obtain ⟨ast, g⟩ := Plain.tree_exists hl h
  have hc := (C09_grammar s hw _).mpr ⟨ts, ast, hl, g, Compiler.compileTemplate_eq _ _⟩
  exact ⟨_, ⟨src, ast⟩, hc, rfl, b, a, ts, s, hw, hc, hl, g, rfl⟩

/-- **C45** A text, laid out in any syntax, that says what two templates say one after the other is a template. -/
theorem C45_accepts {ta tb : Template} {A B : Tree} {wa wb : List Item} (ha : Says env ta A wa) (hb : Says env tb B wb)
    {b : SyntaxBuilder} {a : AC.Auto} {src : Str} (s : Setup b ⟨env, a, src⟩) (hw : Tidy b.build src) {ts : List Tok}
    (hl : Layout b.build env src (.text false) 0 ts) (e : words src ts = wa ++ wb) :
    ∃ t C, compileSource ⟨env, a, src⟩ = .ok t ∧ C.source = src ∧ Says env t C (wa ++ wb) :=
  says_of_tree (Plain.wappend ha.body hb.body) s hw hl e

/-- **C46** A text, laid out in any syntax, that says what a template says with some includes replaced by what the included template
says is a template. -/
theorem C46_accepts {b : Str} {tb tc : Template} {B C : Tree} {wb wc wd : List Item} (hb : Says env tb B wb) (hc : Says env tc C wc)
    (hi : Inlined b wb wc wd) {bd : SyntaxBuilder} {a : AC.Auto} {src : Str} (s : Setup bd ⟨env, a, src⟩) (hw : Tidy bd.build src)
    {ts : List Tok} (hl : Layout bd.build env src (.text false) 0 ts) (e : words src ts = wd) :
    ∃ t D, compileSource ⟨env, a, src⟩ = .ok t ∧ D.source = src ∧ Says env t D wd := by
  obtain ⟨us, ss, rest, e', h1, _, h3⟩ := Plain.stmts_inlined hb.body hc.body (rest := []) (by rw [List.append_nil]; exact hi)
  cases h3
  rw [List.append_nil] at e'
  subst e'
  exact says_of_tree h1 s hw hl e

end
end Upon
