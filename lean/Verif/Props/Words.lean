import Verif.Proofs.Plain
import Verif.Proofs.Accept
import Verif.Props.Writers
/-
C44: a render depends only on what the templates say, not on how they are laid out.
-/
namespace Upon
open Spec

/-- Two templates that say the same, maybe in different syntaxes, with different blanks inside tags and different comments.
`T` and `T'` are their trees. They keep clear of the known defect with variables at includes. -/
def Spec.SaySame (env : Env) (t : Template) (T : Tree) (t' : Template) (T' : Tree) : Prop :=
  (∃ ws, Says env t T ws ∧ Says env t' T' ws) ∧ Tame T.body ∧ Tame T'.body

/-- The same answers to the question for a template of some name, up to layout. -/
inductive Spec.SameAnswer (env : Env) (tree tree' : Template → Tree) : Except String Template → Except String Template → Prop
  | found {t t'} : SaySame env t (tree t) t' (tree' t') → SameAnswer env tree tree' (.ok t) (.ok t')
  | refused (e) : SameAnswer env tree tree' (.error e) (.error e)

/-- The same templates under a name, up to layout. -/
inductive Spec.SameEntry (env : Env) (tree tree' : Template → Tree) : Option Template → Option Template → Prop
  | found {t t'} : SaySame env t (tree t) t' (tree' t') → SameEntry env tree tree' (some t) (some t')
  | missing : SameEntry env tree tree' none none

/-- The same sources of included templates, up to layout: two template functions, or two registries. -/
def Spec.SameTemplates (env : Env) (tree tree' : Template → Tree) (r r' : Renderer) : Prop :=
  match r.templateFn, r'.templateFn with
  | some f, some f' => ∀ asked n, SameAnswer env tree tree' (f asked n) (f' asked n)
  | none, none => ∀ n, SameEntry env tree tree' (r.engine.getTemplate n) (r'.engine.getTemplate n)
  | _, _ => False

/-- Two renderers with the same globals and functions, and templates that say the same. The engines may have different syntaxes. -/
structure Spec.Relaid (env : Env) (tree tree' : Template → Tree) (T T' : Tree) (r r' : Renderer) : Prop where
  name : r.name = r'.name
  globals : r.globals = r'.globals
  functions : r.engine.functions = r'.engine.functions
  formatter : r.engine.defaultFormatter = r'.engine.defaultFormatter
  depth : r.maxIncludeDepth.getD r.engine.maxIncludeDepth = r'.maxIncludeDepth.getD r'.engine.maxIncludeDepth
  template : SaySame env r.template T r'.template T'
  templates : SameTemplates env tree tree' r r'

theorem Spec.Says.parsed {env : Env} {t : Template} {T : Tree} {ws : List Item} (h : Says env t T ws) : Parsed env t T := by
  obtain ⟨b, a, ts, h1, h2, h3, h4, h5, _⟩ := h
  exact ⟨b, a, ts, h1, h2, h3, h4, h5⟩

namespace Plain

theorem Fine.of {env : Env} {t : Template} {T : Tree} (h : Parsed env t T) (ht : Tame T.body) : Fine T :=
  ⟨h.inside, fun h0 => h.empty h0, ht⟩

theorem same_of {env : Env} {t t' : Template} {T T' : Tree} (h : SaySame env t T t' T') :
    ofStmts T.source T.body = ofStmts T'.source T'.body := by
  obtain ⟨⟨ws, ⟨_, _, ts, _, _, _, _, h1, h2⟩, ⟨_, _, ts', _, _, _, _, h1', h2'⟩⟩, _⟩ := h
  exact same_tree h1 h1' (h2.trans h2'.symm)

theorem left_of {env : Env} {t t' : Template} {T T' : Tree} (h : SaySame env t T t' T') : Parsed env t T ∧ Fine T := by
  obtain ⟨⟨ws, h1, h2⟩, h3, h4⟩ := h
  exact ⟨h1.parsed, .of h1.parsed h3⟩

theorem right_of {env : Env} {t t' : Template} {T T' : Tree} (h : SaySame env t T t' T') : Parsed env t' T' ∧ Fine T' := by
  obtain ⟨⟨ws, h1, h2⟩, h3, h4⟩ := h
  exact ⟨h2.parsed, .of h2.parsed h4⟩

section
variable {env : Env} {tree tree' : Template → Tree} {T T' : Tree} {r r' : Renderer}

theorem left_all (h : Relaid env tree tree' T T' r r') (t : Template) (ht : Includable (r.cfg env stringSink) t) :
    Parsed env t (tree t) ∧ Fine (tree t) := by
  have hs := h.templates
  unfold SameTemplates at hs
  unfold Includable Renderer.cfg at ht
  dsimp only at ht
  split at hs
  · rename_i f f' e e'
    simp only [e] at ht
    obtain ⟨asked, n, hn⟩ := ht
    have := hs asked n
    rw [hn] at this
    generalize f' asked n = q at this
    cases this with
    | found h => exact left_of h
  · rename_i e e'
    simp only [e] at ht
    obtain ⟨n, hn⟩ := ht
    have := hs n
    unfold Engine.getTemplate at this
    rw [hn] at this
    generalize BMap.get r'.engine.templates n = q at this
    cases this with
    | found h => exact left_of h
  · exact hs.elim

theorem right_all (h : Relaid env tree tree' T T' r r') (t : Template) (ht : Includable (r'.cfg env stringSink) t) :
    Parsed env t (tree' t) ∧ Fine (tree' t) := by
  have hs := h.templates
  unfold SameTemplates at hs
  unfold Includable Renderer.cfg at ht
  dsimp only at ht
  split at hs
  · rename_i f f' e e'
    simp only [e'] at ht
    obtain ⟨asked, n, hn⟩ := ht
    have := hs asked n
    rw [hn] at this
    generalize f asked n = q at this
    cases this with
    | found h => exact right_of h
  · rename_i e e'
    simp only [e'] at ht
    obtain ⟨n, hn⟩ := ht
    have := hs n
    unfold Engine.getTemplate at this
    rw [hn] at this
    generalize BMap.get r.engine.templates n = q at this
    cases this with
    | found h => exact right_of h
  · exact hs.elim

theorem cfg_same (h : Relaid env tree tree' T T' r r') :
    ofCfg (r.cfg env stringSink) tree = ofCfg (r'.cfg env stringSink) tree' := by
  have hs := h.templates
  unfold SameTemplates at hs
  unfold ofCfg Renderer.cfg
  dsimp only
  rw [h.functions, h.formatter, h.depth]
  split at hs
  · rename_i f f' e e'
    simp only [e, e', Option.isSome_some]
    congr 1
    funext asked n
    have := hs asked n
    generalize f asked n = p, f' asked n = q at this
    cases this with
    | found h => simp only [same_of h]
    | refused => rfl
  · rename_i e e'
    simp only [e, e', Option.isSome_none]
    congr 1
    funext asked n
    have := hs n
    unfold Engine.getTemplate at this
    generalize BMap.get r.engine.templates n = p, BMap.get r'.engine.templates n = q at this
    cases this with
    | found h => simp only [same_of h]
    | missing => rfl
  · exact hs.elim

theorem result_run {m m' : RunRes Str} (h : Run m = Run m') : Unplaced (stringResult m) = Unplaced (stringResult m') := by
  cases m <;> cases m' <;> simp_all [Run, stringResult, Unplaced]

end
end Plain

/-- Half of `C44_accepts`. -/
theorem accepted_too {env : Env} {b b' : SyntaxBuilder} {a a' : AC.Auto} {src src' : Str}
    (s : Setup b ⟨env, a, src⟩) (hw : Tidy b.build src) (s' : Setup b' ⟨env, a', src'⟩) (hw' : Tidy b'.build src')
    {ts ts' : List Tok} (hl : Layout b.build env src (.text false) 0 ts) (hl' : Layout b'.build env src' (.text false) 0 ts')
    (he : words src ts = words src' ts') (h : ∃ t, compileSource ⟨env, a, src⟩ = .ok t) :
    ∃ t, compileSource ⟨env, a', src'⟩ = .ok t := by
  obtain ⟨t, ht⟩ := h
  obtain ⟨ts₁, ast, k1, k2, _⟩ := (C09_grammar s hw t).mp ht
  cases C09_tokens_unique s hw hl k1
  have w := Plain.stmts_words k2
  rw [he] at w
  obtain ⟨ast', g⟩ := Plain.tree_exists hl' w
  exact ⟨_, (C09_grammar s' hw' _).mpr ⟨ts', ast', hl', g, Compiler.compileTemplate_eq _ _⟩⟩

/-- **C44** Of two texts that are laid out as tokens and say the same, an engine accepts both or neither. -/
theorem C44_accepts {env : Env} {b b' : SyntaxBuilder} {a a' : AC.Auto} {src src' : Str}
    (s : Setup b ⟨env, a, src⟩) (hw : Tidy b.build src) (s' : Setup b' ⟨env, a', src'⟩) (hw' : Tidy b'.build src')
    {ts ts' : List Tok} (hl : Layout b.build env src (.text false) 0 ts) (hl' : Layout b'.build env src' (.text false) 0 ts')
    (he : words src ts = words src' ts') :
    (∃ t, compileSource ⟨env, a, src⟩ = .ok t) ↔ ∃ t, compileSource ⟨env, a', src'⟩ = .ok t :=
  ⟨accepted_too s hw s' hw' hl hl' he, accepted_too s' hw' s hw hl' hl he.symm⟩

/-- **C44** `to_string` returns the same, up to the place in an error, for templates that say the same. -/
theorem C44_to_string {env : Env} {tree tree' : Template → Tree} {T T' : Tree} {r r' : Renderer}
    (h : Relaid env tree tree' T T' r r') {res res' : Res Str} (h1 : r.ToString env res) (h2 : r'.ToString env res') :
    Unplaced res = Unplaced res' := by
  have eb : r.base = r'.base := by unfold Renderer.base; rw [h.globals]
  cases hb : r.base with
  | ok b =>
    have hb' := eb ▸ hb
    rw [C16_to_string (fun t ht => (Plain.left_all h t ht).1) (Plain.left_of h.template).1 hb] at h1
    rw [C16_to_string (fun t ht => (Plain.right_all h t ht).1) (Plain.right_of h.template).1 hb'] at h2
    subst h1 h2
    have hg : (∃ c, ofBase b = .globals c) ∨ ∃ f, ofBase b = .provider f := by
      rcases base_cases hb with ⟨f, _, e⟩ | ⟨c, _, e⟩
      · exact .inr ⟨f, e⟩
      · exact .inl ⟨c, e⟩
    apply Plain.result_run
    rw [Plain.render_plain rfl (fun t ht => (Plain.left_all h t ht).2) (Plain.left_of h.template).2 _ hg,
      Plain.render_plain rfl (fun t ht => (Plain.right_all h t ht).2) (Plain.right_of h.template).2 _ hg,
      Plain.cfg_same h, Plain.same_of h.template, h.name]
  | err e =>
    have hb' := eb ▸ hb
    cases h1 <;> cases h2 <;> simp_all
  | crash =>
    have hb' := eb ▸ hb
    cases h1 <;> cases h2 <;> simp_all

/-- **C44** So does `to_writer` on every writer that takes what it is given, and the bytes written are the same if it succeeds. -/
theorem C44_to_writer {ω : Type} {env : Env} {tree tree' : Template → Tree} {T T' : Tree} {r r' : Renderer}
    (h : Relaid env tree tree' T T' r r') {io : IoWriter ω} {log : ω → List UInt8} (ha : Accepts io log) (w₀ : ω)
    {res res' : Res Unit} {w w' : ω} (h1 : r.ToWriter env io w₀ res w) (h2 : r'.ToWriter env io w₀ res' w') :
    Unplaced res = Unplaced res' ∧ (res = .ok () → log w = log w') := by
  rcases to_string_of_writer ha w₀ h1 with ⟨s, rfl, k1, e1⟩ | ⟨e, rfl, k1⟩ | ⟨rfl, k1⟩ <;>
    rcases to_string_of_writer ha w₀ h2 with ⟨s', rfl, k2, e2⟩ | ⟨e', rfl, k2⟩ | ⟨rfl, k2⟩ <;>
    have k := C44_to_string h k1 k2 <;> simp_all [Unplaced]

end Upon
