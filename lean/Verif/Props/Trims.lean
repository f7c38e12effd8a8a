import Verif.Proofs.Trims
import Verif.Props.Texts
/-
C83: trim markers take only white space away.
-/
namespace Upon
open Spec

section
variable {env : Env} {tree tree' : Template → Tree} {T T' : Tree} {r r' : Renderer}

/-- **C83** Templates whose tags and whole texts between the tags are the same, whatever the trim markers and comments, are templates with the same tags and
texts that are the same apart from white space. -/
theorem C83_says {t t' : Template} {ws : List Item} (h : Spells env t T ws) (h' : Spells env t' T' ws) (ht : Tame T.body) (ht' : Tame T'.body) :
    Related (Plain.Retexted SameButBlanks) env t T t' T' := by
  obtain ⟨b, a, ts, s, hw, hc, hl, hg, rfl⟩ := h
  obtain ⟨b', a', ts', s', hw', hc', hl', hg', e⟩ := h'
  have k := Trims.trimmed_words hl (Trims.uncommented hg)
  have k' := Trims.trimmed_words hl' (Trims.uncommented hg')
  rw [e] at k'
  have f := Plain.rephrased_flip k
  exact C76_says ⟨b, a, ts, s, hw, hc, hl, hg, rfl⟩ ⟨b', a', ts', s', hw', hc', hl', hg', rfl⟩ ht ht'
    (Plain.Rephrased.trans (R := SameButBlanks) Trims.blanks_trans (rephrased_blanks f) k')
where
  rephrased_blanks {ws us : List Item} (h : Rephrased (fun a b => SameButBlanks b a) ws us) : Rephrased SameButBlanks ws us := by
    induction h with
    | text h => exact .text (Trims.blanks_symm h)
    | tag h1 h2 _ ih => exact .tag (Trims.blanks_symm h1) h2 ih

/-- **C83** Of two texts that are laid out as tokens and differ only in trim markers, comments and blanks inside tags, an engine accepts both or neither. -/
theorem C83_accepts {b b' : SyntaxBuilder} {a a' : AC.Auto} {src src' : Str}
    (s : Setup b ⟨env, a, src⟩) (hw : Tidy b.build src) (s' : Setup b' ⟨env, a', src'⟩) (hw' : Tidy b'.build src')
    {ts ts' : List Tok} (hl : Layout b.build env src (.text false) 0 ts) (hl' : Layout b'.build env src' (.text false) 0 ts')
    (he : fullWords src 0 ts = fullWords src' 0 ts') :
    (∃ t, compileSource ⟨env, a, src⟩ = .ok t) ↔ ∃ t, compileSource ⟨env, a', src'⟩ = .ok t := by
  have one : ∀ {b b' : SyntaxBuilder} {a a' : AC.Auto} {src src' : Str}, Setup b ⟨env, a, src⟩ → Tidy b.build src → Setup b' ⟨env, a', src'⟩ →
      Tidy b'.build src' → ∀ {ts ts' : List Tok}, Layout b.build env src (.text false) 0 ts → Layout b'.build env src' (.text false) 0 ts' →
      fullWords src 0 ts = fullWords src' 0 ts' → (∃ t, compileSource ⟨env, a, src⟩ = .ok t) → ∃ t, compileSource ⟨env, a', src'⟩ = .ok t := by
    intro b b' a a' src src' s hw s' hw' ts ts' hl hl' he h
    obtain ⟨t, ht⟩ := h
    obtain ⟨ts₁, ast, k1, k2, _⟩ := (C09_grammar s hw t).mp ht
    cases C09_tokens_unique s hw hl k1
    have u := Trims.uncommented k2
    have u' : Item.sign .beginComment ∉ words src' ts' := fun hm => u ((Trims.signs _ 0 _).mp (he ▸ (Trims.signs _ 0 _).mpr hm))
    have k := Trims.trimmed_words hl u
    have k' := Trims.trimmed_words hl' u'
    rw [← he] at k'
    exact (C76_accepts s hw s' hw' hl hl' (Plain.Rephrased.trans (R := SameButBlanks) Trims.blanks_trans (C83_says.rephrased_blanks (Plain.rephrased_flip k)) k')).mp ⟨t, ht⟩
  exact ⟨one s hw s' hw' hl hl' he, one s' hw' s hw hl' hl he.symm⟩

end

/-- Two compiled templates with the same tags and the same text between them, whatever the trim markers, comments and blanks inside tags. They keep clear of
the known defect with variables at includes. -/
structure Spec.SpellSame (env : Env) (t : Template) (T : Tree) (t' : Template) (T' : Tree) : Prop where
  same : ∃ ws, Spells env t T ws ∧ Spells env t' T' ws
  tame : Tame T.body
  tame' : Tame T'.body

/-- The answers to the question for a template of some name. -/
inductive Spec.SpellAnswer (env : Env) (tree tree' : Template → Tree) : Except String Template → Except String Template → Prop
  | found {t t'} : SpellSame env t (tree t) t' (tree' t') → SpellAnswer env tree tree' (.ok t) (.ok t')
  | refused (e) : SpellAnswer env tree tree' (.error e) (.error e)

/-- The templates under a name. -/
inductive Spec.SpellEntry (env : Env) (tree tree' : Template → Tree) : Option Template → Option Template → Prop
  | found {t t'} : SpellSame env t (tree t) t' (tree' t') → SpellEntry env tree tree' (some t) (some t')
  | missing : SpellEntry env tree tree' none none

/-- The sources of included templates: two template functions, or two registries. -/
def Spec.SpellTemplates (env : Env) (tree tree' : Template → Tree) (r r' : Renderer) : Prop :=
  match r.templateFn, r'.templateFn with
  | some f, some f' => ∀ asked n, SpellAnswer env tree tree' (f asked n) (f' asked n)
  | none, none => ∀ n, SpellEntry env tree tree' (r.engine.getTemplate n) (r'.engine.getTemplate n)
  | _, _ => False

/-- The second renderer is the first, with other trim markers, comments and blanks inside tags in its template and those that it includes. -/
structure Spec.Remarked (env : Env) (tree tree' : Template → Tree) (T T' : Tree) (r r' : Renderer) : Prop where
  name : r.name = r'.name
  globals : r.globals = r'.globals
  functions : r.engine.functions = r'.engine.functions
  formatter : r.engine.defaultFormatter = r'.engine.defaultFormatter
  depth : r.maxIncludeDepth.getD r.engine.maxIncludeDepth = r'.maxIncludeDepth.getD r'.engine.maxIncludeDepth
  template : SpellSame env r.template T r'.template T'
  templates : SpellTemplates env tree tree' r r'

section
variable {env : Env} {tree tree' : Template → Tree} {T T' : Tree} {r r' : Renderer}

theorem Spec.SpellSame.related {t t' : Template} (h : SpellSame env t T t' T') : Related (Plain.Retexted SameButBlanks) env t T t' T' := by
  obtain ⟨⟨ws, h1, h2⟩, h3, h4⟩ := h
  exact C83_says h1 h2 h3 h4

theorem Spec.Remarked.rewritten (h : Remarked env tree tree' T T' r r') : Rewritten (Plain.Retexted SameButBlanks) env tree tree' T T' r r' := by
  refine ⟨h.name, h.globals, h.functions, h.formatter, h.depth, h.template.related, ?_⟩
  have := h.templates
  unfold SpellTemplates at this
  unfold RelatedTemplates
  split at this
  · rename_i f f' e e'
    rw [e, e']
    intro asked n
    have := this asked n
    generalize f asked n = p, f' asked n = q at this ⊢
    cases this with
    | found h => exact .found h.related
    | refused e => exact .refused e
  · rename_i e e'
    rw [e, e']
    intro n
    have := this n
    generalize r.engine.getTemplate n = p, r'.engine.getTemplate n = q at this ⊢
    cases this with
    | found h => exact .found h.related
    | missing => exact .missing
  · exact this.elim

/-- **C83** With other trim markers, comments and blanks inside tags the output is the same apart from white space, and errors are the same up to their
place. -/
theorem C83_to_string (h : Remarked env tree tree' T T' r r') {res res' : Res Str} (h1 : r.ToString env res) (h2 : r'.ToString env res') :
    EndsAlike SameButBlanks res res' := C76_blanks h.rewritten h1 h2

/-- **C83** The same on every writer that takes what it is given, also for what a failed render leaves there. -/
theorem C83_to_writer {ω : Type} {io : IoWriter ω} {log : ω → List UInt8} (h : Remarked env tree tree' T T' r r') (ha : Accepts io log) {w₀ w w' : ω}
    {res res' : Res Unit} (h1 : r.ToWriter env io w₀ res w) (h2 : r'.ToWriter env io w₀ res' w') :
    Unplaced res = Unplaced res' ∧ (res ≠ .crash → ∃ s s', SameButBlanks s s' ∧ log w = log w₀ ++ utf8 s ∧ log w' = log w₀ ++ utf8 s') :=
  C76_to_writer blanks_likeness h.rewritten ha h1 h2

end
end Upon
