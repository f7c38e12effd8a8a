import Verif.Proofs.Texts2
import Verif.Props.Refactor
import Verif.Props.Partial
/-
C76: text between the tags is passed on, and decides nothing.
-/
namespace Upon
open Spec

/-- Both succeed with texts that are alike, or both fail with the same error up to its place, or both panic. -/
inductive Spec.EndsAlike (R : Str → Str → Prop) : Res Str → Res Str → Prop
  | texts {s s'} : R s s' → EndsAlike R (.ok s) (.ok s')
  | errors {e e'} : unplaced e = unplaced e' → EndsAlike R (.err e) (.err e')
  | crash : EndsAlike R .crash .crash

namespace Plain
section
variable {R : Str → Str → Prop} {env : Env} {tree tree' : Template → Tree} {T T' : Tree} {r r' : Renderer}

theorem retexted_render (hR : Likeness R) (h : Rewritten (Retexted R) env tree tree' T T' r r') (b : SState) :
    LikeRun R (render (ofCfg (r.cfg env stringSink) tree) (ofStmts T.source T.body) r.name [Spec.ofBase b] ⟨[], []⟩)
      (render (ofCfg (r'.cfg env stringSink) tree') (ofStmts T'.source T'.body) r'.name [Spec.ofBase b] ⟨[], []⟩) := by
  obtain ⟨k1, k2, k3, k4⟩ := cfg_related h
  rw [← h.name]
  exact like_render hR k1 k2 k3 k4 h.template.related r.name _

theorem rephrased_flip {ws us : List Item} (h : Rephrased R ws us) : Rephrased (fun a b => R b a) us ws := by
  induction h with
  | text h => exact .text h
  | tag h1 h2 _ ih => exact .tag h1 h2 ih

theorem rephrased_accepted {b b' : SyntaxBuilder} {a a' : AC.Auto} {src src' : Str}
    (s : Setup b ⟨env, a, src⟩) (hw : Tidy b.build src) (s' : Setup b' ⟨env, a', src'⟩) (hw' : Tidy b'.build src')
    {ts ts' : List Tok} (hl : Layout b.build env src (.text false) 0 ts) (hl' : Layout b'.build env src' (.text false) 0 ts')
    (he : Rephrased R (words src ts) (words src' ts')) (h : ∃ t, compileSource ⟨env, a, src⟩ = .ok t) : ∃ t, compileSource ⟨env, a', src'⟩ = .ok t := by
  obtain ⟨t, ht⟩ := h
  obtain ⟨ts₁, ast, k1, k2, _⟩ := (C09_grammar s hw t).mp ht
  cases C09_tokens_unique s hw hl k1
  obtain ⟨_, w, _⟩ := rephrased_tree (stmts_words k2) he
  obtain ⟨ast', g⟩ := tree_exists hl' w
  exact ⟨_, (C09_grammar s' hw' _).mpr ⟨ts', ast', hl', g, Compiler.compileTemplate_eq _ _⟩⟩

theorem ends_alike {p q : RunRes Str} (h : LikeRun R (Run p) (Run q)) : EndsAlike R (stringResult p) (stringResult q) := by
  generalize hx : Run p = x, hy : Run q = y at h
  cases h with
  | ok hw =>
    cases p <;> simp only [Run, RunRes.ok.injEq, reduceCtorEq] at hx
    cases q <;> simp only [Run, RunRes.ok.injEq, reduceCtorEq] at hy
    subst hx hy
    exact .texts hw.out
  | err hw =>
    cases p <;> simp only [Run, RunRes.err.injEq, reduceCtorEq] at hx
    cases q <;> simp only [Run, RunRes.err.injEq, reduceCtorEq] at hy
    exact .errors (hx.1.trans hy.1.symm)
  | crash =>
    cases p <;> simp only [Run, reduceCtorEq] at hx
    cases q <;> simp only [Run, reduceCtorEq] at hy
    exact .crash

end
end Plain

section
variable {R : Str → Str → Prop} {env : Env} {tree tree' : Template → Tree} {T T' : Tree} {r r' : Renderer}

/-- **C76** Other text between the tags of a template and of those that it includes, alike in some way, gives an output that is alike in that way, or the same
error up to its place: text decides nothing else. -/
theorem C76_to_string (hR : Likeness R) (h : Rewritten (Plain.Retexted R) env tree tree' T T' r r') {res res' : Res Str} (h1 : r.ToString env res)
    (h2 : r'.ToString env res') : EndsAlike R res res' := by
  have eb : r.base = r'.base := by unfold Renderer.base; rw [h.globals]
  cases hb : r.base with
  | ok b =>
    have hb' := eb ▸ hb
    have e := Plain.retexted_render hR h b
    rw [C16_to_string (fun t ht => (Plain.old_all h t ht).1) h.template.old hb] at h1
    rw [C16_to_string (fun t ht => (Plain.new_all h t ht).1) h.template.new hb'] at h2
    subst h1 h2
    rw [← Plain.render_plain rfl (fun t ht => (Plain.old_all h t ht).2) (Plain.Related.left h.template).2 _ (Partial.globals_or hb),
      ← Plain.render_plain rfl (fun t ht => (Plain.new_all h t ht).2) (Plain.Related.right h.template).2 _ (Partial.globals_or hb')] at e
    exact Plain.ends_alike e
  | err e =>
    have hb' := eb ▸ hb
    cases h1 <;> cases h2 <;> simp_all
    exact .errors rfl
  | crash =>
    have hb' := eb ▸ hb
    cases h1 <;> cases h2 <;> simp_all
    exact .crash

/-- **C76** The same on every writer that takes what it is given, also for what a failed render leaves there. -/
theorem C76_to_writer {ω : Type} {io : IoWriter ω} {log : ω → List UInt8} (hR : Likeness R) (h : Rewritten (Plain.Retexted R) env tree tree' T T' r r')
    (ha : Accepts io log) {w₀ w w' : ω} {res res' : Res Unit} (h1 : r.ToWriter env io w₀ res w) (h2 : r'.ToWriter env io w₀ res' w') :
    Unplaced res = Unplaced res' ∧ (res ≠ .crash → ∃ s s', R s s' ∧ log w = log w₀ ++ utf8 s ∧ log w' = log w₀ ++ utf8 s') := by
  have eb : r.base = r'.base := by unfold Renderer.base; rw [h.globals]
  cases hb : r.base with
  | ok b =>
    have hb' := eb ▸ hb
    have e := Plain.retexted_render hR h b
    have k1 := Partial.writer_plain ha (Plain.old_all h) (Plain.Related.left h.template) hb h1
    have k2 := Partial.writer_plain ha (Plain.new_all h) (Plain.Related.right h.template) hb' h2
    generalize Plain.render (Plain.ofCfg (r.cfg env stringSink) tree) (Plain.ofStmts T.source T.body) r.name [ofBase b] ⟨[], []⟩ = x at e k1
    generalize Plain.render (Plain.ofCfg (r'.cfg env stringSink) tree') (Plain.ofStmts T'.source T'.body) r'.name [ofBase b] ⟨[], []⟩ = y at e k2
    cases e with
    | ok hw => exact ⟨by rw [k1.1, k2.1], fun _ => ⟨_, _, hw.out, k1.2, k2.2⟩⟩
    | err hw => exact ⟨by rw [k1.1, k2.1], fun _ => ⟨_, _, hw.out, k1.2, k2.2⟩⟩
    | crash => exact ⟨by rw [show Unplaced res = .crash from k1, show Unplaced res' = .crash from k2], fun hc => absurd (Partial.unplaced_crash k1) hc⟩
  | err e =>
    have hb' := eb ▸ hb
    cases h1 <;> cases h2 <;> simp_all
    exact ⟨[], [], hR.same _, by simp [utf8]⟩
  | crash =>
    have hb' := eb ▸ hb
    cases h1 <;> cases h2 <;> simp_all

theorem blanks_likeness : Likeness SameButBlanks := ⟨fun _ => rfl, fun h1 h2 => by
  unfold SameButBlanks at *; rw [List.filter_append, List.filter_append, h1, h2]⟩

/-- **C76** White space between tags can be changed freely: the output is the same apart from white space. -/
theorem C76_blanks (h : Rewritten (Plain.Retexted SameButBlanks) env tree tree' T T' r r') {res res' : Res Str} (h1 : r.ToString env res)
    (h2 : r'.ToString env res') : EndsAlike SameButBlanks res res' := C76_to_string blanks_likeness h h1 h2

/-- **C76** Whether a render succeeds, and with which error it fails, does not depend on the text between the tags at all. -/
theorem C76_whatever (h : Rewritten (Plain.Retexted fun _ _ => True) env tree tree' T T' r r') {res res' : Res Str} (h1 : r.ToString env res)
    (h2 : r'.ToString env res') : ((∃ s, res = .ok s) ↔ ∃ s, res' = .ok s) ∧ ∀ e, Unplaced res = .err e ↔ Unplaced res' = .err e := by
  have := C76_to_string ⟨fun _ => trivial, fun _ _ => trivial⟩ h h1 h2
  cases this with
  | texts => exact ⟨⟨fun _ => ⟨_, rfl⟩, fun _ => ⟨_, rfl⟩⟩, fun e => by simp [Unplaced]⟩
  | errors h => exact ⟨by simp, fun e => by simp [Unplaced, h]⟩
  | crash => exact ⟨by simp, fun e => by simp [Unplaced]⟩

/-- **C76** Of two texts that are laid out as tokens and have the same tags, with whatever text around them, an engine accepts both or neither. -/
theorem C76_accepts {b b' : SyntaxBuilder} {a a' : AC.Auto} {src src' : Str}
    (s : Setup b ⟨env, a, src⟩) (hw : Tidy b.build src) (s' : Setup b' ⟨env, a', src'⟩) (hw' : Tidy b'.build src')
    {ts ts' : List Tok} (hl : Layout b.build env src (.text false) 0 ts) (hl' : Layout b'.build env src' (.text false) 0 ts')
    (he : Rephrased R (words src ts) (words src' ts')) :
    (∃ t, compileSource ⟨env, a, src⟩ = .ok t) ↔ ∃ t, compileSource ⟨env, a', src'⟩ = .ok t :=
  ⟨Plain.rephrased_accepted s hw s' hw' hl hl' he, Plain.rephrased_accepted s' hw' s hw hl' hl (Plain.rephrased_flip he)⟩

/-- **C76** Templates that say the same up to text are the templates that the other theorems are about. -/
theorem C76_says {t t' : Template} {ws ws' : List Item} (h : Says env t T ws) (h' : Says env t' T' ws') (ht : Tame T.body) (ht' : Tame T'.body)
    (he : Rephrased R ws ws') : Related (Plain.Retexted R) env t T t' T' := by
  refine ⟨h.parsed, h'.parsed, ht, ht', ?_⟩
  obtain ⟨_, _, ts, _, _, _, _, h1, rfl⟩ := h
  obtain ⟨_, _, ts', _, _, _, _, h1', rfl⟩ := h'
  obtain ⟨b, k1, k2⟩ := Plain.rephrased_tree (Plain.stmts_words h1) he
  cases Plain.stmts_unique (Plain.stmts_words h1') k1
  exact k2

end
end Upon
