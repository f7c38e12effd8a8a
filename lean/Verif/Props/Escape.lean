import Verif.Spec.Escape
import Verif.Props.Print
import Verif.Props.Richer
import Verif.Props.Partial
/-
C84: every text can be written as a template.
-/
namespace Upon
open Spec

namespace Escape

/-- The statements of the piece. -/
def stmts : Passage → List Plain.Stmt
  | .asIs s => s.map .char
  | .literal s => [.expr (.base (.lit (.string s)))]

section
variable {env : Env}

theorem words_append (fl : Plain.FloatText) (a c : List Plain.Stmt) : Plain.stmtsWords fl (a ++ c) = Plain.stmtsWords fl a ++ Plain.stmtsWords fl c := by
  induction a with
  | nil => rfl
  | cons s a ih => rw [List.cons_append, Plain.stmtsWords, Plain.stmtsWords, ih, List.append_assoc]

theorem words_chars (fl : Plain.FloatText) (s : Str) : Plain.stmtsWords fl (s.map .char) = s.map .char := by
  induction s with
  | nil => rfl
  | cons c s ih => rw [List.map_cons, Plain.stmtsWords, ih]; rfl

theorem words_pieces (fl : Plain.FloatText) (ps : List Passage) : Plain.stmtsWords fl (ps.flatMap stmts) = ps.flatMap Passage.items := by
  induction ps with
  | nil => rfl
  | cons p ps ih =>
    rw [List.flatMap_cons, List.flatMap_cons, words_append, ih]
    congr 1
    cases p with
    | asIs s => exact words_chars fl s
    | literal s => rfl

theorem ok_append {fl : Plain.FloatText} {a c : List Plain.Stmt} (ha : Plain.StmtsOk fl env a) (hc : Plain.StmtsOk fl env c) : Plain.StmtsOk fl env (a ++ c) := by
  induction a with
  | nil => exact hc
  | cons s a ih => exact ⟨ha.1, ih ha.2⟩

theorem ok_pieces (fl : Plain.FloatText) (ps : List Passage) : Plain.StmtsOk fl env (ps.flatMap stmts) := by
  induction ps with
  | nil => trivial
  | cons p ps ih =>
    refine ok_append ?_ ih
    cases p with
    | asIs s => induction s with
      | nil => trivial
      | cons c s ih => exact ⟨trivial, ih⟩
    | literal s => exact ⟨trivial, trivial⟩

theorem eval_pieces (cfg : Plain.Cfg) (inc : Plain.Include) (name : Option Str) (ρ : Scope) {ps : List Passage}
    (hf : cfg.defaultFormatter = fmtDefault env ∨ ∀ p ∈ ps, p.IsText) (w : World Str) :
    Plain.evalStmts cfg inc name ρ (ps.flatMap stmts) w = .ok { w with out := w.out ++ ps.flatMap Passage.str } := by
  induction ps generalizing w with
  | nil => simp [Plain.evalStmts]
  | cons p ps ih =>
    have ih := ih (hf.imp_right fun h p hp => h p (List.mem_cons_of_mem _ hp))
    rw [List.flatMap_cons, Plain.evalStmts_append]
    cases p with
    | asIs s => rw [stmts, Plain.evalStmts_chars, Spec.seq, ih]; simp [Passage.str]
    | literal s =>
      have hf : cfg.defaultFormatter = fmtDefault env := hf.resolve_right fun h => h _ List.mem_cons_self
      rw [stmts, Plain.evalStmts_single]
      have : Plain.evalStmt cfg inc name ρ (.expr (.base (.lit (.string s)))) w = .ok { w with out := w.out ++ s } := by
        rw [Plain.evalStmt, Plain.emitExpr, Plain.evalExpr, Plain.evalBase, Spec.andThen, Plain.write, hf]
        · rfl
        · intro _ _ h; cases h
      rw [this, Spec.seq, ih]
      simp [Passage.str]

theorem tame_pieces (ps : List Passage) : Plain.TameAll (ps.flatMap stmts) := by
  induction ps with
  | nil => trivial
  | cons p ps ih =>
    rw [List.flatMap_cons, Plain.tameAll_append]
    refine ⟨?_, ih⟩
    cases p with
    | asIs s => exact Plain.tameAll_chars s
    | literal s => exact ⟨trivial, trivial⟩

/-- A template of these statements renders to the text, in every engine. -/
theorem renders {t : Template} {T : Tree} (hT : Parsed env t T) {ps : List Passage} (e : Plain.ofStmts T.source T.body = ps.flatMap stmts)
    {r : Renderer} (ht : r.template = t) (hn : r.templateFn = none) {b : SState} (hb : r.base = .ok b)
    (hf : r.engine.defaultFormatter = fmtDefault env ∨ ∀ p ∈ ps, p.IsText) (res : Res Str) : r.ToString env res ↔ res = .ok (ps.flatMap Passage.str) := by
  subst ht
  -- the same renderer in an engine without functions and templates
  let r₀ : Renderer := { r with engine := { r.engine with functions := [], templates := [] } }
  have hr : Richer r₀ r := ⟨rfl, rfl, rfl, rfl, rfl, fun _ _ h => by simp [r₀, BMap.get] at h, fun _ _ _ h => by simp [r₀, BMap.get] at h, Nat.le_refl _⟩
  have none_ : ∀ t, ¬ Includable (r₀.cfg env stringSink) t := by
    intro t h
    unfold Includable Renderer.cfg at h
    dsimp only [r₀] at h
    rw [hn] at h
    obtain ⟨n, hn⟩ := h
    simp [BMap.get] at hn
  have hTt : Tame T.body := (Plain.tame_of _).mp (by rw [e]; exact tame_pieces ps)
  have k : r₀.ToString env (.ok (ps.flatMap Passage.str)) := by
    have hb₀ : r₀.base = .ok b := hb
    rw [C16_to_string (tree := fun _ => T) (fun t h => absurd h (none_ t)) hT hb₀]
    have key := Plain.render_plain (cfg := r₀.cfg env stringSink) (tree := fun _ => T) rfl (fun t h => absurd h (none_ t)) (.of hT hTt) r.name (Partial.globals_or hb₀)
      (w := ⟨[], []⟩)
    rw [e, Plain.render, eval_pieces _ _ _ _ hf] at key
    revert key
    generalize Spec.render asBuilt (r₀.cfg env stringSink) (fun _ => T) T r₀.name [ofBase b] ⟨[], []⟩ = x
    intro key
    cases x with
    | ok w => simp only [Plain.Run, RunRes.ok.injEq] at key; subst key; rfl
    | err _ _ => simp [Plain.Run] at key
    | crash => simp [Plain.Run] at key
  have k' := C67_same_text hr k
  exact ⟨fun h => to_string_unique h k', fun h => h ▸ k'⟩

end
end Escape

/-- A renderer for the template, in any engine with the default formatter or, if `only` holds, any formatter, under any name, with any globals that can be
converted, any include limit and no template function. -/
structure Spec.Anywhere (env : Env) (only : Prop) (t : Template) (r : Renderer) : Prop where
  template : r.template = t
  templateFn : r.templateFn = none
  globals : ∃ b, r.base = .ok b
  formatter : r.engine.defaultFormatter = fmtDefault env ∨ only

section
variable {env : Env} {b : SyntaxBuilder}

/-- **C84** Text and string literals in tags, one after the other, written down in any standard syntax such that no delimiter comes about by accident, make a
template that renders to their texts, one after the other, and to nothing else. -/
theorem C84_passages (hb : Built b) {e : Engine} (he : Engine.withSyntax env b.build = some e) (hstd : Standard b env) {ps : List Passage}
    (hn : NoAccident b (ps.flatMap Passage.items)) :
    ∃ t, e.compile env (print b (ps.flatMap Passage.items)) = .ok t ∧
      ∀ r, Anywhere env (∀ p ∈ ps, p.IsText) t r → ∀ res, r.ToString env res ↔ res = .ok (ps.flatMap Passage.str) := by
  have hw := Escape.words_pieces (fun _ => (false, [])) ps
  obtain ⟨t, T, h1, h2, h3⟩ := C53_tree (fl := fun _ => (false, [])) hb he hstd (Escape.ok_pieces _ ps) (hw ▸ hn)
  rw [hw] at h1
  refine ⟨t, h1, fun r h => ?_⟩
  obtain ⟨s, hs⟩ := h.globals
  exact Escape.renders h2 h3 h.template h.templateFn hs h.formatter

/-- **C84** In a standard syntax with comments and delimiters of more than one character every text can be written as it is, with comments in it that keep apart
characters that would make a delimiter: the template renders to the text, with any formatter. -/
theorem C84_commented (hb : Built b) {e : Engine} (he : Engine.withSyntax env b.build = some e) (hstd : Standard b env)
    (hk : ∃ p, b.comment = some p) (hl : ∀ p ∈ b.build, 2 ≤ p.2.length) (s : Str) :
    ∃ t, e.compile env (print b (guarded b (s.map .char))) = .ok t ∧ ∀ r, Anywhere env True t r → ∀ res, r.ToString env res ↔ res = .ok s := by
  have hw := Escape.words_pieces (fun _ => (false, [])) [.asIs s]
  obtain ⟨t, T, h1, h2, h3⟩ := C53_tree_any (fl := fun _ => (false, [])) hb he hstd hk hl (Escape.ok_pieces _ [.asIs s])
  rw [hw] at h1
  refine ⟨t, by simpa [Passage.items] using h1, fun r h res => ?_⟩
  obtain ⟨b, hb⟩ := h.globals
  have := Escape.renders h2 h3 h.template h.templateFn hb (.inr fun p hp => by rw [List.mem_singleton.mp hp]; trivial) res
  simpa [Passage.str] using this

/-- **C84** In every standard syntax every text can be written as a string literal in a tag. -/
theorem C84_literal (hb : Built b) {e : Engine} (he : Engine.withSyntax env b.build = some e) (hstd : Standard b env) (s : Str) {o c : Str}
    (hx : b.expr = some (o, c)) :
    ∃ t, e.compile env (o ++ [' '] ++ quoted s ++ [' '] ++ c) = .ok t ∧ ∀ r, Anywhere env False t r → ∀ res, r.ToString env res ↔ res = .ok s := by
  obtain ⟨t, h1, h2⟩ := C84_passages hb he hstd (ps := [.literal s]) (by
    intro before c after e
    rcases before with _ | ⟨_, _ | ⟨_, _ | ⟨_, _⟩⟩⟩ <;> simp [Passage.items] at e)
  refine ⟨t, ?_, fun r h res => ?_⟩
  · simpa [Passage.items, print, spell, hx] using h1
  · have := h2 r ⟨h.template, h.templateFn, h.globals, h.formatter.imp_right False.elim⟩ res
    simpa [Passage.str] using this

/-- **C84** In the default syntax: `{{ "…" }}`. -/
theorem C84_default (hu : AsciiNames env) {e : Engine} (he : Engine.withSyntax env Syn.default = some e) (s : Str) :
    ∃ t, e.compile env ("{{ ".toList ++ quoted s ++ " }}".toList) = .ok t ∧ ∀ r, Anywhere env False t r → ∀ res, r.ToString env res ↔ res = .ok s := by
  have := C84_literal (b := defaultBuilder) default_built he (C53_default hu) s rfl
  simpa using this

end
end Upon
