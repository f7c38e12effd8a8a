import Verif.Props.Literals
import Verif.Proofs.SimStmt
/-
C07: a template without delimiters renders to itself.
-/
namespace Upon

open Spec

/-- The code of a plain text. -/
def Spec.plainTemplate (src : Str) : Template := ⟨src, if src = [] then [] else [.emitRaw ⟨0, blen src⟩]⟩

theorem plain_find {b : SyntaxBuilder} {cx : LexCx} (s : Setup b cx)
    (h : ∀ k i j, ¬ Occurs b.build cx.source k i j) : Lexer.findAt cx 0 = .ok none := by
  rw [Lexer.findAt]
  rcases C01_search (build_nonEmpty (built_valid s.built)) s.searcher cx.source 0 with ⟨k, i, j, _, hs⟩ | ⟨hr, _⟩
  · exfalso
    obtain ⟨d, _, _, e, h1, _⟩ := hs.first
    exact h k i j ⟨d, by rw [e]; simp, h1⟩
  · rw [hr]; rfl

theorem next_of_lex {cx : LexCx} {lx lx' : Lexer} {t : Option (Token × Span)} (h : Lexer.lex cx lx = .ok (t, lx'))
    (hw : ∀ sp, t ≠ some (.whitespace, sp)) : Parser.next cx ⟨lx, none⟩ = .ok (t, ⟨lx', none⟩) := by
  have : Lexer.nextToken cx lx = .ok (t, lx') := by
    rw [Lexer.nextToken, Lexer.nextLoop, h]
    rcases t with _ | ⟨tk, sp⟩
    · rfl
    · exact if_neg (fun e => hw sp (by rw [e]))
  simp only [Parser.next, this]; rfl

/-- **C07** A text in which no delimiter occurs compiles, to the instruction that writes it. -/
theorem C07_compile {b : SyntaxBuilder} {cx : LexCx} (s : Setup b cx)
    (h : ∀ k i j, ¬ Occurs b.build cx.source k i j) :
    compileSource cx = .ok (plainTemplate cx.source) := by
  have hp : Parser.parseTemplate cx = .ok (if cx.source = [] then [] else [.raw ⟨0, blen cx.source⟩]) := by
    by_cases hn : cx.source = []
    · rw [if_pos hn]
      simp [Parser.parseTemplate, Parser.fuel, Parser.parseLoop, Parser.next, Parser.new, Lexer.nextToken,
        Lexer.nextLoop, Lexer.lex, Lexer.new, hn, dropB, Res.ofOption]
    · rw [if_neg hn]
      have hd : dropB cx.source 0 = some cx.source := by cases cx.source <;> rfl
      have hd2 : dropB cx.source (blen cx.source) = some [] := dropB_eq_some.mpr ⟨cx.source, by simp, rfl⟩
      have hf := plain_find s h
      have e : cx.source.isEmpty = false := by cases hc : cx.source <;> simp_all
      have h1 : Lexer.lex cx Lexer.new = .ok (some (.raw, ⟨0, blen cx.source⟩), { Lexer.new with cursor := blen cx.source }) := by
        rw [Lexer.lex]
        simp only [Lexer.new, hd, Res.ofOption, Res.ok_bind, e, Bool.false_eq_true, if_false]
        rw [Lexer.lexTemplate, hf]
        rfl
      have h2 : Lexer.lex cx { Lexer.new with cursor := blen cx.source } =
          .ok (none, { Lexer.new with cursor := blen cx.source }) := by
        rw [Lexer.lex]
        simp only [Lexer.new, hd2, Res.ofOption, Res.ok_bind, List.isEmpty_nil, if_true]
        rfl
      have n1 := next_of_lex h1 (by simp)
      have n2 := next_of_lex h2 (by simp)
      obtain ⟨n, hl⟩ : ∃ n, Parser.fuel cx = n + 2 := ⟨blen cx.source, rfl⟩
      rw [Parser.parseTemplate, hl, Parser.parseLoop]
      simp only [Parser.new, n1, Res.ok_bind]
      simp only [Parser.parseItem, Parser.pushStmt, Res.ok_bind, Res.pure_eq]
      rw [Parser.parseLoop, n2]
      rfl
  rw [compileSource, hp]
  by_cases hn : cx.source = [] <;>
    simp [hn, Compiler.compileTemplate_eq, Compiler.codeStmts, Compiler.codeStmt, Res.ofOption, plainTemplate]

/-- **C07** Rendering it gives the text, in any engine, under any name, with any globals (that can be
converted to a value), any include limit and any template function; and nothing else can happen. -/
theorem C07_render (env : Env) (r : Renderer) (src : Str) (ht : r.template = plainTemplate src) {b : SState}
    (hb : r.base = .ok b) (res : Res Str) : r.ToString env res ↔ res = .ok src := by
  have key : Halts (r.cfg env stringSink) (initVM r.template r.name b []) (.ok ⟨src, []⟩) := by
    rw [ht]
    by_cases hn : src = []
    · subst hn
      exact ⟨2, by simp [run, step, initVM, plainTemplate, checkDepth]⟩
    · refine ⟨3, ?_⟩
      have hs : slice src 0 (blen src) = some src := slice_eq_some.mpr ⟨[], [], by simp, rfl, by simp⟩
      simp [run, step, initVM, plainTemplate, checkDepth, hn, execInstr, Span.of, hs, Res.ofOption, OneStep.ofRes,
        Renderer.cfg, stringSink]
  constructor
  · intro h
    cases h with
    | globalsErr e h => rw [hb] at h; cases h
    | globalsCrash h => rw [hb] at h; cases h
    | ok b' w h1 h2 =>
      rw [hb] at h1; injection h1 with h1; subst h1
      have := h2.unique key
      injection this with this; rw [this]
    | err b' e w h1 h2 =>
      rw [hb] at h1; injection h1 with h1; subst h1
      have := h2.unique key
      cases this
    | crash b' h1 h2 =>
      rw [hb] at h1; injection h1 with h1; subst h1
      have := h2.unique key
      cases this
  · rintro rfl
    exact .ok b ⟨src, []⟩ hb key

/-- **C07** through the engine: compile a text without delimiters and render it. -/
theorem C07_engine (env : Env) {b : SyntaxBuilder} (hb : Built b) {e : Engine}
    (he : Engine.withSyntax env b.build = some e) {src : Str} (h : ∀ k i j, ¬ Occurs b.build src k i j)
    (e' : Engine) (name : Option Str) (v : Value) :
    ∃ t, e.compile env src = .ok t ∧ ∀ res, (Renderer.new e' t name (.borrowed v)).ToString env res ↔ res = .ok src := by
  obtain ⟨a, ha, _⟩ := C02_total hb
  rw [Engine.withSyntax, ha] at he
  have he' := (congrArg Engine.searcher (Option.some.inj he)).symm
  refine ⟨plainTemplate src, ?_, fun res => C07_render env _ src rfl rfl res⟩
  rw [Engine.compile, he']
  exact C07_compile (b := b) (cx := ⟨env, a, src⟩) ⟨hb, ha⟩ h

/-- A text with half-delimiters and a newline contains no default delimiter. -/
example : ∀ k i j, ¬ Occurs Syn.default "a { % } b\n".toList k i j := by
  rintro k i j ⟨d, hd, p, q, e, _⟩
  have key : ∀ x ∈ Syn.default, ¬ x.2 <:+: "a { % } b\n".toList := by decide +kernel
  exact key _ hd ⟨p, q, e.symm⟩

end Upon
