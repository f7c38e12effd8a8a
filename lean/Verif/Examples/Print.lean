import Verif.Props.Print
import Verif.Examples.Words
/-
Concrete cases that meet the hypotheses of the theorems of Props/Print, and the reason for the condition on the text.
-/
namespace Upon.Demo
open Spec

theorem ascii_names : AsciiNames asciiEnv := fun _ _ => ⟨rfl, rfl⟩

/-- The syntax `<( )>`, `<% %>`, `<* *>`. -/
def round : SyntaxBuilder := ⟨some ("<(".toList, ")>".toList), some ("<%".toList, "%>".toList), some ("<*".toList, "*>".toList)⟩

theorem round_built : Built round :=
  .comment (x := "<*".toList) (y := "*>".toList) (.block (x := "<%".toList) (y := "%>".toList)
    (.expr (x := "<(".toList) (y := ")>".toList) .new rfl) rfl) rfl

/-- It is standard. -/
theorem round_standard : Standard round asciiEnv where
  expr := ⟨_, rfl⟩
  block := ⟨_, rfl⟩
  solid := by decide
  starts := by
    have key : ∀ p ∈ round.build, p.2.head? = some '-' ∧ p.2.tail ≠ [] ∨ p.2.head?.all (fun c => decide (c ∈ ['<', ')', '%', '*'])) = true := by
      decide
    have key2 : ∀ c ∈ ['<', ')', '%', '*'], c ∉ ['.', '|', ',', ':', '+', '-', '?', '"', ' ', '\t'] ∧ isDigit c = false ∧
        isIdentStart asciiEnv c = false := by decide
    intro p hp c r e
    rcases key p hp with ⟨h1, h2⟩ | h1
    · rw [e] at h1 h2; simp at h1; exact .inl ⟨h1, h2⟩
    · rw [e] at h1
      obtain ⟨k1, k2, k3⟩ := key2 c (by simpa using h1)
      refine .inr ⟨?_, k3⟩
      rintro (h' | h')
      · exact k1 h'
      · rw [k2] at h'; cases h'
  apart := by decide
  ends := by decide
  stops := by decide
  keys := Print.keys ascii_names

theorem engine_of {b : SyntaxBuilder} (hb : Built b) : ∃ e, Engine.withSyntax asciiEnv b.build = some e := by
  obtain ⟨a, ha, _⟩ := C02_total hb
  exact ⟨_, by rw [Engine.withSyntax, ha]; rfl⟩

/-- Look for delimiters that come about by accident. -/
def clean (b : SyntaxBuilder) : List Item → Bool
  | [] => true
  | .char c :: ws => b.build.all (fun p => !p.2.isPrefixOf (print b (.char c :: ws))) && clean b ws
  | _ :: ws => clean b ws

theorem clean_ok {b : SyntaxBuilder} : ∀ {ws : List Item}, clean b ws = true → NoAccident b ws := by
  intro ws
  induction ws with
  | nil => intro _ before c after e; simp at e
  | cons w ws ih =>
    intro h before c after e p hp hpre
    cases before with
    | nil =>
      cases e
      simp only [clean, Bool.and_eq_true, List.all_eq_true] at h
      have := h.1 p hp
      rw [List.isPrefixOf_iff_prefix.mpr hpre] at this
      cases this
    | cons x before =>
      cases e
      refine ih ?_ before c after rfl p hp hpre
      cases w <;> simp only [clean, Bool.and_eq_true] at h <;> first | exact h | exact h.2

section

/-- All floating point numbers are written as `2.5`, as one of them should. -/
def fl : Plain.FloatText := fun _ => (false, "2.5".toList)

/-- A tree with blocks in blocks, paths, filters, an include and all kinds of literals. -/
def pTree : List Plain.Stmt := [.char '}', .char '\n',
  .forLoop (.keyValue ['k'] ['v']) (.base (.var "m".toList ⟨.direct, .key "m".toList⟩ [⟨.optional, .key "in_".toList⟩, ⟨.direct, .index 10⟩]))
    [.ifElse true (.call ['f'] (some [.lit (.integer (-9)), .lit (.bool true)]) (.base (.lit (.string "a\"\n\\".toList))))
      [.expr (.call ['g'] none (.base (.lit (.integer 0))))] (some [.include_ ['b'] (some (.base (.var ['k'] ⟨.direct, .key ['k']⟩ [])))])],
  .with_ (.base (.lit (.integer 3))) ['n'] [.char 'x']]

theorem name_ok {s : Str} (h1 : s ∉ keywords) (h2 : s.head?.any (fun c => decide (c.toNat < 128) && c.isAlpha) = true)
    (h3 : s.tail.all (fun c => asciiEnv.xidContinue c) = true) : TokText asciiEnv .ident s := by
  cases s with
  | nil => cases h2
  | cons c r =>
    simp only [List.head?_cons, Option.any_some, Bool.and_eq_true, decide_eq_true_eq] at h2
    have := Print.words_of_ascii (env := asciiEnv) ascii_names (s := [c]) ⟨c, [], rfl, h2.1, h2.2, by simp⟩
    obtain ⟨c', r', e, k1, k2, _⟩ := this
    cases e
    exact ⟨h1, c, r, rfl, k1, k2, by simpa [isIdentChar] using h3⟩

theorem pTree_ok : Plain.StmtsOk fl asciiEnv pTree := by
  have n : ∀ {s}, (s ∈ ["k".toList, "v".toList, "m".toList, "in_".toList, "f".toList, "g".toList, "n".toList]) → TokText asciiEnv .ident s := by
    intro s hs
    have key : ∀ s ∈ ["k".toList, "v".toList, "m".toList, "in_".toList, "f".toList, "g".toList, "n".toList], s ∉ keywords ∧
      s.head?.any (fun c => decide (c.toNat < 128) && c.isAlpha) = true ∧ s.tail.all (fun c => asciiEnv.xidContinue c) = true := by decide
    obtain ⟨h1, h2, h3⟩ := key s hs
    exact name_ok h1 h2 h3
  have i : ∀ i, FitsI64 i → Plain.ExprOk fl asciiEnv (.base (.lit (.integer i))) := fun _ h => h
  refine ⟨trivial, trivial, ⟨⟨n (by decide), n (by decide)⟩, ⟨n (by decide), rfl, ?_⟩, id, ⟨?_, ⟨⟨n (by decide), i 0 (by unfold FitsI64; decide)⟩, trivial⟩,
    ⟨⟨n (by decide), rfl, by simp⟩, trivial⟩⟩, trivial⟩, ⟨i 3 (by unfold FitsI64; decide), n (by decide), trivial, trivial⟩, trivial⟩
  · intro m hm
    simp only [List.mem_cons, List.not_mem_nil, or_false] at hm
    rcases hm with rfl | rfl
    · exact n (by decide)
    · show 10 < 2 ^ 64; decide
  · refine ⟨n (by decide), by simp, ?_, trivial⟩
    intro a ha
    simp only [List.mem_cons, List.not_mem_nil, or_false] at ha
    rcases ha with rfl | rfl
    · show FitsI64 (-9); unfold FitsI64; decide
    · trivial

/-- Its text. -/
def pText : String := "}\n{% for k , v in m ?. in_ . 10 %}{% if not \"a\\\"\\n\\\\\"\" | f : - 9 , true %}{{ 0 | g }}{% else %}{% include \"b\" with k %}{% endif %}{% endfor %}{% with 3 as n %}x{% endwith %}"

theorem pText_eq : print defaultBuilder (Plain.stmtsWords fl pTree) = pText.toList := by decide +kernel

/-- The tree is written down. -/
example : ∃ e, Engine.new asciiEnv = some e ∧ ∃ t T, e.compile asciiEnv pText.toList = .ok t ∧ Parsed asciiEnv t T ∧
    Plain.ofStmts T.source T.body = pTree := by
  obtain ⟨e, he⟩ := engine_of default_built
  refine ⟨e, he, ?_⟩
  rw [← pText_eq]
  refine C53_tree default_built he (C53_default ascii_names) pTree_ok (clean_ok (by decide +kernel))
end

/-- An environment whose reader for floating point numbers knows `2.5`. -/
def halfEnv : Env := { asciiEnv with parseF64 := fun s => if s = "2.5".toList then some 0x4004000000000000#64 else none }

theorem digits_chars {b : Nat} {ds : Str} {n : Nat} (h : Digits b ds n) : ∀ c ∈ ds, c = '_' ∨ digitVal c ≠ none := by
  induction h with
  | nil => simp
  | under _ ih =>
    intro c hc
    rw [List.mem_append, List.mem_singleton] at hc
    exact hc.elim (ih c) .inl
  | digit _ hd _ ih =>
    intro c hc
    rw [List.mem_append, List.mem_singleton] at hc
    rcases hc with hc | rfl
    · exact ih c hc
    · exact .inr (by rw [hd]; simp)

/-- A template with a floating point number and a minus sign. -/
example : ∃ e, Engine.new halfEnv = some e ∧ ∃ t T, e.compile halfEnv "{{ - 2.5 }}".toList = .ok t ∧ Parsed halfEnv t T ∧
    Plain.ofStmts T.source T.body = [.expr (.base (.lit (.float 0xc004000000000000#64)))] := by
  obtain ⟨a, ha, _⟩ := C02_total default_built
  have he : Engine.withSyntax halfEnv defaultBuilder.build = some ⟨a, fmtDefault halfEnv, [], [], 64⟩ := by
    rw [Engine.withSyntax, ha]; rfl
  refine ⟨_, he, ?_⟩
  have hn : ∀ n, IntLit "2.5".toList n → ¬ FitsI64 (signed true n) := by
    intro n h
    cases h with
    | dec _ _ _ h => exact absurd (digits_chars h '.' (by decide)) (by decide)
  have h : Plain.LitOk (fun _ => (true, "2.5".toList)) halfEnv (.float 0xc004000000000000#64) :=
    ⟨⟨'2', _, rfl, by decide, by decide⟩, NumLit.float (env := halfEnv) (neg := true) (f := 0x4004000000000000#64) hn (by decide)⟩
  exact C53_tree (fl := fun _ => (true, "2.5".toList)) default_built he (C53_default (fun _ _ => ⟨rfl, rfl⟩)) (ss := [.expr (.base (.lit (.float 0xc004000000000000#64)))]) ⟨h, trivial⟩
    (clean_ok (by decide +kernel))

/-- A template in the syntax `<< >>` is written in the default syntax. -/
example : ∃ e, Engine.new asciiEnv = some e ∧ ∃ t T,
    e.compile asciiEnv "a{% if x . n %}{{ x . n | add : 1 }}{% endif %}!{% include \"b\" %}".toList = .ok t ∧ Says asciiEnv t T kWords := by
  obtain ⟨e, he⟩ := engine_of default_built
  obtain ⟨t, T, h1, _, h2⟩ := C53_translate default_built he (C53_default ascii_names) (says_of angle_built angle_tidy check_angle (T := k') (ws := kWords) (by simp))
    (clean_ok (by decide +kernel))
  exact ⟨e, he, t, T, by rw [← h1]; exact congrArg _ (by decide +kernel), h2⟩

/-- What a template that writes `{{` around a name says. -/
def braces : List Item := [.char '{', .char '{', .sign .beginExpr, .word .ident ['x'], .sign .endExpr, .char '}', .char '}']

/-- In the syntax `<( )>` this is `{{<( x )>}}`; it can be written in the default syntax, with comments. -/
example : ∃ e e', Engine.withSyntax asciiEnv round.build = some e ∧ Engine.new asciiEnv = some e' ∧ ∃ t T t' T',
    e.compile asciiEnv "{{<( x )>}}".toList = .ok t ∧ Says asciiEnv t T braces ∧
    e'.compile asciiEnv "{ {#- #}{ {#- #}{{ x }}} {#- #}} {#- #}".toList = .ok t' ∧ Says asciiEnv t' T' braces := by
  obtain ⟨e, he⟩ := engine_of round_built
  obtain ⟨e', he'⟩ := engine_of default_built
  have hx : TokText asciiEnv .ident ['x'] := name_ok (by decide) (by decide) (by decide)
  have hs : InPlace asciiEnv none braces := .char (.char (.beginExpr (.word rfl hx trivial (.close (.char (.char .nil))))))
  have h1 : Spec.said braces = braces := by decide
  have h2 : Complete asciiEnv braces := ⟨[.char '{', .char '{', .expr (.base (.var ['x'] ⟨.direct, .key ['x']⟩ [])), .char '}', .char '}'],
    .char (.char (.expr (is := [.word .ident ['x']]) ⟨_, _, [], rfl, .var .nil, .nil⟩ (.char (.char .nil))))⟩
  obtain ⟨t, T, k1, _, k2⟩ := C53_print round_built he round_standard hs (h1.symm ▸ h2) (clean_ok (by decide +kernel)) fun _ => ⟨_, rfl⟩
  rw [h1] at k2
  obtain ⟨t', T', k3, _, k4⟩ := C53_translate_any default_built he' (C53_default ascii_names) ⟨_, rfl⟩ (by decide) k2
  exact ⟨e, e', he, he', t, T, t', T', by rw [← k1]; exact congrArg _ (by decide +kernel), k2,
    by rw [← k3]; exact congrArg _ (by decide +kernel), k4⟩

def noTemplate : Res Template → Bool
  | .err _ => true
  | _ => false

set_option maxRecDepth 100000 in
theorem braces_fail : (AC.new Syn.default).map (fun a => noTemplate (compileSource ⟨asciiEnv, a, "{{{{ x }}}}".toList⟩)) = some true := by decide +kernel

/-- Without the comments it is no template. -/
example : print defaultBuilder braces = "{{{{ x }}}}".toList ∧
    ∃ e, Engine.new asciiEnv = some e ∧ ∃ err, e.compile asciiEnv "{{{{ x }}}}".toList = .err err := by
  refine ⟨by decide +kernel, ?_⟩
  obtain ⟨a, ha⟩ := default_setup asciiEnv "{{{{ x }}}}".toList
  have hk := braces_fail
  have ha' : AC.new Syn.default = some a := ha.searcher
  rw [ha'] at hk
  refine ⟨⟨a, fmtDefault asciiEnv, [], [], 64⟩, by rw [Engine.new, Engine.withSyntax, ha']; rfl, ?_⟩
  show ∃ err, compileSource ⟨asciiEnv, a, "{{{{ x }}}}".toList⟩ = .err err
  have hk : noTemplate (compileSource ⟨asciiEnv, a, "{{{{ x }}}}".toList⟩) = true := Option.some.inj hk
  generalize compileSource ⟨asciiEnv, a, "{{{{ x }}}}".toList⟩ = r at hk
  cases r with
  | err e => exact ⟨e, rfl⟩
  | ok t => cases hk
  | crash => cases hk

end Upon.Demo
