import Verif.Spec.Quote
import Verif.Props.Parsing
/-
C10, C11, C12: literals, seen from the outside: what `{{ <literal> }}` compiles to.
-/
namespace Upon
namespace Lit

open Spec

/-- At byte `blen pre` of `pre ++ rest` a delimiter occurs only if `rest` starts with it. -/
theorem occurs_prefix {syn : Syn} {src pre rest : Str} {k : Kind} {j : Nat} (hs : src = pre ++ rest)
    (h : Occurs syn src k (blen pre) j) : ∃ d post, (k, d) ∈ syn ∧ rest = d ++ post ∧ j = blen pre + blen d := by
  obtain ⟨d, hd, p, q, e, h1, h2⟩ := h
  rw [hs, List.append_assoc] at e
  obtain ⟨rfl, rfl⟩ := append_blen_inj e h1.symm
  exact ⟨d, q, hd, rfl, by rw [← h2]; simp⟩

theorem occurs_of_prefix {src pre d post : Str} (hs : src = pre ++ (d ++ post))
 : StandsAt src d (blen pre) (blen pre + blen d) :=
  ⟨pre, post, by rw [hs]; simp, rfl, by simp⟩

/-- Characters that no default delimiter starts with. -/
theorem free_char {src pre rest : Str} {c : Char} (hs : src = pre ++ c :: rest)
    (hc : c ∉ ['{', '}', '%', '#', '-']) (k : Kind) (j : Nat) : ¬ Occurs Syn.default src k (blen pre) j := by
  intro h
  obtain ⟨d, post, h1, h2, _⟩ := occurs_prefix hs h
  have key : ∀ p ∈ Syn.default, ∃ x ∈ ['{', '}', '%', '#', '-'], p.2.head? = some x := by decide
  obtain ⟨x, hx, he⟩ := key _ h1
  cases d with
  | nil => simp at he
  | cons y d =>
    simp at he h2
    rw [h2.1, he] at hc
    exact hc hx

/-- A minus sign that no closing delimiter follows. -/
theorem free_minus {src pre rest : Str} {c : Char} (hs : src = pre ++ '-' :: c :: rest)
    (hc : c ∉ ['}', '%', '#']) (k : Kind) (j : Nat) : ¬ Occurs Syn.default src k (blen pre) j := by
  intro h
  obtain ⟨d, post, h1, h2, _⟩ := occurs_prefix hs h
  have key : ∀ p ∈ Syn.default, p.2.head? = some '-' → ∃ x ∈ ['}', '%', '#'], p.2.tail.head? = some x := by decide
  cases d with
  | nil => exact default_nonEmpty _ h1 rfl
  | cons y d =>
    simp at h2
    obtain ⟨x, hx, he⟩ := key _ h1 (by rw [← h2.1]; rfl)
    cases d with
    | nil => simp at he
    | cons z d =>
      simp at he h2
      rw [h2.2.1, he] at hc
      exact hc hx

theorem size_space : ' '.utf8Size = 1 := by decide
theorem size_open : '{'.utf8Size = 1 := by decide
theorem size_close : '}'.utf8Size = 1 := by decide

/-- The end of the tag. -/
theorem lay_close {env : Env} {src pre : Str} (hs : src = pre ++ [' ', '}', '}']) (p : Bool) :
    Layout Syn.default env src (.tag .endExpr p) (blen pre) [(.endExpr, ⟨blen pre + 1, blen pre + 3⟩)] := by
  have hl : blen src = blen pre + 3 := by
    rw [hs]; simp [size_space, size_close]
  refine .blank (t := [' ']) (free_char hs (by decide)) ⟨['}', '}'], dropB_eq_some.mpr ⟨pre, hs, rfl⟩,
    ⟨by simp, by simp⟩, by simp [TokStop], trivial⟩ ?_
  have e : blen pre + blen [' '] = blen (pre ++ [' ']) := by simp
  have hs' : src = (pre ++ [' ']) ++ ['}', '}'] := by rw [hs]; simp
  have hn : blen pre + 3 = blen (pre ++ [' ']) + blen ['}', '}'] := by simp [size_space, size_close]
  have h1 : blen pre + 1 = blen (pre ++ [' ']) := by simp [size_space]
  rw [e, h1, hn]
  refine .close (k := .endExpr) (n := _) ⟨Nat.le_refl _, fun _ _ _ h _ => h, ?_, ?_⟩ rfl ?_
  · intro k' j' h
    have : j' ≤ blen src := by
      obtain ⟨d, _, p', q', e', _, h2⟩ := h
      rw [e', ← h2]; simp
    rw [hl] at this; omega
  · refine ⟨['}', '}'], [(.beginExpr, ['{', '{'])], Syn.default.drop 2, by decide, ?_, by intro k'; simp⟩
    exact occurs_of_prefix (post := []) (by simpa using hs')
  · rw [← hn, ← hl]; exact .done

/-- The template starts with the opening delimiter. -/
theorem delim_open {src rest : Str} {c : Char} (hs : src = '{' :: '{' :: ' ' :: c :: rest) :
    DelimAt Syn.default src .beginExpr 0 2 := by
  refine ⟨Nat.le_refl _, fun _ _ _ _ _ => Nat.zero_le _, ?_, ?_⟩
  · intro k' j' ho
    obtain ⟨d, post, h1, h2, h3⟩ := occurs_prefix (pre := []) hs ho
    have key : ∀ p ∈ Syn.default, blen p.2 ≤ 2 ∨ (p.2.length = 3 ∧ ' ' ∉ p.2) := by decide
    rcases key _ h1 with h | ⟨h, h'⟩
    · simp at h3; rw [h3]; exact h
    · exfalso
      rcases d with _ | ⟨a, _ | ⟨b, _ | ⟨c', d⟩⟩⟩ <;> simp at h2 h
      exact h' (by rw [h2.2.2.1]; simp)
  · exact ⟨['{', '{'], [], Syn.default.drop 1, by decide, ⟨[], ' ' :: c :: rest, by rw [hs]; simp, rfl, by decide⟩, by simp⟩

/-- The start of the tag and of the template. -/
theorem lay_open {env : Env} {src rest : Str} {c : Char} {ts : List (Token × Span)}
    (hs : src = '{' :: '{' :: ' ' :: c :: rest) (hc : c ≠ ' ' ∧ c ≠ '\t')
    (h : Layout Syn.default env src (.tag .endExpr false) 3 ts) :
    Layout Syn.default env src (.text false) 0 ((.beginExpr, ⟨0, 2⟩) :: ts) := by
  refine .tag (k := .beginExpr) (delim_open hs) rfl ?_
  · refine .blank (t := [' ']) ?_ ⟨c :: rest, dropB_eq_some.mpr ⟨['{', '{'], hs, by decide⟩, ⟨by simp, by simp⟩, hc, trivial⟩ h
    exact free_char (pre := ['{', '{']) hs (by decide)

theorem gstmts_nil {env : Env} {src : Str} {ss : List Stmt} (h : GStmts env src [] ss) : ss = [] := by
  have notag : ∀ {w inner tag ts}, GTag src w inner tag → ([] : List Tok) ≠ tag ++ ts := by
    intro w inner tag ts t he
    cases t; simp at he
  generalize hl : ([] : List Tok) = ts at h
  cases h with
  | nil => rfl
  | raw => simp at hl
  | comment => simp at hl
  | expr => simp at hl
  | include_ t => exact absurd hl (notag t)
  | includeWith t => exact absurd hl (notag t)
  | for_ t => simp only [List.append_assoc] at hl; exact absurd hl (notag t)
  | with_ t => simp only [List.append_assoc] at hl; exact absurd hl (notag t)
  | if_ t => simp only [List.append_assoc] at hl; exact absurd hl (notag t)

/-- A template that is one expression tag. -/
theorem gstmts_tag {env : Env} {src : Str} {b e : Span} {us : List Tok} {ss : List Stmt}
    (hu : ∀ t ∈ us, t.1 ≠ .endExpr) (h : GStmts env src ((.beginExpr, b) :: (us ++ [(.endExpr, e)])) ss) :
    ∃ x, GExpr env src us x ∧ ss = [.inlineExpr x (b.combine e)] := by
  have notag : ∀ {w inner tag ts}, GTag src w inner tag → (.beginExpr, b) :: (us ++ [(.endExpr, e)]) ≠ tag ++ ts := by
    intro w inner tag ts t he
    cases t; simp at he
  generalize hl : (.beginExpr, b) :: (us ++ [(.endExpr, e)]) = ts at h
  cases h with
  | nil => simp at hl
  | raw => simp at hl
  | comment => simp at hl
  | @expr b' e' us' x ts' ss' h1 h2 =>
    simp only [List.cons.injEq, Prod.mk.injEq, true_and] at hl
    obtain ⟨rfl, hl⟩ := hl
    rcases List.append_eq_append_iff.mp hl with ⟨z, e1, e2⟩ | ⟨z, e1, e2⟩
    · cases z with
      | nil =>
        simp at e1 e2
        obtain ⟨⟨rfl⟩, rfl⟩ := e2
        subst e1
        exact ⟨x, h1, by rw [gstmts_nil h2]⟩
      | cons z zs => simp at e2
    · cases z with
      | nil =>
        simp at e1 e2
        obtain ⟨⟨rfl⟩, rfl⟩ := e2
        subst e1
        exact ⟨x, h1, by rw [gstmts_nil h2]⟩
      | cons z zs =>
        simp at e2
        exact absurd rfl (hu (.endExpr, e') (by rw [e1, e2.1]; simp))
  | include_ t => exact absurd hl (notag t)
  | includeWith t => exact absurd hl (notag t)
  | for_ t => simp only [List.append_assoc] at hl; exact absurd hl (notag t)
  | with_ t => simp only [List.append_assoc] at hl; exact absurd hl (notag t)
  | if_ t => simp only [List.append_assoc] at hl; exact absurd hl (notag t)

/-- What a template that is one expression tag compiles to. -/
theorem compile_tag {env : Env} {e : Engine} (he : Engine.new env = some e) {src : Str} {b c : Span} {us : List Tok}
    (hu : ∀ t ∈ us, t.1 ≠ .endExpr)
    (hl : Layout Syn.default env src (.text false) 0 ((.beginExpr, b) :: (us ++ [(.endExpr, c)]))) (t : Template) :
    e.compile env src = .ok t ↔ ∃ x, GExpr env src us x ∧
      Compiler.compileTemplate src [.inlineExpr x (b.combine c)] = some t := by
  obtain ⟨a, ha, _⟩ := C02_total default_built
  have he' : e.searcher = a := by
    have ha' : AC.new Syn.default = some a := ha
    rw [Engine.new, Engine.withSyntax, ha'] at he
    exact (congrArg Engine.searcher (Option.some.inj he)).symm
  have s : Setup defaultBuilder ⟨env, a, src⟩ := ⟨default_built, ha⟩
  rw [Engine.compile, he', C09_grammar s (default_tidy _)]
  constructor
  · rintro ⟨ts, ast, h1, h2, h3⟩
    have := C09_tokens_unique s (default_tidy _) h1 hl
    subst this
    obtain ⟨x, h4, rfl⟩ := gstmts_tag hu h2
    exact ⟨x, h4, h3⟩
  · rintro ⟨x, h1, h2⟩
    exact ⟨_, _, hl, .expr h1 .nil, h2⟩

/-! Expressions of one literal -/

theorem gexpr_number {env : Env} {src : Str} {sp : Span} {x : Expr} :
    GExpr env src [(.number, sp)] x ↔ ∃ raw v, sp.of src = some raw ∧ NumLit env raw false v ∧ x = .base (.lit ⟨v, sp⟩) := by
  constructor
  · rintro ⟨us, b, vs, h1, h2, h3⟩
    rcases us with _ | ⟨u, _ | ⟨u', us⟩⟩ <;> simp at h1
    · cases h2
    · obtain ⟨rfl, rfl⟩ := h1
      cases h3
      cases h2 with
      | number h4 h5 => exact ⟨_, _, h4, h5, rfl⟩
  · rintro ⟨raw, v, h1, h2, rfl⟩
    exact ⟨[_], _, [], rfl, .number h1 h2, .nil⟩

theorem gexpr_plus {env : Env} {src : Str} {s sp : Span} {x : Expr} :
    GExpr env src [(.plus, s), (.number, sp)] x ↔
      ∃ raw v, sp.of src = some raw ∧ NumLit env raw false v ∧ x = .base (.lit ⟨v, s.combine sp⟩) := by
  constructor
  · rintro ⟨us, b, vs, h1, h2, h3⟩
    rcases us with _ | ⟨u, _ | ⟨u', _ | ⟨u'', us⟩⟩⟩ <;> simp at h1
    · cases h2
    · obtain ⟨rfl, rfl⟩ := h1
      cases h2
    · obtain ⟨rfl, rfl, rfl⟩ := h1
      cases h3
      cases h2 with
      | plus h4 h5 => exact ⟨_, _, h4, h5, rfl⟩
  · rintro ⟨raw, v, h1, h2, rfl⟩
    exact ⟨[_, _], _, [], rfl, .plus h1 h2, .nil⟩

theorem gexpr_minus {env : Env} {src : Str} {s sp : Span} {x : Expr} :
    GExpr env src [(.minus, s), (.number, sp)] x ↔
      ∃ raw v, sp.of src = some raw ∧ NumLit env raw true v ∧ x = .base (.lit ⟨v, s.combine sp⟩) := by
  constructor
  · rintro ⟨us, b, vs, h1, h2, h3⟩
    rcases us with _ | ⟨u, _ | ⟨u', _ | ⟨u'', us⟩⟩⟩ <;> simp at h1
    · cases h2
    · obtain ⟨rfl, rfl⟩ := h1
      cases h2
    · obtain ⟨rfl, rfl, rfl⟩ := h1
      cases h3
      cases h2 with
      | minus h4 h5 => exact ⟨_, _, h4, h5, rfl⟩
  · rintro ⟨raw, v, h1, h2, rfl⟩
    exact ⟨[_, _], _, [], rfl, .minus h1 h2, .nil⟩

theorem gexpr_string {env : Env} {src : Str} {sp : Span} {x : Expr} :
    GExpr env src [(.string, sp)] x ↔ ∃ raw v, sp.of src = some raw ∧ StrLit raw v ∧ x = .base (.lit ⟨.string v, sp⟩) := by
  constructor
  · rintro ⟨us, b, vs, h1, h2, h3⟩
    rcases us with _ | ⟨u, _ | ⟨u', us⟩⟩ <;> simp at h1
    · cases h2
    · obtain ⟨rfl, rfl⟩ := h1
      cases h3
      cases h2 with
      | string h4 h5 => exact ⟨_, _, h4, h5, rfl⟩
  · rintro ⟨raw, v, h1, h2, rfl⟩
    exact ⟨[_], _, [], rfl, .string h1 h2, .nil⟩

/-- The tokens of `{{ x }}` when `x` is the text of one token. -/
theorem layout_one {env : Env} {tk : Token} {c : Char} {r : Str} (ht : TokText env tk (c :: r)) (hr : tk ≠ .whitespace)
    (hstop : TokStop env tk [' ', '}', '}']) (hfit : TokFits false tk) (hc : c ∉ ['{', '}', '%', '#', '-'])
    (hw : c ≠ ' ' ∧ c ≠ '\t') :
    Layout Syn.default env ("{{ ".toList ++ (c :: r) ++ " }}".toList) (.text false) 0
      [(.beginExpr, ⟨0, 2⟩), (tk, ⟨3, 3 + blen (c :: r)⟩), (.endExpr, ⟨3 + blen (c :: r) + 1, 3 + blen (c :: r) + 3⟩)] := by
  have h3 : blen "{{ ".toList = 3 := by decide
  generalize hsrc : "{{ ".toList ++ (c :: r) ++ " }}".toList = src
  have e1 : src = "{{ ".toList ++ c :: (r ++ " }}".toList) := by rw [← hsrc]; simp
  refine lay_open (c := c) (rest := r ++ " }}".toList) (by rw [e1]; rfl) hw ?_
  have := free_char e1 hc
  rw [h3] at this
  refine .token this ⟨[' ', '}', '}'], dropB_eq_some.mpr ⟨"{{ ".toList, by rw [e1]; simp, h3⟩, ht, hstop, hfit⟩ hr ?_
  have := lay_close (env := env) (src := src) (pre := "{{ ".toList ++ (c :: r)) (by rw [← hsrc]; rfl) (nextPath false tk)
  have hl : blen ("{{ ".toList ++ (c :: r)) = 3 + blen (c :: r) := by simp [size_open, size_space]; omega
  rwa [hl] at this

/-- The tokens of `{{ -x }}` or `{{ +x }}`. -/
theorem layout_two {env : Env} {g : Char} {sg tk : Token} {c : Char} {r : Str}
    (hg : (g = '+' ∧ sg = .plus) ∨ (g = '-' ∧ sg = .minus))
    (ht : TokText env tk (c :: r)) (hr : tk ≠ .whitespace)
    (hstop : TokStop env tk [' ', '}', '}']) (hfit : TokFits false tk) (hc : c ∉ ['{', '}', '%', '#', '-']) :
    Layout Syn.default env ("{{ ".toList ++ (g :: c :: r) ++ " }}".toList) (.text false) 0
      [(.beginExpr, ⟨0, 2⟩), (sg, ⟨3, 4⟩), (tk, ⟨4, 4 + blen (c :: r)⟩),
        (.endExpr, ⟨4 + blen (c :: r) + 1, 4 + blen (c :: r) + 3⟩)] := by
  have h3 : blen "{{ ".toList = 3 := by decide
  have hg1 : g.utf8Size = 1 := by rcases hg with ⟨rfl, _⟩ | ⟨rfl, _⟩ <;> decide
  generalize hsrc : "{{ ".toList ++ (g :: c :: r) ++ " }}".toList = src
  have e1 : src = "{{ ".toList ++ g :: c :: (r ++ " }}".toList) := by rw [← hsrc]; simp
  have e2 : src = ("{{ ".toList ++ [g]) ++ c :: (r ++ " }}".toList) := by rw [← hsrc]; simp
  refine lay_open (c := g) (rest := c :: (r ++ " }}".toList)) (by rw [e1]; rfl) (by
    rcases hg with ⟨rfl, _⟩ | ⟨rfl, _⟩ <;> decide) ?_
  have f1 : ∀ k j, ¬ Occurs Syn.default src k 3 j := by
    rw [← h3]
    rcases hg with ⟨rfl, _⟩ | ⟨rfl, _⟩
    · exact free_char e1 (by decide)
    · exact free_minus e1 (fun h => hc (by simp at h ⊢; rcases h with h | h | h <;> simp [h]))
  have f2 : ∀ k j, ¬ Occurs Syn.default src k 4 j := by
    have h4 : blen ("{{ ".toList ++ [g]) = 4 := by simp [size_open, size_space, hg1]
    rw [← h4]; exact free_char e2 hc
  have t1 : TokAt env src false 3 sg [g] := by
    refine ⟨c :: (r ++ " }}".toList), dropB_eq_some.mpr ⟨"{{ ".toList, by rw [e1]; simp, h3⟩, ?_, ?_, ?_⟩ <;>
      rcases hg with ⟨rfl, rfl⟩ | ⟨rfl, rfl⟩ <;> simp [TokText, TokStop, TokFits]
  have hsg : sg ≠ .whitespace ∧ nextPath false sg = false := by
    rcases hg with ⟨_, rfl⟩ | ⟨_, rfl⟩ <;> simp [nextPath]
  have l1 : Layout Syn.default env src (.tag .endExpr false) 4
      [(tk, ⟨4, 4 + blen (c :: r)⟩), (.endExpr, ⟨4 + blen (c :: r) + 1, 4 + blen (c :: r) + 3⟩)] := by
    refine .token f2 ⟨[' ', '}', '}'], dropB_eq_some.mpr ⟨"{{ ".toList ++ [g], by rw [e1]; simp, by simp [size_open, size_space, hg1]⟩,
      ht, hstop, hfit⟩ hr ?_
    have := lay_close (env := env) (src := src) (pre := "{{ ".toList ++ (g :: c :: r)) (by rw [← hsrc]; rfl) (nextPath false tk)
    have hl : blen ("{{ ".toList ++ (g :: c :: r)) = 4 + blen (c :: r) := by simp [size_open, size_space, hg1]; omega
    rwa [hl] at this
  have := Layout.token f1 t1 hsg.1 (by rw [hsg.2]; simpa [hg1] using l1)
  simpa [hg1] using this

/-- The tokens of `{{ name.123 }}`. -/
theorem layout_path {env : Env} {c : Char} {r ds : Str} (ht : TokText env .ident (c :: r))
    (hc : c ∉ ['{', '}', '%', '#', '-']) (hid : isIdentChar env '.' = false) (hd : TokText env .index ds) :
    Layout Syn.default env ("{{ ".toList ++ (c :: r ++ '.' :: ds) ++ " }}".toList) (.text false) 0
      [(.beginExpr, ⟨0, 2⟩), (.ident, ⟨3, 3 + blen (c :: r)⟩), (.dot, ⟨3 + blen (c :: r), 3 + blen (c :: r) + 1⟩),
        (.index, ⟨3 + blen (c :: r) + 1, 3 + blen (c :: r) + 1 + blen ds⟩),
        (.endExpr, ⟨3 + blen (c :: r) + 1 + blen ds + 1, 3 + blen (c :: r) + 1 + blen ds + 3⟩)] := by
  have h3 : blen "{{ ".toList = 3 := by decide
  have hp : ¬ Punct c := by obtain ⟨_, c', r', e, h, _⟩ := ht; simp at e; rw [e.1]; exact h
  have hdot : '.'.utf8Size = 1 := by decide
  generalize hsrc : "{{ ".toList ++ (c :: r ++ '.' :: ds) ++ " }}".toList = src
  have e1 : src = "{{ ".toList ++ c :: (r ++ '.' :: (ds ++ " }}".toList)) := by rw [← hsrc]; simp
  have e2 : src = ("{{ ".toList ++ (c :: r)) ++ '.' :: (ds ++ " }}".toList) := by rw [← hsrc]; simp
  have e3 : src = ("{{ ".toList ++ (c :: r) ++ ['.']) ++ (ds ++ " }}".toList) := by rw [← hsrc]; simp
  have l2 : blen ("{{ ".toList ++ (c :: r)) = 3 + blen (c :: r) := by simp [size_open, size_space]; omega
  have l3 : blen ("{{ ".toList ++ (c :: r) ++ ['.']) = 3 + blen (c :: r) + 1 := by
    simp [size_open, size_space, hdot]; omega
  have l4 : blen ("{{ ".toList ++ (c :: r ++ '.' :: ds)) = 3 + blen (c :: r) + 1 + blen ds := by
    simp [size_open, size_space, hdot]; omega
  refine lay_open (c := c) (rest := r ++ '.' :: (ds ++ " }}".toList)) (by rw [e1]; rfl)
    ⟨fun h => hp (by rw [h]; left; decide), fun h => hp (by rw [h]; left; decide)⟩ ?_
  have f1 := free_char e1 hc
  have f2 := free_char e2 (by decide)
  rw [h3] at f1
  rw [l2] at f2
  refine .token f1 ⟨'.' :: (ds ++ " }}".toList), dropB_eq_some.mpr ⟨"{{ ".toList, by rw [e1]; simp, h3⟩, ht, hid, trivial⟩
    (by decide) ?_
  have l3' : 3 + blen (c :: r) + 1 = 3 + blen (c :: r) + blen ['.'] := by simp [hdot]
  rw [l3']
  refine .token f2 ⟨ds ++ " }}".toList, dropB_eq_some.mpr ⟨_, e2, l2⟩, rfl, trivial, trivial⟩ (by decide) ?_
  rw [← l3']
  obtain ⟨d, ds', rfl⟩ : ∃ d ds', ds = d :: ds' := by
    cases ds with
    | nil => exact absurd rfl hd.1
    | cons d ds' => exact ⟨d, ds', rfl⟩
  have hdd : isDigit d = true := hd.2 d (by simp)
  have f3 := free_char e3 (by
    intro h
    simp at h
    rcases h with rfl | rfl | rfl | rfl | rfl <;> exact absurd hdd (by decide))
  rw [l3] at f3
  refine .token f3 ⟨" }}".toList, dropB_eq_some.mpr ⟨_, e3, l3⟩, hd, show isDigit ' ' = false by decide, rfl⟩ (by decide) ?_
  have := lay_close (env := env) (src := src) (pre := "{{ ".toList ++ (c :: r ++ '.' :: (d :: ds')))
    (by rw [← hsrc]; rfl) (nextPath (nextPath (nextPath false .ident) .dot) .index)
  rwa [l4] at this

theorem gexpr_path {env : Env} {src : Str} {a b c : Span} {ds : Str} (hds : c.of src = some ds) {x : Expr} :
    GExpr env src [(.ident, a), (.dot, b), (.index, c)] x ↔ decimal ds < 2 ^ env.usizeBits ∧
      x = .base (.var ⟨⟨.direct, .key ⟨a⟩, a⟩, [⟨.direct, .index ⟨decimal ds, c⟩, b.combine c⟩]⟩) := by
  constructor
  · rintro ⟨us, e, vs, h1, h2, h3⟩
    cases h2 with
    | @var sp ts ms hp =>
      simp at h1
      obtain ⟨rfl, h1⟩ := h1
      cases hp with
      | nil => simp at h1; subst h1; cases h3
      | key hop => rcases hop with ⟨_, rfl⟩ | ⟨_, rfl⟩ <;> simp at h1
      | @index op tk sp isp s ts' ms' hop hs hlt hrest =>
        simp at h1
        obtain ⟨⟨rfl, rfl⟩, rfl, h1⟩ := h1
        have hts : ts' = [] := h1.1
        have hvs : vs = [] := h1.2
        subst hts hvs
        cases hrest
        cases h3
        rw [hs] at hds
        injection hds with hds
        subst hds
        rcases hop with ⟨rfl, _⟩ | ⟨_, h⟩
        · exact ⟨hlt, rfl⟩
        · cases h
    | true_ => simp at h1
    | false_ => simp at h1
    | number => simp at h1
    | plus => simp at h1
    | minus => simp at h1
    | string => simp at h1
  · rintro ⟨h, rfl⟩
    exact ⟨_, _, [], by simp, .var (.index (.inl ⟨rfl, rfl⟩) hds h .nil), .nil⟩

theorem of_src (a b c : Str) {m n : Nat} (hm : m = blen a) (hn : n = blen a + blen b) :
    (Span.mk m n).of (a ++ b ++ c) = some b :=
  slice_eq_some.mpr ⟨a, c, by simp, hm.symm, by rw [hn, hm]⟩

theorem digitVal_number {c : Char} {d : Nat} (h : digitVal c = some d) : isNumberChar c = true := by
  unfold digitVal at h
  simp only [isNumberChar, isDigit, Bool.or_eq_true, Bool.and_eq_true, decide_eq_true_eq]
  split at h
  · next h1 => simp [h1]
  · split at h
    · next h1 => simp [h1]
    · split at h
      · next h1 => simp [h1]
      · cases h

theorem digits_number {base : Nat} {ds : Str} {n : Nat} (h : Digits base ds n) : ∀ c ∈ ds, isNumberChar c = true := by
  induction h with
  | nil => simp
  | under _ ih => intro c hc; simp at hc; rcases hc with hc | rfl; exact ih c hc; decide
  | digit _ h1 _ ih => intro c hc; simp at hc; rcases hc with hc | rfl; exact ih c hc; exact digitVal_number h1

/-- An integer literal that starts with a digit is read as one number. -/
theorem intLit_text {raw : Str} {n : Nat} (h : IntLit raw n) {c : Char} {r : Str} (e : raw = c :: r) (hc : isDigit c = true) (env : Env) :
    TokText env .number raw := by
  refine ⟨c, r, e, hc, fun x hx => ?_⟩
  cases h with
  | bin h => injection e with _ e; subst e; simp at hx; rcases hx with rfl | hx; decide; exact digits_number h x hx
  | oct h => injection e with _ e; subst e; simp at hx; rcases hx with rfl | hx; decide; exact digits_number h x hx
  | hex h => injection e with _ e; subst e; simp at hx; rcases hx with rfl | hx; decide; exact digits_number h x hx
  | dec _ _ _ h => exact digits_number h x (by rw [e]; simp [hx])

end Lit

open Spec

/-- What `{{ lit }}` compiles to when the literal has the value `v`: start an expression with the
value, then emit it. -/
def Spec.litTemplate (src : Str) (v : Value) (sp : Span) : Template := ⟨src, [.exprStartLit v, .emit sp]⟩

/-- The text of a template that emits one literal. -/
def Spec.emitting (lit : Str) : Str := "{{ ".toList ++ lit ++ " }}".toList

/-- **C10** For every text that reads as a number and every sign: `{{ <sign><text> }}` compiles
exactly when the literal has a value (`Spec.NumLit`), and then to that value. -/
theorem C10_number {env : Env} {e : Engine} (he : Engine.new env = some e) {raw sign : Str}
    (hraw : TokText env .number raw) (hsign : sign ∈ [[], ['+'], ['-']]) (t : Template) :
    e.compile env (emitting (sign ++ raw)) = .ok t ↔
      ∃ v, NumLit env raw (sign == ['-']) v ∧
        t = litTemplate (emitting (sign ++ raw)) v ⟨3, 3 + blen (sign ++ raw)⟩ := by
  obtain ⟨c, r, rfl, hc, hr⟩ := hraw
  have hraw : TokText env .number (c :: r) := ⟨c, r, rfl, hc, hr⟩
  have hcd : c ∉ ['{', '}', '%', '#', '-'] := by
    intro h; simp at h; rcases h with rfl | rfl | rfl | rfl | rfl <;> exact absurd hc (by decide)
  have hcw : c ≠ ' ' ∧ c ≠ '\t' := by
    constructor <;> (rintro rfl; exact absurd hc (by decide))
  have hstop : TokStop env .number [' ', '}', '}'] := show isNumberChar ' ' = false by decide
  have h3 : blen "{{ ".toList = 3 := by decide
  simp only [List.mem_cons, List.not_mem_nil, or_false] at hsign
  rcases hsign with rfl | rfl | rfl
  · refine (Lit.compile_tag he (us := [(.number, ⟨3, 3 + blen (c :: r)⟩)]) (by simp)
      (Lit.layout_one hraw (by decide) hstop rfl hcd hcw) t).trans ?_
    have hof : (Span.mk 3 (3 + blen (c :: r))).of (emitting (c :: r)) = some (c :: r) :=
      Lit.of_src "{{ ".toList (c :: r) _ h3.symm (by rw [h3])
    simp only [Lit.gexpr_number, Compiler.compileTemplate_eq]
    constructor
    · rintro ⟨x, ⟨raw, v, h1, h2, rfl⟩, ht⟩
      have h1 := hof.symm.trans h1; injection h1 with h1; subst h1
      exact ⟨v, h2, (Option.some.inj ht).symm⟩
    · rintro ⟨v, h2, rfl⟩
      exact ⟨_, ⟨_, v, hof, h2, rfl⟩, rfl⟩
  · refine (Lit.compile_tag he (us := [(.plus, ⟨3, 4⟩), (.number, ⟨4, 4 + blen (c :: r)⟩)]) (by simp)
      (Lit.layout_two (g := '+') (.inl ⟨rfl, rfl⟩) hraw (by decide) hstop rfl hcd) t).trans ?_
    have hof : (Span.mk 4 (4 + blen (c :: r))).of (emitting ('+' :: c :: r)) = some (c :: r) := by
      have h4 : blen "{{ +".toList = 4 := by decide
      exact Lit.of_src "{{ +".toList (c :: r) _ h4.symm (by rw [h4])
    have hsp : (Span.mk 3 4).combine ⟨4, 4 + blen (c :: r)⟩ = ⟨3, 3 + blen (['+'] ++ c :: r)⟩ := by
      have : '+'.utf8Size = 1 := by decide
      simp [Span.combine, this]; omega
    simp only [Lit.gexpr_plus, Compiler.compileTemplate_eq]
    constructor
    · rintro ⟨x, ⟨raw, v, h1, h2, rfl⟩, ht⟩
      have h1 := hof.symm.trans h1; injection h1 with h1; subst h1
      rw [hsp] at ht
      exact ⟨v, h2, (Option.some.inj ht).symm⟩
    · rintro ⟨v, h2, rfl⟩
      exact ⟨_, ⟨_, v, hof, h2, rfl⟩, by rw [hsp]; rfl⟩
  · refine (Lit.compile_tag he (us := [(.minus, ⟨3, 4⟩), (.number, ⟨4, 4 + blen (c :: r)⟩)]) (by simp)
      (Lit.layout_two (g := '-') (.inr ⟨rfl, rfl⟩) hraw (by decide) hstop rfl hcd) t).trans ?_
    have hof : (Span.mk 4 (4 + blen (c :: r))).of (emitting ('-' :: c :: r)) = some (c :: r) := by
      have h4 : blen "{{ -".toList = 4 := by decide
      exact Lit.of_src "{{ -".toList (c :: r) _ h4.symm (by rw [h4])
    have hsp : (Span.mk 3 4).combine ⟨4, 4 + blen (c :: r)⟩ = ⟨3, 3 + blen (['-'] ++ c :: r)⟩ := by
      have : '-'.utf8Size = 1 := by decide
      simp [Span.combine, this]; omega
    simp only [Lit.gexpr_minus, Compiler.compileTemplate_eq]
    constructor
    · rintro ⟨x, ⟨raw, v, h1, h2, rfl⟩, ht⟩
      have h1 := hof.symm.trans h1; injection h1 with h1; subst h1
      rw [hsp] at ht
      exact ⟨v, h2, (Option.some.inj ht).symm⟩
    · rintro ⟨v, h2, rfl⟩
      exact ⟨_, ⟨_, v, hof, h2, rfl⟩, by rw [hsp]; rfl⟩

/-- **C10** An integer literal in base 2, 8, 10 or 16, with underscores and a sign, whose value fits
in 64 bits compiles to exactly that integer. -/
theorem C10_exact {env : Env} {e : Engine} (he : Engine.new env = some e) {raw sign : Str} {n : Nat}
    (h : IntLit raw n) (hd : ∃ c r, raw = c :: r ∧ isDigit c = true) (hsign : sign ∈ [[], ['+'], ['-']])
    (hf : FitsI64 (signed (sign == ['-']) n)) :
    e.compile env (emitting (sign ++ raw)) =
      .ok (litTemplate (emitting (sign ++ raw)) (.integer (signed (sign == ['-']) n)) ⟨3, 3 + blen (sign ++ raw)⟩) := by
  obtain ⟨c, r, e1, e2⟩ := hd
  exact (C10_number he (Lit.intLit_text h e1 e2 env) hsign _).mpr ⟨_, .int h hf, rfl⟩

/-- **C10** A literal never becomes an integer other than the one it denotes. -/
theorem C10_never_other {env : Env} {e : Engine} (he : Engine.new env = some e) {raw sign : Str}
    (hraw : TokText env .number raw) (hsign : sign ∈ [[], ['+'], ['-']]) {t : Template}
    (h : e.compile env (emitting (sign ++ raw)) = .ok t) {i : Int} (hi : .exprStartLit (.integer i) ∈ t.instrs) :
    ∃ n, IntLit raw n ∧ i = signed (sign == ['-']) n ∧ FitsI64 i := by
  obtain ⟨v, h1, rfl⟩ := (C10_number he hraw hsign t).mp h
  simp only [litTemplate, List.mem_cons, Instr.exprStartLit.injEq, List.not_mem_nil, or_false, reduceCtorEq] at hi
  subst hi
  cases h1 with
  | int h1 h2 => exact ⟨_, h1, rfl, h2⟩

/-- **C10** An integer literal that does not fit is an error, unless the text is also a float. -/
theorem C10_overflow {env : Env} {e : Engine} (he : Engine.new env = some e) {raw sign : Str} {n : Nat}
    (h : IntLit raw n) (hd : ∃ c r, raw = c :: r ∧ isDigit c = true) (hsign : sign ∈ [[], ['+'], ['-']])
    (hf : ¬ FitsI64 (signed (sign == ['-']) n)) (hfl : env.parseF64 raw = none) (t : Template) :
    e.compile env (emitting (sign ++ raw)) ≠ .ok t := by
  obtain ⟨c, r, e1, e2⟩ := hd
  intro hc
  obtain ⟨v, h1, rfl⟩ := (C10_number he (Lit.intLit_text h e1 e2 env) hsign _).mp hc
  cases h1 with
  | int h1 h2 => rw [Parser.intLit_unique h h1] at hf; exact hf h2
  | float _ h2 => rw [hfl] at h2; cases h2

/-- **C12** For every name and every digits: `{{ name.digits }}` compiles exactly when the number
fits in a `usize`, and then looks up exactly that index. -/
theorem C12_index {env : Env} {e : Engine} (he : Engine.new env = some e) {name ds : Str}
    (hn : TokText env .ident name) (hn' : ∀ c, name.head? = some c → c ∉ ['{', '}', '%', '#', '-'])
    (hdot : isIdentChar env '.' = false) (hds : TokText env .index ds) (t : Template) :
    e.compile env (emitting (name ++ '.' :: ds)) = .ok t ↔ decimal ds < 2 ^ env.usizeBits ∧
      t = ⟨emitting (name ++ '.' :: ds),
        [.exprStart ⟨⟨.direct, .key ⟨⟨3, 3 + blen name⟩⟩, ⟨3, 3 + blen name⟩⟩,
          [⟨.direct, .index ⟨decimal ds, ⟨3 + blen name + 1, 3 + blen name + 1 + blen ds⟩⟩,
            ⟨3 + blen name, 3 + blen name + 1 + blen ds⟩⟩]⟩, .emit ⟨3, 3 + blen name + 1 + blen ds⟩]⟩ := by
  obtain ⟨c, r, rfl⟩ : ∃ c r, name = c :: r := by
    obtain ⟨_, c, r, h, _⟩ := hn; exact ⟨c, r, h⟩
  have h3 : blen "{{ ".toList = 3 := by decide
  have hd1 : '.'.utf8Size = 1 := by decide
  refine (Lit.compile_tag he (us := [(.ident, _), (.dot, _), (.index, _)]) (by simp)
    (Lit.layout_path hn (hn' c rfl) hdot hds) t).trans ?_
  have hof : (Span.mk (3 + blen (c :: r) + 1) (3 + blen (c :: r) + 1 + blen ds)).of
      ("{{ ".toList ++ (c :: r ++ '.' :: ds) ++ " }}".toList) = some ds := by
    have := Lit.of_src ("{{ ".toList ++ (c :: r) ++ ['.']) ds " }}".toList
      (m := 3 + blen (c :: r) + 1) (n := 3 + blen (c :: r) + 1 + blen ds)
      (by simp [Lit.size_open, Lit.size_space, hd1]; omega) (by simp [Lit.size_open, Lit.size_space, hd1]; omega)
    simpa using this
  simp only [Lit.gexpr_path hof, Compiler.compileTemplate_eq]
  have hcode : ∀ sp : Span, (⟨"{{ ".toList ++ (c :: r ++ '.' :: ds) ++ " }}".toList, Compiler.codeStmts 0 [.inlineExpr
      (.base (.var ⟨⟨.direct, .key ⟨⟨3, 3 + blen (c :: r)⟩⟩, ⟨3, 3 + blen (c :: r)⟩⟩,
        [⟨.direct, .index ⟨decimal ds, ⟨3 + blen (c :: r) + 1, 3 + blen (c :: r) + 1 + blen ds⟩⟩,
          (Span.mk (3 + blen (c :: r)) (3 + blen (c :: r) + 1)).combine
            ⟨3 + blen (c :: r) + 1, 3 + blen (c :: r) + 1 + blen ds⟩⟩]⟩)) sp]⟩ : Template) = ⟨emitting (c :: r ++ '.' :: ds),
        [.exprStart ⟨⟨.direct, .key ⟨⟨3, 3 + blen (c :: r)⟩⟩, ⟨3, 3 + blen (c :: r)⟩⟩,
          [⟨.direct, .index ⟨decimal ds, ⟨3 + blen (c :: r) + 1, 3 + blen (c :: r) + 1 + blen ds⟩⟩,
            ⟨3 + blen (c :: r), 3 + blen (c :: r) + 1 + blen ds⟩⟩]⟩, .emit ⟨3, 3 + blen (c :: r) + 1 + blen ds⟩]⟩ := by
    intro sp
    have e1 : (Span.mk (3 + blen (c :: r)) (3 + blen (c :: r) + 1)).combine
            ⟨3 + blen (c :: r) + 1, 3 + blen (c :: r) + 1 + blen ds⟩ =
        ⟨3 + blen (c :: r), 3 + blen (c :: r) + 1 + blen ds⟩ := by
      simp only [Span.combine, Span.mk.injEq]; omega
    have e2 : (Span.mk 3 (3 + blen (c :: r))).combine ⟨3 + blen (c :: r), 3 + blen (c :: r) + 1 + blen ds⟩ =
        ⟨3, 3 + blen (c :: r) + 1 + blen ds⟩ := by
      simp only [Span.combine, Span.mk.injEq]; omega
    rw [e1, ← e2]; rfl
  constructor
  · rintro ⟨x, ⟨h1, rfl⟩, ht⟩
    exact ⟨h1, (Option.some.inj ht).symm.trans (hcode _)⟩
  · rintro ⟨h1, rfl⟩
    exact ⟨_, ⟨h1, rfl⟩, congrArg some (hcode _)⟩

/-! Strings -/

theorem Lit.escapeChar_cases (c : Char) : (escapeChar c = [c] ∧ c ≠ '\\' ∧ c ≠ '"' ∧ c ≠ '\n' ∧ c ≠ '\r') ∨
    ∃ d, escapeChar c = ['\\', d] ∧ Spec.escape d = some c ∧ d ≠ '\n' ∧ d ≠ '\r' ∧ (d = '\\' → c = '\\') := by
  by_cases h1 : c = '\n'
  · subst h1; right; exact ⟨'n', by decide⟩
  by_cases h2 : c = '\r'
  · subst h2; right; exact ⟨'r', by decide⟩
  by_cases h3 : c = '\t'
  · subst h3; right; exact ⟨'t', by decide⟩
  by_cases h4 : c = '\\'
  · subst h4; right; exact ⟨'\\', by decide⟩
  by_cases h5 : c = '"'
  · subst h5; right; exact ⟨'"', by decide⟩
  · left; simp [escapeChar, h1, h2, h3, h4, h5]

theorem Lit.unescaped_quote (s : Str) : Unescaped (s.flatMap escapeChar) s := by
  induction s with
  | nil => exact .nil
  | cons c s ih =>
    rw [List.flatMap_cons]
    rcases Lit.escapeChar_cases c with ⟨h, h1, h2, _⟩ | ⟨d, h, h1, _⟩
    · rw [h]; exact .char h1 h2 ih
    · rw [h]; exact .esc h1 ih

theorem Lit.quote_inner (s : Str) : ∀ p : Str, p ≠ [] → ∀ x y, p ++ s.flatMap escapeChar = x ++ '"' :: y →
    p.length ≤ x.length → ∃ z, x = z ++ ['\\'] := by
  induction s with
  | nil =>
    intro p _ x y h hl
    have := congrArg List.length h
    simp at this; omega
  | cons c s ih =>
    intro p hp x y h hl
    rw [List.flatMap_cons, ← List.append_assoc] at h
    by_cases hlen : (p ++ escapeChar c).length ≤ x.length
    · exact ih (p ++ escapeChar c) (by simp [hp]) x y h hlen
    rw [List.append_assoc] at h
    obtain ⟨u, e1, e2⟩ : ∃ u, x = p ++ u ∧ escapeChar c ++ s.flatMap escapeChar = u ++ '"' :: y := by
      rcases List.append_eq_append_iff.mp h with ⟨u, h1, h2⟩ | ⟨u, h1, h2⟩
      · exact ⟨u, h1, h2⟩
      · have : u = [] := by
          have := congrArg List.length h1; simp at this
          exact List.length_eq_zero_iff.mp (by omega)
        subst this
        exact ⟨[], by simpa using h1.symm, by simpa using h2.symm⟩
    rcases Lit.escapeChar_cases c with ⟨hc, h1, h2, _⟩ | ⟨d, hc, h1, _⟩
    · rw [hc] at e2 hlen
      cases u with
      | nil => simp at e2; exact absurd e2.1 h2
      | cons a u => rw [e1] at hlen; simp at hlen
    · rw [hc] at e2 hlen
      cases u with
      | nil => simp at e2
      | cons a u =>
        cases u with
        | nil => simp at e2; exact ⟨p, by rw [e1, e2.1]⟩
        | cons b u => rw [e1] at hlen; simp at hlen

theorem Lit.quote_last (s : Str) (hs : ∀ x, s ≠ x ++ ['\\']) : ∀ x, s.flatMap escapeChar ≠ x ++ ['\\'] := by
  intro x h
  rcases List.eq_nil_or_concat s with rfl | ⟨s', c, rfl⟩
  · simp at h
  · rw [List.concat_eq_append] at h hs
    rw [List.flatMap_append] at h
    simp only [List.flatMap_cons, List.flatMap_nil, List.append_nil] at h
    rcases Lit.escapeChar_cases c with ⟨hc, h1, _⟩ | ⟨d, hc, _, _, _, h1⟩
    · rw [hc] at h
      have := (List.append_inj' h rfl).2
      simp at this
      exact h1 this
    · have h' : (s'.flatMap escapeChar ++ ['\\']) ++ [d] = x ++ ['\\'] := by rw [← h, hc]; simp
      have := (List.append_inj' h' rfl).2
      simp at this
      exact hs s' (by simp [h1 this])

theorem Lit.quote_text (env : Env) {s : Str} (hs : ∀ x, s ≠ x ++ ['\\']) : TokText env .string (quote s) := by
  refine ⟨_, rfl, ?_, ?_, Lit.quote_last s hs⟩
  · intro c hc
    obtain ⟨a, _, ha⟩ := List.mem_flatMap.mp hc
    rcases Lit.escapeChar_cases a with ⟨h, _, _, h3, h4⟩ | ⟨d, h, _, h3, h4, _⟩
    · rw [h] at ha; simp at ha; subst ha; exact ⟨h3, h4⟩
    · rw [h] at ha; simp at ha
      rcases ha with rfl | rfl
      · decide
      · exact ⟨h3, h4⟩
  · intro x y h hx
    refine Lit.quote_inner s ['"'] (by simp) x y h ?_
    cases x with
    | nil => exact absurd rfl hx
    | cons => simp

theorem Lit.getLast_iff {s : Str} : s.getLast? = some '\\' ↔ ∃ x, s = x ++ ['\\'] := List.getLast?_eq_some_iff

/-- A quoted text that may end in a backslash reads as a string literal… -/
theorem Lit.quoted_text (env : Env) (s : Str) : TokText env .string (quoted s) := by
  unfold quoted
  by_cases h : s.getLast? = some '\\'
  · rw [if_pos h]
    refine ⟨s.flatMap escapeChar ++ ['"'], by simp [quote], ?_, ?_, ?_⟩
    · intro c hc
      rcases List.mem_append.mp hc with hc | hc
      · obtain ⟨a, _, ha⟩ := List.mem_flatMap.mp hc
        rcases Lit.escapeChar_cases a with ⟨h, _, _, h3, h4⟩ | ⟨d, h, _, h3, h4, _⟩
        · rw [h] at ha; simp at ha; subst ha; exact ⟨h3, h4⟩
        · rw [h] at ha; simp at ha
          rcases ha with rfl | rfl
          · decide
          · exact ⟨h3, h4⟩
      · simp at hc; subst hc; decide
    · intro x y e hx
      obtain ⟨s', rfl⟩ := Lit.getLast_iff.mp h
      rcases List.eq_nil_or_concat y with rfl | ⟨y', d, rfl⟩
      · have e' : ('"' :: (s' ++ ['\\']).flatMap escapeChar) ++ ['"'] = x ++ ['"'] := by simpa using e
        have := (List.append_inj' e' rfl).1
        refine ⟨'"' :: (s'.flatMap escapeChar ++ ['\\']), ?_⟩
        rw [← this, List.flatMap_append]
        simp [escapeChar]
      · rw [List.concat_eq_append] at e
        have e' : ('"' :: (s' ++ ['\\']).flatMap escapeChar) ++ ['"'] = (x ++ '"' :: y') ++ [d] := by simpa using e
        refine Lit.quote_inner (s' ++ ['\\']) ['"'] (by simp) x y' (List.append_inj' e' rfl).1 ?_
        cases x with
        | nil => exact absurd rfl hx
        | cons => simp
    · intro x e
      have := (List.append_inj' e rfl).2
      simp at this
  · rw [if_neg h]
    exact Lit.quote_text env fun x e => h (Lit.getLast_iff.mpr ⟨x, e⟩)

theorem Lit.unescaped_append {a b x y : Str} (h : Unescaped a x) (h' : Unescaped b y) : Unescaped (a ++ b) (x ++ y) := by
  induction h with
  | nil => exact h'
  | char h1 h2 _ ih => exact .char h1 h2 ih
  | esc h1 _ ih => exact .esc h1 ih
  | stray _ ih => exact .stray ih

/-- … that stands for it. -/
theorem Lit.quoted_lit (s : Str) : StrLit (quoted s) s := by
  unfold quoted
  by_cases h : s.getLast? = some '\\'
  · rw [if_pos h]
    refine ⟨s.flatMap escapeChar ++ ['"'], by simp [quote], ?_⟩
    simpa using Lit.unescaped_append (Lit.unescaped_quote s) (.stray .nil)
  · rw [if_neg h]
    exact ⟨_, rfl, Lit.unescaped_quote s⟩

/-- **C11** For every text that reads as a string literal: `{{ <literal> }}` compiles exactly when
the literal stands for some text, and then to that text. -/
theorem C11_string {env : Env} {e : Engine} (he : Engine.new env = some e) {raw : Str}
    (hraw : TokText env .string raw) (t : Template) :
    e.compile env (emitting raw) = .ok t ↔
      ∃ v, StrLit raw v ∧ t = litTemplate (emitting raw) (.string v) ⟨3, 3 + blen raw⟩ := by
  obtain ⟨r, rfl⟩ : ∃ r, raw = '"' :: r := by obtain ⟨b, h, _⟩ := hraw; exact ⟨_, h⟩
  have h3 : blen "{{ ".toList = 3 := by decide
  refine (Lit.compile_tag he (us := [(.string, ⟨3, 3 + blen ('"' :: r)⟩)]) (by simp)
      (Lit.layout_one hraw (by decide) trivial trivial (by decide) (by decide)) t).trans ?_
  have hof : (Span.mk 3 (3 + blen ('"' :: r))).of (emitting ('"' :: r)) = some ('"' :: r) :=
    Lit.of_src "{{ ".toList ('"' :: r) _ h3.symm (by rw [h3])
  simp only [Lit.gexpr_string, Compiler.compileTemplate_eq]
  constructor
  · rintro ⟨x, ⟨raw, v, h1, h2, rfl⟩, ht⟩
    have h1 := hof.symm.trans h1; injection h1 with h1; subst h1
    exact ⟨v, h2, (Option.some.inj ht).symm⟩
  · rintro ⟨v, h2, rfl⟩
    exact ⟨_, ⟨_, v, hof, h2, rfl⟩, rfl⟩

/-- Inside a tag, a token that starts with a quote is a string literal; none starts with a space. -/
theorem Lit.tok_quote {env : Env} {tk : Token} {t : Str} {r r' : Str} (h : TokText env tk t) (e : t ++ r = '"' :: r') : tk = .string := by
  have w : ¬ Word env t := by
    rintro ⟨c, x, rfl, hp, _⟩
    simp at e
    exact hp (.inl (by rw [e.1]; simp))
  cases tk with
  | string => rfl
  | whitespace =>
    obtain ⟨h1, h2⟩ := h
    cases t with
    | nil => exact absurd rfl h1
    | cons c t =>
      simp at e
      have := h2 c (by simp)
      rw [e.1] at this
      rcases this with h | h <;> exact absurd h (by decide)
  | keyword => exact absurd h.2 w
  | ident => exact absurd h.2 w
  | index =>
    obtain ⟨h1, h2⟩ := h
    cases t with
    | nil => exact absurd rfl h1
    | cons c t =>
      simp at e
      have := h2 c (by simp)
      rw [e.1] at this
      exact absurd this (by decide)
  | number =>
    obtain ⟨c, x, rfl, h1, _⟩ := h
    simp at e
    rw [e.1] at h1
    exact absurd h1 (by decide)
  | dot | questionDot | pipe | comma | colon | plus | minus =>
    have h : t = _ := h
    rw [h] at e; simp at e
  | _ => exact absurd h id

theorem Lit.tok_space {env : Env} {tk : Token} {t : Str} {r r' : Str} (h : TokText env tk t) (e : t ++ r = ' ' :: r') : tk = .whitespace := by
  have w : ¬ Word env t := by
    rintro ⟨c, x, rfl, hp, _⟩
    simp at e
    exact hp (.inl (by rw [e.1]; simp))
  cases tk with
  | whitespace => rfl
  | string =>
    obtain ⟨b, rfl, _⟩ := h
    simp at e
  | keyword => exact absurd h.2 w
  | ident => exact absurd h.2 w
  | index =>
    obtain ⟨h1, h2⟩ := h
    cases t with
    | nil => exact absurd rfl h1
    | cons c t =>
      simp at e
      have := h2 c (by simp)
      rw [e.1] at this
      exact absurd this (by decide)
  | number =>
    obtain ⟨c, x, rfl, h1, _⟩ := h
    simp at e
    rw [e.1] at h1
    exact absurd h1 (by decide)
  | dot | questionDot | pipe | comma | colon | plus | minus =>
    have h : t = _ := h
    rw [h] at e; simp at e
  | _ => exact absurd h id

/-- After the start `{{ ` of a template the tag is read on at byte 3. -/
theorem Lit.open_inv {env : Env} {src rest : Str} {c : Char} {ts : List (Token × Span)}
    (hs : src = '{' :: '{' :: ' ' :: c :: rest) (hc : c ≠ ' ' ∧ c ≠ '\t')
    (h : Layout Syn.default env src (.text false) 0 ts) : ∃ ts', Layout Syn.default env src (.tag .endExpr false) 3 ts' := by
  have hd := Lit.delim_open hs
  have ho : Occurs Syn.default src .beginExpr 0 2 := by
    obtain ⟨d, b, l, e, st, _⟩ := hd.first
    exact ⟨d, by rw [e]; simp, st⟩
  have at2 : ∀ {ts}, Layout Syn.default env src (.tag .endExpr false) 2 ts → ∃ ts', Layout Syn.default env src (.tag .endExpr false) 3 ts' := by
    intro ts h
    have hdrop : ∀ {x}, dropB src 2 = some x → x = ' ' :: c :: rest := by
      intro x hx
      obtain ⟨p, e, hp⟩ := dropB_eq_some.mp hx
      rw [hs] at e
      exact (append_blen_inj (a := ['{', '{']) (b := ' ' :: c :: rest) e (by rw [hp]; decide)).2.symm
    cases h with
    | @blank _ _ _ t _ _ text tail =>
      obtain ⟨r, h1, h2, h3, _⟩ := text
      have e := hdrop h1
      have ht : t = [' '] := by
        rcases t with _ | ⟨a, _ | ⟨b, t⟩⟩
        · exact absurd rfl h2.1
        · simp at e; rw [e.1]
        · simp at e
          have := h2.2 b (by simp)
          rw [e.2.1] at this
          rcases this with h | h
          · exact absurd h hc.1
          · exact absurd h hc.2
      subst ht
      exact ⟨_, tail⟩
    | token _ text real _ =>
      obtain ⟨r, h1, h2, _⟩ := text
      exact absurd (Lit.tok_space h2 (hdrop h1)) real
    | close next =>
      obtain ⟨d, b, l, e, st, _⟩ := next.first
      exact absurd ⟨d, by rw [e]; exact List.mem_append_right _ List.mem_cons_self, st⟩ (Lit.free_char (pre := ['{', '{']) hs (by decide) _ _)
  generalize hi : 0 = i at h
  generalize hm : Mode.text false = m at h
  cases h with
  | done => rw [hs] at hi; simp [Lit.size_open] at hi; omega
  | textEnd free => subst hi; exact absurd ho (free _ _ _ (Nat.le_refl _))
  | textTag next _ text ne =>
    subst hi
    have := (next.leftmost _ _ _ (Nat.le_refl _) ho)
    obtain rfl := Nat.le_zero.mp this
    obtain ⟨p, q, _, h1, h2⟩ := slice_eq_some.mp text
    exact absurd (blen_eq_zero.mp (by omega)) ne
  | tag next _ tail =>
    subst hi
    obtain ⟨rfl, _, rfl⟩ := C01_unique next hd
    exact at2 tail
  | blank => cases hm
  | token => cases hm
  | close => cases hm
  | comment => cases hm
  | emptyComment => cases hm

/-- **C11** A text can be written as an escaped literal exactly when it does not end in a backslash (see
`C11_false_backslash`): then the literal stands for it. Otherwise the template is rejected. -/
theorem C11_roundtrip {env : Env} {e : Engine} (he : Engine.new env = some e) (s : Str) :
    e.compile env (emitting (quote s)) = .ok (litTemplate (emitting (quote s)) (.string s) ⟨3, 3 + blen (quote s)⟩) ∧
        (∀ x, s ≠ x ++ ['\\']) ∨
      (∀ t, e.compile env (emitting (quote s)) ≠ .ok t) ∧ ∃ x, s = x ++ ['\\'] := by
  by_cases hs : ∃ x, s = x ++ ['\\']
  · refine .inr ⟨fun t h => ?_, hs⟩
    obtain ⟨x, rfl⟩ := hs
    obtain ⟨a, ha, _⟩ := C02_total default_built
    have he' : e.searcher = a := by
      have ha' : AC.new Syn.default = some a := ha
      rw [Engine.new, Engine.withSyntax, ha'] at he
      exact (congrArg Engine.searcher (Option.some.inj he)).symm
    have st : Setup defaultBuilder ⟨env, a, emitting (quote (x ++ ['\\']))⟩ := ⟨default_built, ha⟩
    rw [Engine.compile, he', C09_grammar st (default_tidy _)] at h
    obtain ⟨ts, _, h1, _⟩ := h
    have hsrc : emitting (quote (x ++ ['\\'])) =
        '{' :: '{' :: ' ' :: '"' :: ((x ++ ['\\']).flatMap escapeChar ++ '"' :: [' ', '}', '}']) := by
      have e1 : "{{ ".toList = ['{', '{', ' '] := by decide
      have e2 : " }}".toList = [' ', '}', '}'] := by decide
      simp only [emitting, quote, e1, e2, List.cons_append, List.nil_append, List.append_assoc]
    obtain ⟨ts', h1⟩ := Lit.open_inv (rest := (x ++ ['\\']).flatMap escapeChar ++ '"' :: [' ', '}', '}']) hsrc (by decide) (src := emitting (quote (x ++ ['\\']))) h1
    have hdrop : ∀ {y}, dropB (emitting (quote (x ++ ['\\']))) 3 = some y →
        y = '"' :: ((x ++ ['\\']).flatMap escapeChar ++ '"' :: [' ', '}', '}']) := by
      intro y hy
      obtain ⟨p, e, hp⟩ := dropB_eq_some.mp hy
      exact (append_blen_inj (a := ['{', '{', ' ']) (b := '"' :: ((x ++ ['\\']).flatMap escapeChar ++ '"' :: [' ', '}', '}']))
        (by rw [← e, hsrc]; rfl) (by rw [hp]; decide)).2.symm
    have main : ∀ {tk t p}, TokAt env (emitting (quote (x ++ ['\\']))) p 3 tk t → False := by
      rintro tk t p ⟨r, h1, h2, _⟩
      have e := hdrop h1
      obtain rfl := Lit.tok_quote h2 e
      obtain ⟨body, rfl, _, _, h5⟩ := h2
      simp only [List.cons_append, List.append_assoc, List.cons.injEq, true_and, List.singleton_append] at e
      rcases List.append_eq_append_iff.mp e with ⟨z, e1, e2⟩ | ⟨z, e1, e2⟩
      · cases z with
        | nil => exact h5 (x.flatMap escapeChar ++ ['\\']) (by simpa [escapeChar] using e1.symm)
        | cons z zs =>
          simp at e2
          obtain ⟨rfl, e2⟩ := e2
          obtain ⟨z', hz⟩ := Lit.quote_inner (x ++ ['\\']) ['"'] (by simp) ('"' :: body) zs (by rw [e1]; simp) (by simp)
          cases z' with
          | nil => simp at hz
          | cons _ z' => simp at hz; exact h5 z' hz.2
      · cases z with
        | nil => exact h5 (x.flatMap escapeChar ++ ['\\']) (by simpa [escapeChar] using e1)
        | cons z zs =>
          simp only [List.cons_append, List.cons.injEq] at e2
          obtain ⟨_, e2⟩ := e2
          have : '"' ∈ [' ', '}', '}'] := by rw [e2]; simp
          exact absurd this (by decide)
    cases h1 with
    | blank _ text => exact main text
    | token _ text => exact main text
    | close next =>
      obtain ⟨d, b, l, e, st, _⟩ := next.first
      exact absurd ⟨d, by rw [e]; exact List.mem_append_right _ List.mem_cons_self, st⟩ (Lit.free_char (pre := ['{', '{', ' '])
        (rest := (x ++ ['\\']).flatMap escapeChar ++ '"' :: [' ', '}', '}']) hsrc (c := '"') (by decide) _ _)
  · have hs : ∀ x, s ≠ x ++ ['\\'] := fun x h => hs ⟨x, h⟩
    exact .inl ⟨(C11_string he (Lit.quote_text env hs) _).mpr ⟨s, ⟨_, rfl, Lit.unescaped_quote s⟩, rfl⟩, hs⟩

/-- **C11** An unknown escape sequence is an error. -/
theorem C11_unknown_escape {env : Env} {e : Engine} (he : Engine.new env = some e) {x y : Str} {c : Char}
    (hraw : TokText env .string ('"' :: (x ++ '\\' :: c :: y ++ ['"']))) (hx : '\\' ∉ x) (hc : Spec.escape c = none)
    (t : Template) : e.compile env (emitting ('"' :: (x ++ '\\' :: c :: y ++ ['"']))) ≠ .ok t := by
  intro h
  obtain ⟨v, ⟨body, hb, hu⟩, hh⟩ := (C11_string he hraw t).mp h
  injection hb with _ hb
  have := (List.append_inj' hb rfl).1
  subst this
  clear hraw h hb he hh
  induction x generalizing v with
  | nil =>
    cases hu with
    | char h1 => exact absurd rfl h1
    | esc h1 => rw [hc] at h1; cases h1
  | cons a x ih =>
    simp at hx
    rw [List.cons_append] at hu
    generalize hz : x ++ '\\' :: c :: y = z at hu
    cases hu with
    | char _ _ h => subst hz; exact ih hx.2 _ h
    | esc => exact absurd rfl hx.1
    | stray h => subst hz; exact ih hx.2 _ h

/-- The result of compiling a text in the default syntax (for examples). -/
def compiled (src : String) : Option (Res Template) :=
  (AC.new Syn.default).map fun a => compileSource ⟨Spec.asciiEnv, a, src.toList⟩

theorem compiled_engine {e : Engine} (he : Engine.new Spec.asciiEnv = some e) {src : String} {r : Res Template}
    (h : compiled src = some r) : e.compile Spec.asciiEnv src.toList = r := by
  obtain ⟨a, ha, _⟩ := C02_total default_built
  have ha' : AC.new Syn.default = some a := ha
  rw [Engine.new, Engine.withSyntax, ha'] at he
  have he' := (congrArg Engine.searcher (Option.some.inj he)).symm
  rw [compiled, ha'] at h
  rw [Engine.compile, he']
  exact Option.some.inj h

set_option maxRecDepth 100000 in
/-- **C11** is false for a literal that ends in an escaped backslash: `{{ "\\" }}`, which stands for
a single backslash, is rejected. -/
theorem C11_false_backslash {e : Engine} (he : Engine.new Spec.asciiEnv = some e) (t : Template) :
    e.compile Spec.asciiEnv (emitting (quote ['\\'])) ≠ .ok t := by
  have key : (compiled "{{ \"\\\\\" }}").map (fun r => match r with | .ok _ => true | _ => false) = some false := by decide +kernel
  intro h
  have h2 : compiled "{{ \"\\\\\" }}" = some (.ok t) := by
    cases hc : compiled "{{ \"\\\\\" }}" with
    | none => rw [hc] at key; cases key
    | some r => rw [← compiled_engine he hc]; exact congrArg some h
  rw [h2] at key
  cases key

set_option maxRecDepth 100000 in
/-- **C11** The same mistake in the middle of a template: in `{{ "a\\"b" }}` the literal should end
at the second quote, so this should be rejected; it is accepted, as the text `a\b`. -/
theorem C11_false_stray {e : Engine} (he : Engine.new Spec.asciiEnv = some e) :
    e.compile Spec.asciiEnv (emitting "\"a\\\\\"b\"".toList) =
      .ok (litTemplate (emitting "\"a\\\\\"b\"".toList) (.string "a\\b".toList) ⟨3, 10⟩) :=
  compiled_engine (src := "{{ \"a\\\\\"b\" }}") he (by decide +kernel)

/-! Concrete cases -/

/-- There is a default engine. -/
theorem default_engine (env : Env) : ∃ e, Engine.new env = some e := by
  obtain ⟨e, h, _⟩ := C03_every_text env default_built default_noWhite
  exact ⟨e, h⟩

/-- `-0x7f_FF` -/
example : ∃ e, Engine.new Spec.asciiEnv = some e ∧ e.compile Spec.asciiEnv (emitting (['-'] ++ "0x7f_FF".toList)) =
    .ok (litTemplate (emitting (['-'] ++ "0x7f_FF".toList)) (.integer (-32767)) ⟨3, 11⟩) := by
  obtain ⟨e, he⟩ := default_engine Spec.asciiEnv
  refine ⟨e, he, ?_⟩
  have h : IntLit "0x7f_FF".toList 32767 :=
    .hex (.digit (d := 15) (.digit (d := 15) (.under (.digit (d := 15) (.digit (d := 7) .nil (by decide) (by decide))
      (by decide) (by decide))) (by decide) (by decide)) (by decide) (by decide))
  exact C10_exact he h ⟨'0', _, rfl, by decide⟩ (by decide) (by unfold FitsI64; decide)

/-- `9223372036854775808` does not fit, its negation does. -/
example : FitsI64 (signed true 9223372036854775808) ∧ ¬ FitsI64 (signed false 9223372036854775808) := by
  unfold FitsI64; decide

/-- A text with a quote, a newline and backslashes. -/
example : ∃ e, Engine.new Spec.asciiEnv = some e ∧ e.compile Spec.asciiEnv (emitting "\"a\\\\b\\n\\\"c\"".toList) =
    .ok (litTemplate (emitting "\"a\\\\b\\n\\\"c\"".toList) (.string "a\\b\n\"c".toList) ⟨3, 14⟩) := by
  obtain ⟨e, he⟩ := default_engine Spec.asciiEnv
  exact ⟨e, he, (C11_roundtrip he "a\\b\n\"c".toList).elim And.left (fun h => by
    obtain ⟨x, h⟩ := h.2
    have := congrArg List.getLast? h
    simp at this)⟩

/-- `{{ a.12 }}` -/
example : TokText Spec.asciiEnv .ident "a".toList ∧ isIdentChar Spec.asciiEnv '.' = false ∧
    TokText Spec.asciiEnv .index "12".toList ∧ decimal "12".toList = 12 := by
  refine ⟨⟨by decide, 'a', [], rfl, ?_, by decide, by simp⟩, by decide, ⟨by decide, by decide⟩, by decide⟩
  rintro (h | h)
  · revert h; decide
  · revert h; decide

end Upon
