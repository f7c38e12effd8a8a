import Verif.Proofs.ParseExpr
/-
Blocks and statements: the parser agrees with the grammar.
-/
namespace Upon

/-- Tokens that are not tags. -/
def Plain (ts : List Tok) : Prop := ∀ t ∈ ts, Spec.isBeginTag t.1 = false ∧ Spec.isEndTag t.1 = false

theorem Plain.append {a b : List Tok} (ha : Plain a) (hb : Plain b) : Plain (a ++ b) := by
  intro t ht
  rcases List.mem_append.mp ht with h | h
  · exact ha t h
  · exact hb t h

theorem Plain.cons {t : Tok} {b : List Tok} (h1 : Spec.isBeginTag t.1 = false) (h2 : Spec.isEndTag t.1 = false)
    (hb : Plain b) : Plain (t :: b) := by
  intro x hx
  rcases List.mem_cons.mp hx with rfl | h
  · exact ⟨h1, h2⟩
  · exact hb x h

theorem Plain.nil : Plain [] := by intro t h; simp at h

theorem gpath_plain {env : Env} {src : Str} {ts : List Tok} {ms : List Member} (h : Spec.GPath env src ts ms) :
    Plain ts := by
  induction h with
  | nil => exact .nil
  | key hop _ ih =>
    refine .cons ?_ ?_ (.cons rfl rfl ih) <;> rcases hop with ⟨_, rfl⟩ | ⟨_, rfl⟩ <;> rfl
  | index hop _ _ _ ih =>
    refine .cons ?_ ?_ (.cons rfl rfl ih) <;> rcases hop with ⟨_, rfl⟩ | ⟨_, rfl⟩ <;> rfl

theorem gbase_plain {env : Env} {src : Str} {ts : List Tok} {b : BaseExpr} (h : Spec.GBase env src ts b) :
    Plain ts := by
  cases h with
  | true_ => exact .cons rfl rfl .nil
  | false_ => exact .cons rfl rfl .nil
  | number => exact .cons rfl rfl .nil
  | plus => exact .cons rfl rfl (.cons rfl rfl .nil)
  | minus => exact .cons rfl rfl (.cons rfl rfl .nil)
  | string => exact .cons rfl rfl .nil
  | var h => exact .cons rfl rfl (gpath_plain h)

theorem gargs_plain {env : Env} {src : Str} {ts : List Tok} {es : List BaseExpr} (h : Spec.GArgs env src ts es) :
    Plain ts := by
  induction h with
  | one h => exact gbase_plain h
  | more h _ ih => exact (gbase_plain h).append (.cons rfl rfl ih)

theorem gcalls_plain {env : Env} {src : Str} {ts : List Tok} {e e' : Expr} (h : Spec.GCalls env src e ts e') :
    Plain ts := by
  induction h with
  | nil => exact .nil
  | call _ ih => exact .cons rfl rfl (.cons rfl rfl ih)
  | callArgs h _ ih => exact .cons rfl rfl (.cons rfl rfl (.cons rfl rfl ((gargs_plain h).append ih)))

theorem gexpr_plain {env : Env} {src : Str} {ts : List Tok} {e : Expr} (h : Spec.GExpr env src ts e) : Plain ts := by
  obtain ⟨us, b, vs, rfl, hb, hc⟩ := h
  exact (gbase_plain hb).append (gcalls_plain hc)

theorem gcond_plain {env : Env} {src : Str} {ts : List Tok} {n : Bool} {e : Expr} (h : Spec.GCond env src ts n e) :
    Plain ts := by
  cases h with
  | plain h => exact gexpr_plain h
  | not _ h => exact .cons rfl rfl (gexpr_plain h)

theorem gvars_plain {ts : List Tok} {v : LoopVars} (h : Spec.GVars ts v) : Plain ts := by
  cases h with
  | item => exact .cons rfl rfl .nil
  | keyValue => exact .cons rfl rfl (.cons rfl rfl (.cons rfl rfl .nil))

theorem shape_close {us : List Tok} {t : Tok} {rest : List Tok} (hp : Plain us) (ht : Spec.isEndTag t.1 = true)
    (h : Shape true (us ++ t :: rest)) : Shape false rest := by
  induction us with
  | nil =>
    cases h with
    | cons _ h =>
      have hb : Spec.isBeginTag t.1 = false := by
        cases ht' : t.1 <;> rw [ht'] at ht <;> simp [Spec.isEndTag] at ht <;> rfl
      simpa [Lexer.inTagNext, hb, ht] using h
  | cons x us ih =>
    cases h with
    | cons _ h =>
      have := hp x (by simp)
      rw [Lexer.inTagNext, if_neg (by simp [this.1]), if_neg (by simp [this.2])] at h
      exact ih (fun y hy => hp y (List.mem_cons_of_mem _ hy)) h

namespace Parser

variable {cx : LexCx}

/-- What a block tag says. -/
inductive GBlock (cx : LexCx) : List Tok → Block → Prop
  | if_ {k us n x} : Spec.IsKw cx.source (.keyword, k) "if" → Spec.GCond cx.env cx.source us n x →
      GBlock cx ((.keyword, k) :: us) (.if_ n x)
  | else_ {k} : Spec.IsKw cx.source (.keyword, k) "else" → GBlock cx [(.keyword, k)] .else_
  | elseIf {k i us n x} : Spec.IsKw cx.source (.keyword, k) "else" → Spec.IsKw cx.source (.keyword, i) "if" →
      Spec.GCond cx.env cx.source us n x → GBlock cx ((.keyword, k) :: (.keyword, i) :: us) (.elseIf n x)
  | endif {k} : Spec.IsKw cx.source (.keyword, k) "endif" → GBlock cx [(.keyword, k)] .endif
  | for_ {k vs v i us x} : Spec.IsKw cx.source (.keyword, k) "for" → Spec.GVars vs v →
      Spec.IsKw cx.source (.keyword, i) "in" → Spec.GExpr cx.env cx.source us x →
      GBlock cx ((.keyword, k) :: (vs ++ (.keyword, i) :: us)) (.for_ v x)
  | endfor {k} : Spec.IsKw cx.source (.keyword, k) "endfor" → GBlock cx [(.keyword, k)] .endfor
  | with_ {k us x a n} : Spec.IsKw cx.source (.keyword, k) "with" → Spec.GExpr cx.env cx.source us x →
      Spec.IsKw cx.source (.keyword, a) "as" →
      GBlock cx ((.keyword, k) :: (us ++ [(.keyword, a), (.ident, n)])) (.with_ x ⟨n⟩)
  | endwith {k} : Spec.IsKw cx.source (.keyword, k) "endwith" → GBlock cx [(.keyword, k)] .endwith
  | include_ {k n raw name} : Spec.IsKw cx.source (.keyword, k) "include" → n.of cx.source = some raw →
      Spec.StrLit raw name → GBlock cx [(.keyword, k), (.string, n)] (.include_ ⟨name, n⟩ none)
  | includeWith {k n raw name w us x} : Spec.IsKw cx.source (.keyword, k) "include" → n.of cx.source = some raw →
      Spec.StrLit raw name → Spec.IsKw cx.source (.keyword, w) "with" → Spec.GExpr cx.env cx.source us x →
      GBlock cx ((.keyword, k) :: (.string, n) :: (.keyword, w) :: us) (.include_ ⟨name, n⟩ (some x))

theorem gblock_plain {ts : List Tok} {b : Block} (h : GBlock cx ts b) : Plain ts := by
  cases h with
  | if_ _ h => exact .cons rfl rfl (gcond_plain h)
  | else_ => exact .cons rfl rfl .nil
  | elseIf _ _ h => exact .cons rfl rfl (.cons rfl rfl (gcond_plain h))
  | endif => exact .cons rfl rfl .nil
  | for_ _ h1 _ h2 => exact .cons rfl rfl ((gvars_plain h1).append (.cons rfl rfl (gexpr_plain h2)))
  | endfor => exact .cons rfl rfl .nil
  | with_ _ h => exact .cons rfl rfl ((gexpr_plain h).append (.cons rfl rfl (.cons rfl rfl .nil)))
  | endwith => exact .cons rfl rfl .nil
  | include_ => exact .cons rfl rfl (.cons rfl rfl .nil)
  | includeWith _ _ _ _ h => exact .cons rfl rfl (.cons rfl rfl (.cons rfl rfl (gexpr_plain h)))

theorem parseBlock_parses (hne : cx.source ≠ []) {p : Parser} {ts : List Tok} {r : Option Err}
    (h : Abs cx p ts r) (hs : Str' cx ts) : Parses cx (GBlock cx) ts r (parseBlock cx p) := by
  rcases parseKeyword_parses hne h hs.toks with ⟨e, h1⟩ | ⟨used, rest, ⟨kw, sp⟩, p1, rfl, h1, h2, rfl, hk⟩
  · exact Or.inl ⟨e, by simp [parseBlock, h1]⟩
  have hs1 := hs.suffix
  simp only at hk
  have bad : ∀ x : Res (Block × Parser), x = errUnexpectedKeyword cx kw.human sp →
      Parses cx (GBlock cx) ([(.keyword, sp)] ++ rest) r x := by
    rintro x rfl
    exact Or.inl (errAt (cx := cx) hne (α := Block × Parser) (hs.toks (.keyword, sp) (by simp)).span _)
  simp only [parseBlock, h1, Res.ok_bind]
  cases kw with
  | if_ =>
    rcases parseIfCond_parses hne h2 hs1 with ⟨e, a1⟩ | ⟨us, rest', ⟨n, x⟩, p2, rfl, a1, a2, a3⟩
    · exact Or.inl ⟨e, by simp [a1]⟩
    · exact Or.inr ⟨(.keyword, sp) :: us, rest', _, p2, by simp, by simp [a1], a2, .if_ hk a3⟩
  | else_ =>
    rcases isNextKeyword_cases h2 hs1.toks .if_ with ⟨e, a1⟩ | ⟨p2, i, ts', a1, rfl, a2, a3⟩ | ⟨p2, a1, a2⟩
    · exact Or.inl ⟨e, by simp [a1]⟩
    · obtain ⟨p3, b1, b2⟩ := expectKeyword_ok (kw := .if_) a3 a2
      rcases parseIfCond_parses hne b2 hs1.tail with ⟨e, c1⟩ | ⟨us, rest', ⟨n, x⟩, p4, rfl, c1, c2, c3⟩
      · exact Or.inl ⟨e, by simp [a1, b1, c1]⟩
      · exact Or.inr ⟨(.keyword, sp) :: (.keyword, i) :: us, rest', _, p4, by simp, by simp [a1, b1, c1], c2,
          .elseIf hk a2 c3⟩
    · exact Or.inr ⟨_, rest, .else_, p2, rfl, by simp [a1], a2, .else_ hk⟩
  | endif => exact Or.inr ⟨_, rest, .endif, p1, rfl, rfl, h2, .endif hk⟩
  | for_ =>
    rcases parseLoopVars_parses hne h2 hs1 with ⟨e, a1⟩ | ⟨vs, rest', v, p2, rfl, a1, a2, a3⟩
    · exact Or.inl ⟨e, by simp [a1]⟩
    · rcases expectKeyword_parses hne a2 hs1.suffix.toks .in_ with ⟨e, b1⟩ | ⟨us, rest'', i, p3, rfl, b1, b2, rfl, b3⟩
      · exact Or.inl ⟨e, by simp [a1, b1]⟩
      · rcases parseExpr_parses hne b2 hs1.suffix.suffix with ⟨e, c1⟩ | ⟨us, rest3, x, p4, rfl, c1, c2, c3⟩
        · exact Or.inl ⟨e, by simp [a1, b1, c1]⟩
        · exact Or.inr ⟨(.keyword, sp) :: (vs ++ (.keyword, i) :: us), rest3, _, p4, by simp,
            by simp [a1, b1, c1], c2, .for_ hk a3 b3 c3⟩
  | endfor => exact Or.inr ⟨_, rest, .endfor, p1, rfl, rfl, h2, .endfor hk⟩
  | with_ =>
    rcases parseExpr_parses hne h2 hs1 with ⟨e, a1⟩ | ⟨us, rest', x, p2, rfl, a1, a2, a3⟩
    · exact Or.inl ⟨e, by simp [a1]⟩
    · rcases expectKeyword_parses hne a2 hs1.suffix.toks .as_ with ⟨e, b1⟩ | ⟨us', rest'', i, p3, rfl, b1, b2, rfl, b3⟩
      · exact Or.inl ⟨e, by simp [a1, b1]⟩
      · rcases parseIdent_parses hne b2 hs1.suffix.suffix.toks with ⟨e, c1⟩ | ⟨us', rest3, ⟨n⟩, p4, rfl, c1, c2, rfl⟩
        · exact Or.inl ⟨e, by simp [a1, b1, c1]⟩
        · exact Or.inr ⟨(.keyword, sp) :: (us ++ [(.keyword, i), (.ident, n)]), rest3, _, p4, by simp,
            by simp [a1, b1, c1], c2, .with_ hk a3 b3⟩
  | endwith => exact Or.inr ⟨_, rest, .endwith, p1, rfl, rfl, h2, .endwith hk⟩
  | include_ =>
    rcases expect_parses hne h2 hs1.toks .string with ⟨e, a1⟩ | ⟨us, rest', n, p2, rfl, a1, a2, rfl⟩
    · exact Or.inl ⟨e, by simp [a1]⟩
    · obtain ⟨raw, b1, ⟨s, b2, _, b3⟩ | ⟨_, e, b3⟩⟩ := parseString_spec hne (hs1.toks (.string, n) (by simp))
      · rcases isNextKeyword_cases a2 hs1.suffix.toks .with_ with ⟨e, c1⟩ | ⟨p3, i, ts', c1, rfl, c2, c3⟩ | ⟨p3, c1, c2⟩
        · exact Or.inl ⟨e, by simp [a1, b3, c1]⟩
        · obtain ⟨p4, d1, d2⟩ := expectKeyword_ok (kw := .with_) c3 c2
          rcases parseExpr_parses hne d2 hs1.suffix.tail with ⟨e, e1⟩ | ⟨us, rest'', x, p5, rfl, e1, e2, e3⟩
          · exact Or.inl ⟨e, by simp [a1, b3, c1, d1, e1]⟩
          · exact Or.inr ⟨(.keyword, sp) :: (.string, n) :: (.keyword, i) :: us, rest'', _, p5, by simp,
              by simp [a1, b3, c1, d1, e1], e2, .includeWith hk b1 b2 c2 e3⟩
        · exact Or.inr ⟨[(.keyword, sp), (.string, n)], rest', _, p3, rfl, by simp [a1, b3, c1], c2,
            .include_ hk b1 b2⟩
      · exact Or.inl ⟨e, by simp [a1, b3]⟩
  | not_ => exact bad _ rfl
  | in_ => exact bad _ rfl
  | as_ => exact bad _ rfl
  | true_ => exact bad _ rfl
  | false_ => exact bad _ rfl

theorem parseBlock_ok {p : Parser} {ts : List Tok} {b : Block} (hg : GBlock cx ts b)
    {e : Span} {rest : List Tok} {r : Option Err}
    (h : Abs cx p (ts ++ (.endBlock, e) :: rest) r) (hs : Str' cx (ts ++ (.endBlock, e) :: rest)) :
    ∃ p', parseBlock cx p = .ok (b, p') ∧ Abs cx p' ((.endBlock, e) :: rest) r := by
  cases hg with
  | @if_ k us n x hk hc =>
    obtain ⟨p1, h1, h2⟩ := parseKeyword_ok (kw := .if_) h hk
    obtain ⟨p2, h3, h4⟩ := parseIfCond_ok hc (by rfl) h2 hs.tail
    exact ⟨p2, by simp [parseBlock, h1, h3], h4⟩
  | @else_ k hk =>
    obtain ⟨p1, h1, h2⟩ := parseKeyword_ok (kw := .else_) h hk
    obtain ⟨p2, h3, h4⟩ := isNextKeyword_false (t := (.endBlock, e)) (kw := .if_) h2 (by intro h; cases h)
    exact ⟨p2, by simp [parseBlock, h1, h3], h4⟩
  | @elseIf k i us n x hk hi hc =>
    obtain ⟨p1, h1, h2⟩ := parseKeyword_ok (kw := .else_) h hk
    obtain ⟨p2, h3, h4⟩ := isNextKeyword_true (kw := .if_) h2 hi
    obtain ⟨p3, h5, h6⟩ := expectKeyword_ok (kw := .if_) h4 hi
    obtain ⟨p4, h7, h8⟩ := parseIfCond_ok hc (by rfl) h6 hs.tail.tail
    exact ⟨p4, by simp [parseBlock, h1, h3, h5, h7], h8⟩
  | @endif k hk =>
    obtain ⟨p1, h1, h2⟩ := parseKeyword_ok (kw := .endif) h hk
    exact ⟨p1, by simp [parseBlock, h1], h2⟩
  | @for_ k vs v i us x hk hv hi hx =>
    obtain ⟨p1, h1, h2⟩ := parseKeyword_ok (kw := .for_) h hk
    have e1 : (vs ++ (.keyword, i) :: us) ++ (.endBlock, e) :: rest =
      vs ++ (.keyword, i) :: (us ++ (.endBlock, e) :: rest) := by simp
    have hs' := hs.tail
    rw [show List.append (vs ++ (Token.keyword, i) :: us) ((Token.endBlock, e) :: rest) = _ from e1] at h2 hs'
    obtain ⟨p2, h3, h4⟩ := parseLoopVars_ok hv (by simp) h2
    obtain ⟨p3, h5, h6⟩ := expectKeyword_ok (kw := .in_) h4 hi
    obtain ⟨p4, h7, h8⟩ := parseExpr_ok hx (by rfl) h6 hs'.suffix.tail
    exact ⟨p4, by simp [parseBlock, h1, h3, h5, h7], h8⟩
  | @endfor k hk =>
    obtain ⟨p1, h1, h2⟩ := parseKeyword_ok (kw := .endfor) h hk
    exact ⟨p1, by simp [parseBlock, h1], h2⟩
  | @with_ k us x a n hk hx ha =>
    obtain ⟨p1, h1, h2⟩ := parseKeyword_ok (kw := .with_) h hk
    have e1 : (us ++ [(.keyword, a), (.ident, n)]) ++ (.endBlock, e) :: rest =
      us ++ (.keyword, a) :: (.ident, n) :: (.endBlock, e) :: rest := by simp
    have hs' := hs.tail
    rw [show List.append (us ++ [(Token.keyword, a), (Token.ident, n)]) ((Token.endBlock, e) :: rest) = _ from e1] at h2 hs'
    obtain ⟨p2, h3, h4⟩ := parseExpr_ok hx (by rfl) h2 hs'
    obtain ⟨p3, h5, h6⟩ := expectKeyword_ok (kw := .as_) h4 ha
    obtain ⟨p4, h7, h8⟩ := parseIdent_ok h6
    exact ⟨p4, by simp [parseBlock, h1, h3, h5, h7], h8⟩
  | @endwith k hk =>
    obtain ⟨p1, h1, h2⟩ := parseKeyword_ok (kw := .endwith) h hk
    exact ⟨p1, by simp [parseBlock, h1], h2⟩
  | @include_ k n raw name hk hraw hn =>
    obtain ⟨p1, h1, h2⟩ := parseKeyword_ok (kw := .include_) h hk
    obtain ⟨p2, h3, h4⟩ := expect_ok (tk := .string) (sp := n) h2
    have hstr : parseString cx n = .ok name := by
      obtain ⟨raw', a1, ⟨s, b1, b3, b2⟩ | ⟨b1, _⟩⟩ := parseString_spec hs.ne (hs.toks (.string, n) (by simp))
      · rw [hraw] at a1; injection a1 with a1; subst a1
        rw [b3 name hn]; exact b2
      · rw [hraw] at a1; injection a1 with a1; subst a1
        exact absurd hn (b1 _)
    obtain ⟨p3, h5, h6⟩ := isNextKeyword_false (t := (.endBlock, e)) (kw := .with_) h4 (by intro h; cases h)
    exact ⟨p3, by simp [parseBlock, h1, h3, hstr, h5], h6⟩
  | @includeWith k n raw name w us x hk hraw hn hw hx =>
    obtain ⟨p1, h1, h2⟩ := parseKeyword_ok (kw := .include_) h hk
    obtain ⟨p2, h3, h4⟩ := expect_ok (tk := .string) (sp := n) h2
    have hstr : parseString cx n = .ok name := by
      obtain ⟨raw', a1, ⟨s, b1, b3, b2⟩ | ⟨b1, _⟩⟩ := parseString_spec hs.ne (hs.toks (.string, n) (by simp))
      · rw [hraw] at a1; injection a1 with a1; subst a1
        rw [b3 name hn]; exact b2
      · rw [hraw] at a1; injection a1 with a1; subst a1
        exact absurd hn (b1 _)
    obtain ⟨p3, h5, h6⟩ := isNextKeyword_true (kw := .with_) h4 hw
    obtain ⟨p4, h7, h8⟩ := expectKeyword_ok (kw := .with_) h6 hw
    obtain ⟨p5, h9, h10⟩ := parseExpr_ok hx (by rfl) h8 hs.tail.tail.tail
    exact ⟨p5, by simp [parseBlock, h1, h3, hstr, h5, h7, h9], h10⟩

end Parser

open Spec in
theorem gstmts_append {env : Env} {src : Str} {a b : List Tok} {x y : List Stmt} (h : GStmts env src a x)
    (hb : GStmts env src b y) : GStmts env src (a ++ b) (x ++ y) := by
  match h with
  | .nil => exact hb
  | .raw h => exact .raw (gstmts_append h hb)
  | .comment h => exact .comment (gstmts_append h hb)
  | .expr (b := b') (e := e') h1 h2 =>
    have := GStmts.expr (b := b') (e := e') h1 (gstmts_append h2 hb)
    simpa using this
  | .include_ h1 h2 h3 h4 =>
    have := GStmts.include_ h1 h2 h3 (gstmts_append h4 hb)
    simpa using this
  | .includeWith h1 h2 h3 h4 h5 h6 =>
    have := GStmts.includeWith h1 h2 h3 h4 h5 (gstmts_append h6 hb)
    simpa using this
  | .for_ h1 h2 h3 h4 h5 h6 h7 =>
    have := GStmts.for_ h1 h2 h3 h4 h5 h6 (gstmts_append h7 hb)
    simpa using this
  | .with_ h1 h2 h3 h4 h5 h6 =>
    have := GStmts.with_ h1 h2 h3 h4 h5 (gstmts_append h6 hb)
    simpa using this
  | .if_ h1 h2 h3 h4 h5 =>
    have := GStmts.if_ h1 h2 h3 h4 (gstmts_append h5 hb)
    simpa using this

end Upon
