import Verif.Proofs.Features
import Verif.Props.Parsing
/-
What a build without Unicode tables accepts, every build accepts.
-/
namespace Upon
open Spec

namespace Feat
variable {env env' : Env} {src : Str}

/-! The grammar does not use the tables -/

theorem gpath (h : Rebuilt env env') {ts ms} (g : GPath env src ts ms) : GPath env' src ts ms := by
  induction g with
  | nil => exact .nil
  | key a _ ih => exact .key a ih
  | index a b c _ ih => exact .index a b (by rw [h.bits]; exact c) ih

theorem numlit (h : Rebuilt env env') {raw b v} (g : NumLit env raw b v) : NumLit env' raw b v := by
  cases g with
  | int a b => exact .int a b
  | float a b => exact .float a (by rw [h.parse]; exact b)

theorem gbase (h : Rebuilt env env') {ts e} (g : GBase env src ts e) : GBase env' src ts e := by
  cases g with
  | true_ a => exact .true_ a
  | false_ a => exact .false_ a
  | number a b => exact .number a (numlit h b)
  | plus a b => exact .plus a (numlit h b)
  | minus a b => exact .minus a (numlit h b)
  | string a b => exact .string a b
  | var a => exact .var (gpath h a)

theorem gargs (h : Rebuilt env env') {ts es} (g : GArgs env src ts es) : GArgs env' src ts es := by
  induction g with
  | one a => exact .one (gbase h a)
  | more a _ ih => exact .more (gbase h a) ih

theorem gcalls (h : Rebuilt env env') {e ts e'} (g : GCalls env src e ts e') : GCalls env' src e ts e' := by
  induction g with
  | nil => exact .nil
  | call _ ih => exact .call ih
  | callArgs a _ ih => exact .callArgs (gargs h a) ih

theorem gexpr (h : Rebuilt env env') {ts e} (g : GExpr env src ts e) : GExpr env' src ts e := by
  obtain ⟨us, b, vs, e, h1, h2⟩ := g
  exact ⟨us, b, vs, e, gbase h h1, gcalls h h2⟩

theorem gcond (h : Rebuilt env env') {ts n e} (g : GCond env src ts n e) : GCond env' src ts n e := by
  cases g with
  | plain a => exact .plain (gexpr h a)
  | not a b => exact .not a (gexpr h b)

mutual
theorem gstmts (h : Rebuilt env env') {ts ss} (g : GStmts env src ts ss) : GStmts env' src ts ss := by
  match g with
  | .nil => exact .nil
  | .raw a => exact .raw (gstmts h a)
  | .comment a => exact .comment (gstmts h a)
  | .expr a b => exact .expr (gexpr h a) (gstmts h b)
  | .include_ a b c d => exact .include_ a b c (gstmts h d)
  | .includeWith a b c d e f => exact .includeWith a b c d (gexpr h e) (gstmts h f)
  | .for_ a b c d e f i => exact .for_ a b c (gexpr h d) (gstmts h e) f (gstmts h i)
  | .with_ a b c d e f => exact .with_ a (gexpr h b) c (gstmts h d) e (gstmts h f)
  | .if_ a b c d e => exact .if_ a (gcond h b) (gstmts h c) (gelse h d) (gstmts h e)
theorem gelse (h : Rebuilt env env') {ts ss} (g : GElse env src ts ss) : GElse env' src ts ss := by
  match g with
  | .endif a => exact .endif a
  | .else_ a b c => exact .else_ a (gstmts h b) c
  | .elseIf a b c d e => exact .elseIf a b (gcond h c) (gstmts h d) (gelse h e)
end

/-! The layout -/

/-- What the tables have to agree on for the second to accept what the first accepts. -/
structure Extends (env env' : Env) (syn : Syn) : Prop where
  start : ∀ c, isDigit c = false → isIdentStart env c = true → isIdentStart env' c = true
  char : ∀ c, isIdentChar env c = true → isIdentChar env' c = true
  /-- nothing that can follow a name becomes part of it -/
  punct : ∀ c, Punct c → isIdentChar env c = false → isIdentChar env' c = false
  next : ∀ c, isIdentStart env c = true → isIdentChar env c = false → isIdentChar env' c = false
  delim : ∀ p ∈ syn, ∀ c r, p.2 = c :: r → isIdentChar env c = false → isIdentChar env' c = false

variable {syn : Syn}

theorem word_up (x : Extends env env' syn) {s : Str} (h : Word env s) : Word env' s := by
  obtain ⟨c, r, e, hp, h1, h2⟩ := h
  exact ⟨c, r, e, hp, x.start c (by cases hd : isDigit c <;> simp_all [Punct]) h1, fun d hd => x.char d (h2 d hd)⟩

theorem text_up (x : Extends env env' syn) {tk : Token} {s : Str} (h : TokText env tk s) : TokText env' tk s := by
  cases tk <;> first | exact h | exact ⟨h.1, word_up x h.2⟩

/-- The first character of a token inside a tag. -/
theorem first_char {tk : Token} {s : Str} (h : TokText env tk s) : ∃ c r, s = c :: r ∧ (Punct c ∨ isIdentStart env c = true) := by
  cases tk <;> simp only [TokText] at h
  case keyword => obtain ⟨_, c, r, e, _, h, _⟩ := h; exact ⟨c, r, e, .inr h⟩
  case ident => obtain ⟨_, c, r, e, _, h, _⟩ := h; exact ⟨c, r, e, .inr h⟩
  case index =>
    cases s with
    | nil => exact absurd rfl h.1
    | cons c r => exact ⟨c, r, rfl, .inl (.inr (h.2 c (by simp)))⟩
  case number => obtain ⟨c, r, e, h, _⟩ := h; exact ⟨c, r, e, .inl (.inr h)⟩
  case string => obtain ⟨b, e, _⟩ := h; exact ⟨_, _, e, .inl (.inl (by simp))⟩
  case whitespace =>
    cases s with
    | nil => exact absurd rfl h.1
    | cons c r => exact ⟨c, r, rfl, .inl (.inl (by rcases h.2 c (by simp) with rfl | rfl <;> simp))⟩
  all_goals exact ⟨_, _, h, .inl (.inl (by simp))⟩

/-- What comes next inside a tag is a token or a delimiter. -/
theorem tag_next (hne : NonEmptyDelims syn) {c : Token} {p : Bool} {i : Nat} {ts : List (Token × Span)} (h : Layout syn env src (.tag c p) i ts)
    {d : Char} {r : Str} (hd : dropB src i = some (d :: r)) :
    Punct d ∨ isIdentStart env d = true ∨ ∃ q ∈ syn, ∃ r', q.2 = d :: r' := by
  have key : ∀ tk t, TokAt env src p i tk t → Punct d ∨ isIdentStart env d = true := by
    intro tk t ⟨rest, e, h, _⟩
    obtain ⟨c, r', rfl, hc⟩ := first_char h
    rw [hd] at e
    simp only [List.cons_append, Option.some.injEq, List.cons.injEq] at e
    obtain ⟨rfl, _⟩ := e
    exact hc
  cases h with
  | blank _ text =>
    rcases key _ _ text with h | h
    · exact .inl h
    · exact .inr (.inl h)
  | token _ text =>
    rcases key _ _ text with h | h
    · exact .inl h
    · exact .inr (.inl h)
  | close next =>
    refine .inr (.inr ?_)
    obtain ⟨x, before, later, e, ⟨pre, post, e', hp, _⟩, _⟩ := next.first
    rename_i k _ _ _ _ _ _
    have hm : (k, x) ∈ syn := by rw [e]; simp
    refine ⟨(k, x), hm, ?_⟩
    have hx := hne _ hm
    have e2 : dropB src i = some (x ++ post) := dropB_eq_some.mpr ⟨pre, by rw [e', List.append_assoc], hp⟩
    rw [hd] at e2
    cases x with
    | nil => exact absurd rfl hx
    | cons y x =>
      simp only [List.cons_append, Option.some.injEq, List.cons.injEq] at e2
      exact ⟨x, by rw [e2.1]⟩

theorem layout_up (hne : NonEmptyDelims syn) (x : Extends env env' syn) {m : Mode} {i : Nat} {ts : List (Token × Span)} (h : Layout syn env src m i ts) :
    Layout syn env' src m i ts := by
  have up : ∀ p i tk t c q ts, TokAt env src p i tk t → Layout syn env src (.tag c q) (i + blen t) ts → TokAt env' src p i tk t := by
    intro p i tk t c q ts ⟨rest, e, h, hs, hf⟩ hl
    refine ⟨rest, e, text_up x h, ?_, hf⟩
    cases rest with
    | nil => cases tk <;> exact hs
    | cons d r =>
      have hd : dropB src (i + blen t) = some (d :: r) := by
        obtain ⟨pre, e, hp⟩ := dropB_eq_some.mp e
        exact dropB_eq_some.mpr ⟨pre ++ t, by simp [e], by simp [hp]⟩
      have hn : isIdentChar env d = false → isIdentChar env' d = false := by
        intro hd'
        rcases tag_next hne hl hd with h | h | ⟨p, hp, r', h⟩
        · exact x.punct d h hd'
        · exact x.next d h hd'
        · exact x.delim p hp d r' h hd'
      cases tk <;> first | exact hs | exact hn hs
  induction h with
  | done => exact .done
  | textEnd a b c d => exact .textEnd a b c d
  | textTag a b c d e _ ih => exact .textTag a b c d e ih
  | tag a b _ ih => exact .tag a b ih
  | blank a b c ih => exact .blank a (up _ _ _ _ _ _ _ b c) ih
  | token a b c d ih => exact .token a (up _ _ _ _ _ _ _ b d) c ih
  | close a b _ ih => exact .close a b ih
  | comment a b c _ ih => exact .comment a b c ih
  | emptyComment a b _ ih => exact .emptyComment a b ih

end Feat
end Upon
