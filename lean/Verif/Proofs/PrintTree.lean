import Verif.Proofs.Print
import Verif.Props.LiteralsRendered
/-
For C53: the words for a tree are where they belong, and they have this tree.
-/
namespace Upon.Plain
open Spec

theorem digits_numeral (n : Nat) : Numeral n (digits n) := by
  rw [numeral_iff]
  show (toString n).toList = _
  rw [Nat.toString_eq_repr, Nat.repr, String.toList_ofList]

theorem digits_cons (n : Nat) : ∃ c r, digits n = c :: r := by
  have := (digits_numeral n).some
  cases h : digits n with
  | nil => exact absurd h this
  | cons c r => exact ⟨c, r, rfl⟩

theorem digit_of {n : Nat} {c : Char} (h : c ∈ digits n) : isDigit c = true := by
  have := (digits_numeral n).digits c h
  simp only [isDigit, Bool.and_eq_true, decide_eq_true_eq]
  exact this

theorem digits_index (env : Env) (n : Nat) : TokText env .index (digits n) :=
  ⟨(digits_numeral n).some, fun _ h => digit_of h⟩

theorem digits_number (env : Env) (n : Nat) : TokText env .number (digits n) := by
  obtain ⟨c, r, h⟩ := digits_cons n
  refine ⟨c, r, h, digit_of (by rw [h]; simp), fun x hx => ?_⟩
  have := digit_of (n := n) (c := x) (by rw [h]; simp [hx])
  simp [isNumberChar, this]

theorem decimal_digits (n : Nat) : decimal (digits n) = n := (digits_numeral n).value

section
variable {env : Env} {fl : FloatText}

/-! The tree of the words -/

theorem litWords_tree {v : Value} (h : LitOk fl env v) : WBase env (litWords fl v) (.lit v) := by
  cases v with
  | bool b => cases b <;> constructor
  | integer i =>
    simp only [litWords]
    by_cases hi : i < 0
    · rw [if_pos hi]
      have e : signed true i.natAbs = i := by simp only [signed, if_true]; omega
      have := NumLit.int (env := env) (neg := true) (intLit_numeral (digits_numeral i.natAbs)) (by rw [e]; exact h)
      rw [e] at this
      exact .minus this
    · rw [if_neg hi]
      have e : signed false i.natAbs = i := by simp [signed]; omega
      have := NumLit.int (env := env) (neg := false) (intLit_numeral (digits_numeral i.natAbs)) (by rw [e]; exact h)
      rw [e] at this
      exact .number this
  | float f =>
    obtain ⟨h1, h2⟩ := h
    simp only [litWords]
    cases hs : (fl f).1 with
    | true => rw [hs] at h2; rw [if_pos rfl]; exact .minus h2
    | false => rw [hs] at h2; rw [if_neg (by simp)]; exact .number h2
  | string s => exact .string (Lit.quoted_lit s)
  | _ => exact h.elim

theorem pathWords_tree {ms : List ValueMember} (h : ∀ m ∈ ms, MemberOk env m) : WPath env (ms.flatMap memberWords) ms := by
  induction ms with
  | nil => exact .nil
  | cons m ms ih =>
    have h1 := h m (by simp)
    have h2 := ih fun m hm => h m (by simp [hm])
    obtain ⟨op, acc⟩ := m
    rw [List.flatMap_cons]
    cases acc with
    | key k => cases op <;> exact .key (by simp) h2
    | index i =>
      have e := decimal_digits i
      have : decimal (digits i) < 2 ^ env.usizeBits := by rw [e]; exact h1
      cases op with
      | direct =>
        have k := WPath.index (op := .direct) (tk := .dot) (by simp) this h2
        rw [e] at k
        exact k
      | optional =>
        have k := WPath.index (op := .optional) (tk := .questionDot) (by simp) this h2
        rw [e] at k
        exact k

theorem baseWords_tree {b : Base} (h : BaseOk fl env b) : WBase env (baseWords fl b) b := by
  cases b with
  | var n f ms => obtain ⟨_, rfl, h⟩ := h; exact .var (pathWords_tree h)
  | lit v => exact litWords_tree h

theorem argWords_tree {as : List Base} (h : ∀ a ∈ as, BaseOk fl env a) (hn : as ≠ []) : WArgs env (argWords fl as) as := by
  induction as with
  | nil => exact absurd rfl hn
  | cons a as ih =>
    have h1 := baseWords_tree (h a (by simp))
    cases as with
    | nil => exact .one h1
    | cons x as => exact .more h1 (ih (fun a ha => h a (by simp only [List.mem_cons] at ha ⊢; exact .inr ha)) (by simp))

theorem calls_snoc {e e' : Expr} {ws : List Item} (h : WCalls env e ws e') (n : Str) :
    WCalls env e (ws ++ [.sign .pipe, .word .ident n]) (.call n none e') := by
  induction h with
  | nil => exact .call .nil
  | call _ ih => exact .call ih
  | callArgs h1 _ ih => simp only [List.cons_append, List.append_assoc]; exact .callArgs h1 ih

theorem calls_snocArgs {e e' : Expr} {ws us : List Item} {bs : List Base} (h : WCalls env e ws e') (n : Str) (ha : WArgs env us bs) :
    WCalls env e (ws ++ .sign .pipe :: .word .ident n :: .sign .colon :: us) (.call n (some bs) e') := by
  induction h with
  | nil => simpa using WCalls.callArgs ha .nil
  | call _ ih => exact .call ih
  | callArgs h1 _ ih => simp only [List.cons_append, List.append_assoc]; exact .callArgs h1 ih

theorem exprWords_tree : ∀ {e : Expr}, ExprOk fl env e → WExpr env (exprWords fl e) e
  | .base b, h => ⟨_, _, [], (List.append_nil _).symm, baseWords_tree h, .nil⟩
  | .call n none r, h => by
    obtain ⟨us, b, vs, h1, h2, h3⟩ := exprWords_tree h.2
    exact ⟨us, b, _, by rw [exprWords, h1, List.append_assoc], h2, calls_snoc h3 n⟩
  | .call n (some as) r, h => by
    obtain ⟨us, b, vs, h1, h2, h3⟩ := exprWords_tree h.2.2.2
    exact ⟨us, b, _, by rw [exprWords, h1, List.append_assoc], h2, calls_snocArgs h3 n (argWords_tree h.2.2.1 h.2.1)⟩

theorem varsWords_tree (v : Vars) : WVars (varsWords v) v := by cases v <;> constructor

theorem condWords_tree {e : Expr} (h : ExprOk fl env e) (neg : Bool) :
    WCond env ((if neg then [.word .keyword "not".toList] else []) ++ exprWords fl e) neg e := by
  cases neg with
  | false => exact .plain (exprWords_tree h)
  | true => exact .not (exprWords_tree h)

mutual
theorem stmtWords_tree {ws : List Item} {ss : List Stmt} (k : WStmts env ws ss) : ∀ {s : Stmt}, StmtOk fl env s →
    WStmts env (stmtWords fl s ++ ws) (s :: ss)
  | .char c, _ => .char k
  | .expr e, h => by
    have := WStmts.expr (exprWords_tree h) k
    simpa [stmtWords] using this
  | .include_ n none, _ => .include_ (Lit.quoted_lit n) k
  | .include_ n (some e), h => .includeWith (Lit.quoted_lit n) (exprWords_tree h) k
  | .ifElse neg c t none, h => by
    have := WStmts.if_ (condWords_tree h.1 neg) (stmtsWords_tree h.2) .endif k
    simpa [stmtWords, elseWords] using this
  | .ifElse neg c t (some e), h => by
    have := WStmts.if_ (condWords_tree h.1 neg) (stmtsWords_tree h.2.1) (.else_ (stmtsWords_tree h.2.2)) k
    simpa [stmtWords, elseWords] using this
  | .forLoop vs e b, h => by
    have := WStmts.for_ (varsWords_tree vs) (exprWords_tree h.2.1) (stmtsWords_tree h.2.2.2) k
    simpa [stmtWords] using this
  | .with_ e n b, h => by
    have := WStmts.with_ (s := n) (exprWords_tree h.1) (stmtsWords_tree h.2.2) k
    simpa [stmtWords] using this
/-- The words for statements have these statements as their tree. -/
theorem stmtsWords_tree : ∀ {ss : List Stmt}, StmtsOk fl env ss → WStmts env (stmtsWords fl ss) ss
  | [], _ => .nil
  | s :: ss, h => stmtWords_tree (stmtsWords_tree h.2) h.1
end

/-! The words are where they belong -/

variable (hk : ∀ s ∈ keywords, Word env s) {c : Token}
include hk

theorem spelled_kw {p : Bool} {s : String} (hs : s.toList ∈ keywords) {rest : List Item} (h : InPlace env (some (c, p)) rest) :
    InPlace env (some (c, p)) (.word .keyword s.toList :: rest) :=
  .word rfl ⟨hs, hk _ hs⟩ trivial h

theorem spelled_lit {p : Bool} {v : Value} (hv : LitOk fl env v) (hp : p = false ∨ ¬ LedByNumber (.base (.lit v))) {rest : List Item}
    (h : ∀ q, InPlace env (some (c, q)) rest) : InPlace env (some (c, p)) (litWords fl v ++ rest) := by
  cases v with
  | bool b =>
    cases b
    · exact spelled_kw hk (s := "false") (by decide) (h _)
    · exact spelled_kw hk (s := "true") (by decide) (h _)
  | integer i =>
    obtain rfl : p = false := by rcases hp with h | h; exact h; exact absurd trivial h
    simp only [litWords]
    by_cases hi : i < 0
    · rw [if_pos hi]
      exact .mark rfl (.word rfl (digits_number env _) rfl (h _))
    · rw [if_neg hi]
      exact .word rfl (digits_number env _) rfl (h _)
  | float f =>
    obtain rfl : p = false := by rcases hp with h | h; exact h; exact absurd trivial h
    simp only [litWords]
    by_cases hs : (fl f).1 = true
    · rw [if_pos hs]
      exact .mark rfl (.word rfl hv.1 rfl (h _))
    · rw [if_neg hs]
      exact .word rfl hv.1 rfl (h _)
  | string s => exact .word rfl (Lit.quoted_text env s) trivial (h _)
  | _ => exact hv.elim

omit hk in
theorem spelled_path {ms : List ValueMember} (hm : ∀ m ∈ ms, MemberOk env m) {rest : List Item}
    (h : ∀ q, InPlace env (some (c, q)) rest) : InPlace env (some (c, true)) (ms.flatMap memberWords ++ rest) := by
  induction ms with
  | nil => exact h _
  | cons m ms ih =>
    have h1 := hm m (by simp)
    have h2 := ih fun m hm' => hm m (by simp [hm'])
    obtain ⟨op, acc⟩ := m
    rw [List.flatMap_cons]
    cases acc with
    | key k => cases op <;> exact .mark rfl (.word rfl h1 trivial h2)
    | index i => cases op <;> exact .mark rfl (.word rfl (digits_index env i) rfl h2)

theorem spelled_base {p : Bool} {b : Base} (hb : BaseOk fl env b) (hp : p = false ∨ ¬ LedByNumber (.base b)) {rest : List Item}
    (h : ∀ q, InPlace env (some (c, q)) rest) : InPlace env (some (c, p)) (baseWords fl b ++ rest) := by
  cases b with
  | var n f ms => exact .word rfl hb.1 trivial (spelled_path hb.2.2 h)
  | lit v => exact spelled_lit hk hb hp h

theorem spelled_args {as : List Base} (ha : ∀ a ∈ as, BaseOk fl env a) (hn : as ≠ []) {rest : List Item}
    (h : ∀ q, InPlace env (some (c, q)) rest) : InPlace env (some (c, false)) (argWords fl as ++ rest) := by
  induction as with
  | nil => exact absurd rfl hn
  | cons a as ih =>
    cases as with
    | nil => exact spelled_base hk (ha a (by simp)) (.inl rfl) h
    | cons x as =>
      have := ih (fun a h => ha a (by simp only [List.mem_cons] at h ⊢; exact .inr h)) (by simp)
      simp only [argWords, List.append_assoc, List.cons_append]
      exact spelled_base hk (ha a (by simp)) (.inl rfl) fun q => .mark rfl this

theorem spelled_expr {p : Bool} : ∀ {e : Expr}, ExprOk fl env e → (p = false ∨ ¬ LedByNumber e) → ∀ {rest : List Item},
    (∀ q, InPlace env (some (c, q)) rest) → InPlace env (some (c, p)) (exprWords fl e ++ rest)
  | .base b, h, hp, _, hr => spelled_base hk h hp hr
  | .call n none r, h, hp, _, hr => by
    rw [exprWords, List.append_assoc]
    exact spelled_expr (e := r) h.2 hp fun q => .mark rfl (.word rfl h.1 trivial (hr _))
  | .call n (some as) r, h, hp, _, hr => by
    rw [exprWords, List.append_assoc]
    exact spelled_expr (e := r) h.2.2.2 hp fun q => .mark rfl (.word rfl h.1 trivial (.mark rfl (spelled_args hk h.2.2.1 h.2.1 hr)))

theorem spelled_tag {w : String} (hw : w.toList ∈ keywords) {inner rest : List Item}
    (h : InPlace env none rest → InPlace env (some (.endBlock, false)) (inner ++ .sign .endBlock :: rest)) (hr : InPlace env none rest) :
    InPlace env none (tag w inner ++ rest) := by
  have := InPlace.beginBlock (spelled_kw hk hw (h hr))
  simpa [tag] using this

theorem spelled_tag0 {w : String} (hw : w.toList ∈ keywords) {rest : List Item} (hr : InPlace env none rest) :
    InPlace env none (tag w [] ++ rest) := spelled_tag hk hw (inner := []) (fun h => .close h) hr

theorem spelled_vars {vs : Vars} (hv : VarsOk env vs) {rest : List Item} (h : ∀ q, InPlace env (some (c, q)) rest) :
    InPlace env (some (c, false)) (varsWords vs ++ rest) := by
  cases vs with
  | item n => exact .word rfl hv trivial (h _)
  | keyValue k v => exact .word rfl hv.1 trivial (.mark rfl (.word rfl hv.2 trivial (h _)))

mutual
theorem spelled_stmt {rest : List Item} (hr : InPlace env none rest) : ∀ {s : Stmt}, StmtOk fl env s →
    InPlace env none (stmtWords fl s ++ rest)
  | .char c, _ => .char hr
  | .expr e, h => by
    have := InPlace.beginExpr (spelled_expr hk h (.inl rfl) fun q => .close hr)
    simpa [stmtWords] using this
  | .include_ n none, _ => spelled_tag hk (by decide) (fun h => .word rfl (Lit.quoted_text env n) trivial (.close h)) hr
  | .include_ n (some e), h => by
    refine spelled_tag hk (by decide) (fun k => ?_) hr
    exact .word rfl (Lit.quoted_text env n) trivial (spelled_kw hk (by decide) (spelled_expr hk h (.inl rfl) fun q => .close k))
  | .ifElse neg c t none, h => by
    rw [stmtWords, List.append_assoc, List.append_assoc]
    refine spelled_tag hk (by decide) (fun k => ?_) (spelled_stmts (spelled_tag0 hk (by decide) hr) h.2)
    have := spelled_expr hk h.1 (c := .endBlock) (p := false) (.inl rfl) fun q => InPlace.close k
    cases neg with
    | false => exact this
    | true => exact spelled_kw hk (by decide) this
  | .ifElse neg c t (some e), h => by
    rw [stmtWords, List.append_assoc, List.append_assoc, elseWords, List.append_assoc, List.append_assoc]
    refine spelled_tag hk (by decide) (fun k => ?_) (spelled_stmts (spelled_tag0 hk (by decide)
      (spelled_stmts (spelled_tag0 hk (by decide) hr) h.2.2)) h.2.1)
    have := spelled_expr hk h.1 (c := .endBlock) (p := false) (.inl rfl) fun q => InPlace.close k
    cases neg with
    | false => exact this
    | true => exact spelled_kw hk (by decide) this
  | .forLoop vs e b, h => by
    rw [stmtWords, List.append_assoc, List.append_assoc]
    refine spelled_tag hk (by decide) (fun k => ?_) (spelled_stmts (spelled_tag0 hk (by decide) hr) h.2.2.2)
    rw [List.append_assoc]
    exact spelled_vars hk h.1 fun q => spelled_kw hk (by decide) (spelled_expr hk h.2.1 (.inr h.2.2.1) fun q => .close k)
  | .with_ e n b, h => by
    rw [stmtWords, List.append_assoc, List.append_assoc]
    refine spelled_tag hk (by decide) (fun k => ?_) (spelled_stmts (spelled_tag0 hk (by decide) hr) h.2.2)
    rw [List.append_assoc]
    exact spelled_expr hk h.1 (.inl rfl) fun q => spelled_kw hk (by decide) (.word rfl h.2.1 trivial (.close k))
theorem spelled_stmts {rest : List Item} (hr : InPlace env none rest) : ∀ {ss : List Stmt}, StmtsOk fl env ss →
    InPlace env none (stmtsWords fl ss ++ rest)
  | [], _ => hr
  | s :: ss, h => by
    rw [stmtsWords, List.append_assoc]
    exact spelled_stmt (spelled_stmts hr h.2) h.1
end

end
end Upon.Plain
