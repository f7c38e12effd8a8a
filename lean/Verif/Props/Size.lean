import Verif.Proofs.Size
import Verif.Proofs.LexComplete
import Verif.Props.Depth
import Verif.Props.Render
/-
How large compiled templates get, and how much is kept in memory during a render (C59).
-/
namespace Upon
open Spec Compiler
variable {σ : Type}

namespace Size

theorem chosen_lt {syn : Syn} {src : Str} {i : Nat} {k : Kind} {j n : Nat} (ne : NonEmptyDelims syn) (h : Chosen syn src i k j n) : j < n ∧ n ≤ blen src := by
  obtain ⟨_, _, _, d, before, later, hs, ⟨pre, post, hp, h1, h2⟩, _⟩ := h
  have hd : d ≠ [] := ne (k, d) (by rw [hs]; simp)
  have : blen d ≠ 0 := fun h => hd (blen_eq_zero.mp h)
  rw [blen_append] at h2
  rw [hp, blen_append, blen_append]
  omega

theorem tokText_ne {env : Env} {tk : Token} {t : Str} (h : TokText env tk t) : t ≠ [] := by
  cases tk <;> simp only [TokText] at h
  all_goals first
    | exact h.elim
    | (subst h; simp)
    | exact h.1
    | (obtain ⟨_, _, h, _⟩ := h; rw [h]; simp)
    | (obtain ⟨_, _, _, h, _⟩ := h; rw [h]; simp)
    | (obtain ⟨_, h, _⟩ := h; rw [h]; simp)

/-- There are at most as many tokens as bytes. -/
theorem layout_length {syn : Syn} {env : Env} {src : Str} (ne : NonEmptyDelims syn) {m : Mode} {i : Nat} {ts : List Tok} (h : Layout syn env src m i ts) :
    ts.length + i ≤ blen src := by
  have some_text : ∀ {t : Str}, t ≠ [] → 1 ≤ blen t := fun {t} h => by
    have : blen t ≠ 0 := fun h' => h (blen_eq_zero.mp h')
    omega
  induction h with
  | done => simp
  | textEnd _ text hne _ =>
    obtain ⟨_, _, _, _, h⟩ := slice_eq_some.mp text
    have := some_text hne
    simp only [List.length_singleton]; omega
  | textTag next _ text hne _ _ ih =>
    obtain ⟨_, _, _, _, h⟩ := slice_eq_some.mp text
    have := some_text hne
    have := chosen_lt ne next
    simp only [List.length_cons]; omega
  | tag next _ _ ih => have := chosen_lt ne next; simp only [List.length_cons]; omega
  | blank _ text _ ih => omega
  | token _ text _ _ ih =>
    obtain ⟨_, _, h, _⟩ := text
    have := some_text (tokText_ne h)
    simp only [List.length_cons]; omega
  | close next _ _ ih => have := chosen_lt ne next; simp only [List.length_cons]; omega
  | comment next _ hlt _ ih => have := chosen_lt ne next; simp only [List.length_cons]; omega
  | emptyComment next _ _ ih => have := chosen_lt ne next; simp only [List.length_cons]; omega

theorem base_length {env : Env} {src : Str} {ts : List Tok} {b : BaseExpr} (h : GBase env src ts b) : 1 ≤ ts.length := by
  cases h <;> simp

theorem calls_length {env : Env} {src : Str} {e e' : Expr} {ts : List Tok} (h : GCalls env src e ts e') :
    (codeExpr e').length ≤ (codeExpr e).length + ts.length := by
  induction h with
  | nil => simp
  | call _ ih =>
    simp only [codeExpr, List.length_append, List.length_cons, List.length_nil] at ih ⊢
    omega
  | callArgs _ _ ih =>
    simp only [codeExpr, List.length_append, List.length_cons, List.length_nil] at ih ⊢
    omega

theorem expr_length {env : Env} {src : Str} {e : Expr} {ts : List Tok} (h : GExpr env src ts e) : (codeExpr e).length ≤ ts.length := by
  obtain ⟨us, b, vs, rfl, hb, hc⟩ := h
  have h1 := calls_length hc
  have h2 := base_length hb
  have : (codeExpr (.base b)).length = 1 := by cases b <;> rfl
  rw [List.length_append]
  omega

theorem cond_length {env : Env} {src : Str} {e : Expr} {n : Bool} {ts : List Tok} (h : GCond env src ts n e) : (codeExpr e).length ≤ ts.length := by
  cases h with
  | plain h => exact expr_length h
  | not _ h => have := expr_length h; simp only [List.length_cons]; omega

theorem emit_length (e : Expr) : (codeEmit e).length ≤ (codeExpr e).length + 1 := by
  cases e with
  | base b => simp [codeEmit]
  | call n a r s => cases a <;> simp [codeEmit, codeExpr]

theorem tag_length {src : Str} {w : String} {inner ts : List Tok} (h : GTag src w inner ts) : ts.length = inner.length + 3 := by
  cases h; simp

mutual
theorem stmts_length {env : Env} {src : Str} : ∀ {ts : List Tok} {ss : List Stmt}, GStmts env src ts ss →
    (∀ p, (codeStmts p ss).length ≤ ts.length) ∧ nesting ss ≤ ts.length
  | _, _, .nil => ⟨fun p => by simp [codeStmts], by simp [nesting]⟩
  | _, _, .raw h => by
    obtain ⟨h1, h2⟩ := stmts_length h
    refine ⟨fun p => ?_, ?_⟩
    · have := h1 (p + 1)
      simp only [codeStmts, codeStmt, List.length_append, List.length_cons, List.length_nil]
      simp only [Nat.zero_add] at *; omega
    · simp only [nesting, nestingOne, List.length_cons]; omega
  | _, _, .comment h => by
    obtain ⟨h1, h2⟩ := stmts_length h
    refine ⟨fun p => ?_, ?_⟩
    · have := h1 p; simp only [List.length_cons]; omega
    · simp only [List.length_cons]; omega
  | _, _, .expr (x := x) hx h => by
    obtain ⟨h1, h2⟩ := stmts_length h
    have hx := expr_length hx
    have he := emit_length x
    refine ⟨fun p => ?_, ?_⟩
    · have := h1 (p + (codeEmit x).length)
      simp only [codeStmts, codeStmt, List.length_append, List.length_cons]
      omega
    · simp only [nesting, nestingOne, List.length_cons, List.length_append]; omega
  | _, _, .include_ ht _ _ h => by
    obtain ⟨h1, h2⟩ := stmts_length h
    have ht := tag_length ht
    refine ⟨fun p => ?_, ?_⟩
    · have := h1 (p + 1)
      simp only [codeStmts, codeStmt, List.length_append, List.length_cons, List.length_nil]
      simp only [Nat.zero_add] at *; omega
    · simp only [nesting, nestingOne, List.length_append]; omega
  | _, _, .includeWith (x := x) (name := name) (nsp := nsp) ht _ _ _ hx h => by
    obtain ⟨h1, h2⟩ := stmts_length h
    have ht := tag_length ht
    have hx := expr_length hx
    simp only [List.length_cons] at ht
    refine ⟨fun p => ?_, ?_⟩
    · have := h1 (p + (codeStmt p (.include_ ⟨name, nsp⟩ (some x))).length)
      rw [codeStmts, List.length_append]
      have : (codeStmt p (.include_ ⟨name, nsp⟩ (some x))).length = (codeExpr x).length + 1 := by simp [codeStmt]
      rw [List.length_append]
      omega
    · simp only [nesting, nestingOne, List.length_append]; omega
  | _, _, .for_ (v := v) (x := x) (ss' := ss') ht _ _ hx hb he h => by
    obtain ⟨h1, h2⟩ := stmts_length h
    obtain ⟨b1, b2⟩ := stmts_length hb
    have ht := tag_length ht
    have he := tag_length he
    have hx := expr_length hx
    simp only [List.length_cons, List.length_append] at ht
    refine ⟨fun p => ?_, ?_⟩
    · have := h1 (p + (codeStmt p (.forLoop v x ss')).length)
      rw [codeStmts, List.length_append]
      have := b1 (p + (codeExpr x).length + 2)
      have : (codeStmt p (.forLoop v x ss')).length = (codeExpr x).length + (codeStmts (p + (codeExpr x).length + 2) ss').length + 3 := by
        simp [codeStmt]; omega
      simp only [List.length_append]
      omega
    · simp only [nesting, nestingOne, List.length_append]; omega
  | _, _, .with_ (x := x) (nsp := nsp) (ss' := ss') ht hx _ hb he h => by
    obtain ⟨h1, h2⟩ := stmts_length h
    obtain ⟨b1, b2⟩ := stmts_length hb
    have ht := tag_length ht
    have he := tag_length he
    have hx := expr_length hx
    simp only [List.length_cons, List.length_append] at ht
    refine ⟨fun p => ?_, ?_⟩
    · have := h1 (p + (codeStmt p (.with_ x ⟨nsp⟩ ss')).length)
      rw [codeStmts, List.length_append]
      have := b1 (p + (codeExpr x).length + 1)
      have : (codeStmt p (.with_ x ⟨nsp⟩ ss')).length = (codeExpr x).length + (codeStmts (p + (codeExpr x).length + 1) ss').length + 2 := by
        simp [codeStmt]; omega
      simp only [List.length_append]
      omega
    · simp only [nesting, nestingOne, List.length_append]; omega
  | _, _, .if_ (n := n) (x := x) (ss' := ss') (els := els) ht hx hb he h => by
    obtain ⟨h1, h2⟩ := stmts_length h
    obtain ⟨b1, b2⟩ := stmts_length hb
    obtain ⟨e1, e2⟩ := else_length he
    have ht := tag_length ht
    have hx := cond_length hx
    refine ⟨fun p => ?_, ?_⟩
    · have := h1 (p + (codeStmt p (.ifElse n x ss' els)).length)
      rw [codeStmts, List.length_append]
      have := b1 (p + (codeExpr x).length + 1)
      cases els with
      | none =>
        have : (codeStmt p (.ifElse n x ss' none)).length = (codeExpr x).length + (codeStmts (p + (codeExpr x).length + 1) ss').length + 1 := by
          simp [codeStmt]; omega
        simp only [List.length_append]
        omega
      | some els =>
        have := e1 (p + (codeExpr x).length + 1 + (codeStmts (p + (codeExpr x).length + 1) ss').length + 1) els rfl
        have : (codeStmt p (.ifElse n x ss' (some els))).length = (codeExpr x).length + (codeStmts (p + (codeExpr x).length + 1) ss').length +
            (codeStmts (p + (codeExpr x).length + 1 + (codeStmts (p + (codeExpr x).length + 1) ss').length + 1) els).length + 2 := by
          simp [codeStmt]; omega
        simp only [List.length_append]
        omega
    · cases els with
      | none => simp only [nesting, nestingOne, List.length_append]; omega
      | some els => have := e2 els rfl; simp only [nesting, nestingOne, List.length_append]; omega

theorem else_length {env : Env} {src : Str} : ∀ {ts : List Tok} {els : Option (List Stmt)}, GElse env src ts els →
    (∀ p ss, els = some ss → (codeStmts p ss).length + 1 ≤ ts.length) ∧ ∀ ss, els = some ss → nesting ss ≤ ts.length
  | _, _, .endif _ => ⟨fun _ _ h => by simp at h, fun _ h => by simp at h⟩
  | _, _, .else_ ht hb he => by
    obtain ⟨b1, b2⟩ := stmts_length hb
    have ht := tag_length ht
    have he := tag_length he
    refine ⟨fun p ss h => ?_, fun ss h => ?_⟩
    · cases h
      have := b1 p
      simp only [List.length_append]; omega
    · cases h
      simp only [List.length_append]; omega
  | _, _, .elseIf (n := n) (x := x) (ss := ss') (els := els) ht _ hx hb he => by
    obtain ⟨b1, b2⟩ := stmts_length hb
    obtain ⟨e1, e2⟩ := else_length he
    have ht := tag_length ht
    have hx := cond_length hx
    simp only [List.length_cons] at ht
    refine ⟨fun p ss h => ?_, fun ss h => ?_⟩
    · cases h
      rw [codeStmts, List.length_append]
      simp only [codeStmts, List.length_nil]
      have := b1 (p + (codeExpr x).length + 1)
      cases els with
      | none =>
        have : (codeStmt p (.ifElse n x ss' none)).length = (codeExpr x).length + (codeStmts (p + (codeExpr x).length + 1) ss').length + 1 := by
          simp [codeStmt]; omega
        simp only [List.length_append]
        omega
      | some els =>
        have := e1 (p + (codeExpr x).length + 1 + (codeStmts (p + (codeExpr x).length + 1) ss').length + 1) els rfl
        have : (codeStmt p (.ifElse n x ss' (some els))).length = (codeExpr x).length + (codeStmts (p + (codeExpr x).length + 1) ss').length +
            (codeStmts (p + (codeExpr x).length + 1 + (codeStmts (p + (codeExpr x).length + 1) ss').length + 1) els).length + 2 := by
          simp [codeStmt]; omega
        simp only [List.length_append]
        omega
    · cases h
      cases els with
      | none => simp only [nesting, nestingOne, List.length_append]; omega
      | some els => have := e2 els rfl; simp only [nesting, nestingOne, List.length_append]; omega
end

end Size

open Size

/-- **C59** The blocks of a template are at most as deep as its text is long. -/
theorem C59_nesting {env : Env} {t : Template} {T : Tree} (h : Parsed env t T) : nesting T.body ≤ blen T.source := by
  obtain ⟨b, a, ts, s, hw, _, hl, hg⟩ := h
  have h1 := layout_length (good s hw).nonEmpty hl
  have h2 := (stmts_length hg).2
  omega

/-- **C59** What the engine keeps of a template is its text and at most one instruction for each byte of the text. -/
theorem C59_size {env : Env} {t : Template} (h : Compiled env t) : t.instrs.length ≤ blen t.source := by
  obtain ⟨T, hT⟩ := compiled_parsed h
  have hc := hT.code
  have hs := hT.source
  obtain ⟨b, a, ts, s, hw, _, hl, hg⟩ := hT
  have h1 := layout_length (good s hw).nonEmpty hl
  have h2 := (stmts_length hg).1 0
  rw [compileTemplate_eq] at hc
  cases hc
  show (codeStmts 0 T.body).length ≤ _
  rw [← hs]
  omega

/-- **C59** At every moment of a render, in whatever way it ends and however often its loops run, the stack of scopes is at most as high as the blocks
of the active templates are deep: one entry for the values given, and for each active template its open blocks and, but for the first, the two entries
of an `include … with`. -/
theorem C59_stack {env : Env} {r : Renderer} {sink : Sink σ} {tree : Template → Tree}
    (ht : ∀ t, Includable (r.cfg env sink) t → Parsed env t (tree t)) {T : Tree} (hT : Parsed env r.template T)
    {b : SState} {N : Nat} (hN : nesting T.body ≤ N) (hNs : ∀ t, Includable (r.cfg env sink) t → nesting (tree t).body ≤ N)
    {out : σ} {vm : VM σ} (h : Reachable (r.cfg env sink) (initVM r.template r.name b out) vm) :
    vm.stack.length ≤ 1 + N + (vm.frames.length - 1) * (N + 2) ∧ vm.frames.length ≤ max 1 (r.cfg env sink).maxIncludeDepth := by
  refine ⟨?_, C23_bound (Nat.le_max_left _ _) h⟩
  have hts : ∀ t, Includable (r.cfg env sink) t → ∃ D, Fits t D N := fun t hi => fits (ht t hi).code (hNs t hi)
  have hh : Height N vm.frames vm.stack.length := by
    induction h with
    | refl =>
      obtain ⟨D, hD⟩ := fits hT.code hN
      have := Height.cons (fr := ⟨r.template, r.name, 0, false⟩) hD (fun _ => rfl) .nil
      rw [hD.first] at this
      exact this
    | step _ hs ih => exact (height_step hts ih hs).1
  exact hh.le

/-- **C59** If no template is longer than `N` bytes and at most `d` may be active, then at most `1 + d (N + 2)` scopes are ever open. -/
theorem C59_bound {env : Env} {r : Renderer} {sink : Sink σ} (hc : AllCompiled (r.cfg env sink)) (hT : Compiled env r.template) {N : Nat}
    (hN : blen r.template.source ≤ N) (hNs : ∀ t, Includable (r.cfg env sink) t → blen t.source ≤ N) {b : SState}
    {out : σ} {vm : VM σ} (h : Reachable (r.cfg env sink) (initVM r.template r.name b out) vm) :
    vm.stack.length ≤ 1 + max 1 (r.cfg env sink).maxIncludeDepth * (N + 2) := by
  obtain ⟨T, hT⟩ := compiled_parsed hT
  obtain ⟨tree, ht⟩ := trees_exist hc
  obtain ⟨h1, h2⟩ := C59_stack (N := N) ht hT
    (by have := C59_nesting hT; rw [hT.source] at this; omega)
    (fun t hi => by have := C59_nesting (ht t hi); rw [(ht t hi).source] at this; have := hNs t hi; omega) h
  have h3 : (vm.frames.length - 1) * (N + 2) ≤ (max 1 (r.cfg env sink).maxIncludeDepth - 1) * (N + 2) := Nat.mul_le_mul_right _ (by omega)
  obtain ⟨m, hm⟩ : ∃ m, max 1 (r.cfg env sink).maxIncludeDepth = m + 1 := ⟨max 1 (r.cfg env sink).maxIncludeDepth - 1, by omega⟩
  rw [hm] at h3 ⊢
  rw [Nat.add_sub_cancel] at h3
  rw [Nat.add_mul]
  omega

end Upon
