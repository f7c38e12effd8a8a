import Verif.Spec.InSource
import Verif.Proofs.ParseBase
import Verif.Spec.Grammar
/-
Trees of the grammar have their byte ranges in the source, if the tokens do.
-/
namespace Upon
open Spec

section
variable {env : Env} {src : Str}

abbrev ToksIn (src : Str) (ts : List Tok) : Prop := ∀ t ∈ ts, SpanIn src t.2

theorem ToksIn.left {a b : List Tok} (h : ToksIn src (a ++ b)) : ToksIn src a :=
  fun t ht => h t (List.mem_append_left _ ht)
theorem ToksIn.right {a b : List Tok} (h : ToksIn src (a ++ b)) : ToksIn src b :=
  fun t ht => h t (List.mem_append_right _ ht)
theorem ToksIn.head {a : Tok} {b : List Tok} (h : ToksIn src (a :: b)) : SpanIn src a.2 := h a List.mem_cons_self
theorem ToksIn.tail {a : Tok} {b : List Tok} (h : ToksIn src (a :: b)) : ToksIn src b :=
  fun t ht => h t (List.mem_cons_of_mem _ ht)

theorem Spec.SpanIn.combine {a b : Span} (ha : SpanIn src a) (hb : SpanIn src b) : SpanIn src (a.combine b) :=
  SpanOK.combine ha hb

theorem gpath_in {ts ms} (h : GPath env src ts ms) (ht : ToksIn src ts) : ∀ m ∈ ms, MemberIn src m := by
  induction h with
  | nil => intro m h; cases h
  | key _ _ ih =>
    intro m hm
    rcases List.mem_cons.mp hm with rfl | hm
    · exact ⟨ht.head.combine ht.tail.head, ht.tail.head⟩
    · exact ih ht.tail.tail m hm
  | index _ _ _ _ ih =>
    intro m hm
    rcases List.mem_cons.mp hm with rfl | hm
    · exact ⟨ht.head.combine ht.tail.head, ht.tail.head⟩
    · exact ih ht.tail.tail m hm

theorem gbase_in {ts b} (h : GBase env src ts b) (ht : ToksIn src ts) : BaseIn src b := by
  cases h with
  | true_ => exact ht.head
  | false_ => exact ht.head
  | number => exact ht.head
  | plus => exact ht.head.combine ht.tail.head
  | minus => exact ht.head.combine ht.tail.head
  | string => exact ht.head
  | var h => exact ⟨⟨ht.head, ht.head⟩, gpath_in h ht.tail⟩

theorem var_span_in {v : Var} (h : VarIn src v) : SpanIn src v.span := by
  rw [Var.span, Var.last]
  refine h.1.1.combine ?_
  cases hl : v.rest.getLast? with
  | none => exact h.1.1
  | some m => exact (h.2 m (List.mem_of_getLast? hl)).1

theorem base_span_in {b : BaseExpr} (h : BaseIn src b) : SpanIn src b.span := by
  cases b with
  | var v => exact var_span_in h
  | lit l => exact h

theorem expr_span_in {e : Expr} (h : ExprIn src e) : SpanIn src e.span := by
  cases e with
  | base b => exact base_span_in h
  | call => exact h.2.2.2

theorem gargs_in {ts es} (h : GArgs env src ts es) (ht : ToksIn src ts) : ∀ x ∈ es, BaseIn src x := by
  induction h with
  | one h =>
    intro x hx
    rcases List.mem_cons.mp hx with rfl | hx
    · exact gbase_in h ht
    · cases hx
  | more h _ ih =>
    intro x hx
    rcases List.mem_cons.mp hx with rfl | hx
    · exact gbase_in h ht.left
    · exact ih ht.right.tail x hx

theorem gcalls_in {e ts e'} (h : GCalls env src e ts e') (ht : ToksIn src ts) (he : ExprIn src e) : ExprIn src e' := by
  induction h with
  | nil => exact he
  | call _ ih =>
    refine ih ht.tail.tail ⟨ht.tail.head, (fun a h => by cases h), he, (expr_span_in he).combine ht.tail.head⟩
  | callArgs ha _ ih =>
    have hs := ht.tail.tail.tail
    have hx := gargs_in ha hs.left
    have hl := base_span_in (hx _ (List.mem_append_right _ List.mem_cons_self))
    have hc := ht.tail.tail.head
    refine ih hs.right ⟨ht.tail.head, (fun a h => by cases h; exact hx), he, (expr_span_in he).combine (hc.combine hl)⟩

theorem gexpr_in {ts e} (h : GExpr env src ts e) (ht : ToksIn src ts) : ExprIn src e := by
  obtain ⟨us, b, vs, rfl, hb, hc⟩ := h
  exact gcalls_in hc ht.right (gbase_in hb ht.left)

theorem gcond_in {ts n e} (h : GCond env src ts n e) (ht : ToksIn src ts) : ExprIn src e := by
  cases h with
  | plain h => exact gexpr_in h ht
  | not _ h => exact gexpr_in h ht.tail

theorem gvars_in {ts v} (h : GVars ts v) (ht : ToksIn src ts) : VarsIn src v := by
  cases h with
  | item => exact ht.head
  | keyValue => exact ⟨ht.head, ht.tail.tail.head, ht.head.combine ht.tail.tail.head⟩

theorem gtag_in {w us ts} (h : GTag src w us ts) (ht : ToksIn src ts) : ToksIn src us := by
  cases h with
  | mk _ => exact ht.tail.tail.left

mutual
theorem gstmts_in {ts : List Tok} {ss : List Stmt} (h : GStmts env src ts ss) (ht : ToksIn src ts) : StmtsIn src ss := by
  match h with
  | .nil => exact trivial
  | .raw h => exact ⟨ht.head, gstmts_in h ht.tail⟩
  | .comment h => exact gstmts_in h ht.tail.tail.tail
  | .expr h1 h2 =>
    have hr := ht.tail.right
    exact ⟨⟨gexpr_in h1 ht.tail.left, ht.head.combine hr.head⟩, gstmts_in h2 hr.tail⟩
  | .include_ t _ _ h =>
    exact ⟨(gtag_in t ht.left).head, gstmts_in h ht.right⟩
  | .includeWith t _ _ _ hx h =>
    have := gtag_in t ht.left
    exact ⟨⟨this.head, gexpr_in hx this.tail.tail⟩, gstmts_in h ht.right⟩
  | .for_ t hv _ hx hb _ h =>
    have := gtag_in t ht.left.left.left
    exact ⟨⟨gvars_in hv this.left, gexpr_in hx this.right.tail, gstmts_in hb ht.left.left.right⟩, gstmts_in h ht.right⟩
  | .with_ t hx _ hb _ h =>
    have := gtag_in t ht.left.left.left
    exact ⟨⟨gexpr_in hx this.left, this.right.tail.head, gstmts_in hb ht.left.left.right⟩, gstmts_in h ht.right⟩
  | .if_ (els := els) t hx hb he h =>
    have h1 := gcond_in hx (gtag_in t ht.left.left.left)
    have h2 := gstmts_in hb ht.left.left.right
    have h3 := gelse_in he ht.left.right
    have h4 := gstmts_in h ht.right
    match els, h3 with
    | none, _ => exact ⟨⟨h1, h2⟩, h4⟩
    | some e, h3 => exact ⟨⟨h1, h2, h3 e rfl⟩, h4⟩

theorem gelse_in {ts : List Tok} {els : Option (List Stmt)} (h : GElse env src ts els) (ht : ToksIn src ts) :
    ∀ e, els = some e → StmtsIn src e := by
  match h with
  | .endif _ => intro e he; cases he
  | .else_ _ hb _ => intro e he; cases he; exact gstmts_in hb ht.left.right
  | .elseIf (els := els) t _ hx hb hel =>
    intro e he
    cases he
    have h1 := gcond_in hx (gtag_in t ht.left.left).tail
    have h2 := gstmts_in hb ht.left.right
    have h3 := gelse_in hel ht.right
    match els, h3 with
    | none, _ => exact ⟨⟨h1, h2⟩, trivial⟩
    | some e, h3 => exact ⟨⟨h1, h2, h3 e rfl⟩, trivial⟩
end
end

end Upon
