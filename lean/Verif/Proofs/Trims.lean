import Verif.Spec.Trims
import Verif.Proofs.Texts2
import Verif.Proofs.Seam
/-
Trim markers take only white space away (for C83).
-/
namespace Upon
open Spec

namespace Plain
section
variable {R : Str → Str → Prop} {env : Env}

theorem Rephrased.pre (hR : Likeness R) {s s' : Str} {ws us : List Item} (h : R s s') (hw : Rephrased R ws us) :
    Rephrased R (s.map .char ++ ws) (s'.map .char ++ us) := by
  cases hw with
  | text h2 => rw [← List.map_append, ← List.map_append]; exact .text (hR.parts h h2)
  | tag h1 h2 h3 => have := Rephrased.tag (hR.parts h h1) h2 h3; simpa using this

theorem Rephrased.trans (hR : ∀ {a b c}, R a b → R b c → R a c) {ws us vs : List Item} (h : Rephrased R ws us) (h' : Rephrased R us vs) : Rephrased R ws vs := by
  induction h generalizing vs with
  | @text s s' h =>
    obtain ⟨p, us', rfl, h1, h2⟩ := gap (p := s') (ws := []) nofun (by simpa using h')
    generalize hw : ([] : List Item) = ws at h2
    cases h2 with
    | nil => rw [List.append_nil]; exact .text (hR h h1)
    | tag h _ => cases h <;> simp at hw
  | @tag s s' tag ws ws' h1 h2 h3 ih =>
    have hb : Bare1 (tag ++ ws') := by cases h2 <;> exact fun c r e => by simp at e
    obtain ⟨p, us', rfl, k1, k2⟩ := gap hb h'
    cases h2 with
    | expr hi =>
      rw [List.cons_append, List.append_assoc] at k2
      obtain ⟨r', rfl, k3⟩ := tags_expr hi k2
      have := Rephrased.tag (hR h1 k1) (.expr hi) (ih k3)
      simpa using this
    | block hi =>
      rw [List.cons_append, List.append_assoc] at k2
      obtain ⟨r', rfl, k3⟩ := tags_block hi k2
      have := Rephrased.tag (hR h1 k1) (.block hi) (ih k3)
      simpa using this

/-! No comments in what a grammatical template says -/

/-- Not the start of a comment. -/
def Uncommented (i : Item) : Prop := i ≠ .sign .beginComment

theorem uncommented_path {ws : List Item} {ms : List ValueMember} (h : WPath env ws ms) : ∀ i ∈ ws, Uncommented i := by
  induction h with
  | nil => simp
  | key h _ ih => rcases h with ⟨_, rfl⟩ | ⟨_, rfl⟩ <;> simpa [Uncommented] using ih
  | index h _ _ ih => rcases h with ⟨_, rfl⟩ | ⟨_, rfl⟩ <;> simpa [Uncommented] using ih

theorem uncommented_base {ws : List Item} {b : Base} (h : WBase env ws b) : ∀ i ∈ ws, Uncommented i := by
  cases h with
  | var h => simpa [Uncommented] using uncommented_path h
  | _ => simp [Uncommented]

theorem uncommented_args {ws : List Item} {b : List Base} (h : WArgs env ws b) : ∀ i ∈ ws, Uncommented i := by
  induction h with
  | one h => exact uncommented_base h
  | more h _ ih =>
    intro i hi
    rcases List.mem_append.mp hi with hi | hi
    · exact uncommented_base h i hi
    · rcases List.mem_cons.mp hi with rfl | hi
      · simp [Uncommented]
      · exact ih i hi

theorem uncommented_calls {ws : List Item} {e e' : Expr} (h : WCalls env e ws e') : ∀ i ∈ ws, Uncommented i := by
  induction h with
  | nil => simp
  | call _ ih => simpa [Uncommented] using ih
  | callArgs h _ ih =>
    intro i hi
    simp only [List.mem_cons, List.mem_append] at hi
    rcases hi with rfl | rfl | rfl | hi | hi
    · simp [Uncommented]
    · simp [Uncommented]
    · simp [Uncommented]
    · exact uncommented_args h i hi
    · exact ih i hi

theorem uncommented_expr {ws : List Item} {e : Expr} (h : WExpr env ws e) : ∀ i ∈ ws, Uncommented i := by
  obtain ⟨us, b, vs, rfl, h1, h2⟩ := h
  intro i hi
  rcases List.mem_append.mp hi with hi | hi
  · exact uncommented_base h1 i hi
  · exact uncommented_calls h2 i hi

theorem uncommented_cond {ws : List Item} {n : Bool} {e : Expr} (h : WCond env ws n e) : ∀ i ∈ ws, Uncommented i := by
  cases h with
  | plain h => exact uncommented_expr h
  | not h => intro i hi; rcases List.mem_cons.mp hi with rfl | hi; · simp [Uncommented]
             · exact uncommented_expr h i hi

theorem uncommented_vars {ws : List Item} {vs : Vars} (h : WVars ws vs) : ∀ i ∈ ws, Uncommented i := by
  cases h <;> simp [Uncommented]

theorem uncommented_tag {w : String} {inner : List Item} (h : ∀ i ∈ inner, Uncommented i) : ∀ i ∈ tag w inner, Uncommented i := by
  intro i hi
  simp only [tag, List.mem_cons, List.mem_append, List.not_mem_nil, or_false] at hi
  rcases hi with rfl | rfl | hi | rfl
  · simp [Uncommented]
  · simp [Uncommented]
  · exact h i hi
  · simp [Uncommented]

theorem all_append {p : Item → Prop} {a b : List Item} (h1 : ∀ i ∈ a, p i) (h2 : ∀ i ∈ b, p i) : ∀ i ∈ a ++ b, p i := by
  intro i hi
  rcases List.mem_append.mp hi with hi | hi
  · exact h1 i hi
  · exact h2 i hi

theorem all_cons {p : Item → Prop} {x : Item} {b : List Item} (h1 : p x) (h2 : ∀ i ∈ b, p i) : ∀ i ∈ x :: b, p i := by
  intro i hi
  rcases List.mem_cons.mp hi with rfl | hi
  · exact h1
  · exact h2 i hi

mutual
theorem uncommented_stmts {ws : List Item} {a : List Stmt} (h : WStmts env ws a) : ∀ i ∈ ws, Uncommented i := by
  match h with
  | .nil => simp
  | .char h => exact all_cons (by simp [Uncommented]) (uncommented_stmts h)
  | .expr he h => exact all_cons (by simp [Uncommented]) (all_append (uncommented_expr he) (all_cons (by simp [Uncommented]) (uncommented_stmts h)))
  | .include_ _ h => exact all_append (uncommented_tag (by simp [Uncommented])) (uncommented_stmts h)
  | .includeWith _ he h =>
    exact all_append (uncommented_tag (all_cons (by simp [Uncommented]) (all_cons (by simp [Uncommented]) (uncommented_expr he)))) (uncommented_stmts h)
  | .for_ hv he hb h =>
    exact all_append (uncommented_tag (all_append (uncommented_vars hv) (all_cons (by simp [Uncommented]) (uncommented_expr he))))
      (all_append (uncommented_stmts hb) (all_append (uncommented_tag (by simp)) (uncommented_stmts h)))
  | .with_ he hb h =>
    exact all_append (uncommented_tag (all_append (uncommented_expr he) (by simp [Uncommented])))
      (all_append (uncommented_stmts hb) (all_append (uncommented_tag (by simp)) (uncommented_stmts h)))
  | .if_ hc hb ht h =>
    exact all_append (uncommented_tag (uncommented_cond hc)) (all_append (uncommented_stmts hb) (all_append (uncommented_else ht) (uncommented_stmts h)))
theorem uncommented_else {ws : List Item} {a : Option (List Stmt)} (h : WElse env ws a) : ∀ i ∈ ws, Uncommented i := by
  match h with
  | .endif => exact uncommented_tag (by simp)
  | .else_ hb => exact all_append (uncommented_tag (by simp)) (all_append (uncommented_stmts hb) (uncommented_tag (by simp)))
  | .elseIf hc hb ht =>
    exact all_append (uncommented_tag (all_cons (by simp [Uncommented]) (uncommented_cond hc))) (all_append (uncommented_stmts hb) (uncommented_else ht))
end

end
end Plain

namespace Trims
variable {syn : Syn} {env : Env} {src : Str}

theorem full_cons {i : Nat} {tk : Token} {sp : Span} (h : tk ≠ .beginComment) (h' : tk ≠ .raw) (ts : List Tok) :
    fullWords src i ((tk, sp) :: ts) = saying src (tk, sp) ++ fullWords src sp.n ts := by
  cases tk <;> first | exact absurd rfl h | exact absurd rfl h' | rfl

theorem full_raw (i : Nat) (sp : Span) (ts : List Tok) :
    fullWords src i ((.raw, sp) :: ts) = (textAt src ⟨i, startOf src ts⟩).map .char ++ fullWords src (startOf src ts) ts := by
  cases ts <;> rfl

theorem full_empty (i : Nat) (s s' : Span) (ts : List Tok) :
    fullWords src i ((.beginComment, s) :: (.endComment, s') :: ts) = .sign .beginComment :: .sign .endComment :: fullWords src s'.n ts := rfl

/-- Trimming changes no sign. -/
theorem signs (t : Token) (i : Nat) (ts : List Tok) : Item.sign t ∈ fullWords src i ts ↔ Item.sign t ∈ words src ts := by
  fun_induction fullWords src i ts with
  | case1 _ _ _ sp ts ih => rw [ih]; rfl
  | case2 i sp ts ih =>
    rw [Diag.words_cons (by simp), List.mem_append, List.mem_append, ih]
    simp [saying]
  | case3 i tk sp ts h1 h2 ih =>
    rw [words, List.mem_append, List.mem_append, ih]
    intro a b c d e hts
    cases e
    exact h1 _ _ _ hts rfl
  | case4 => rfl

theorem blanks_trans {a b c : Str} (h : SameButBlanks a b) (h' : SameButBlanks b c) : SameButBlanks a c := Eq.trans h h'
theorem blanks_symm {a b : Str} (h : SameButBlanks a b) : SameButBlanks b a := Eq.symm h
theorem blanks_likeness : Likeness SameButBlanks := ⟨fun _ => rfl, fun h1 h2 => by
  unfold SameButBlanks at *; rw [List.filter_append, List.filter_append, h1, h2]⟩

theorem blanks_trim {l r : Bool} {t a u b : Str} (h : Trimmed l r t a u b) : SameButBlanks t u := by
  unfold SameButBlanks
  have h1 : a.filter (fun c => !isWhite c) = [] := List.filter_eq_nil_iff.mpr fun c hc => by simp [h.whiteA c hc]
  have h2 : b.filter (fun c => !isWhite c) = [] := List.filter_eq_nil_iff.mpr fun c hc => by simp [h.whiteB c hc]
  rw [h.split, List.filter_append, List.filter_append, h1, h2]
  simp

/-- What the two ways of reading have in common, in each mode. -/
def Common (src : Str) : Mode → Nat → List Tok → Prop
  | .text _, i, ts => Rephrased SameButBlanks (fullWords src i ts) (words src ts)
  | .tag c _, _, ts => ∃ is f w, (∀ x ∈ is, Inside x) ∧ (∀ i, fullWords src i ts = is ++ .sign c :: f) ∧ words src ts = is ++ .sign c :: w ∧
      Rephrased SameButBlanks f w
  | .comment, _, ts => ∀ i sp, Rephrased SameButBlanks (fullWords src i ((.beginComment, sp) :: ts)) (words src ((.beginComment, sp) :: ts))

/-- What the tokens say in the mode, if there is no empty comment. -/
def Free (src : Str) (m : Mode) (ts : List Tok) : Prop := Item.sign .beginComment ∉ Seam.said src m ts

theorem tok_inside {path : Bool} {i : Nat} {tk : Token} {t : Str} (h : TokAt env src path i tk t) :
    tk ≠ .beginComment ∧ tk ≠ .raw ∧ ∀ x ∈ saying src (tk, ⟨i, i + blen t⟩), Inside x := by
  obtain ⟨_, _, h, _⟩ := h
  cases tk <;> first | exact h.elim | simp [saying, Inside]

theorem open_common {k : Kind} (hk : isEnd k = false) {n i : Nat} {sp : Span} {ts : List Tok} (h : Common src (inside k) n ts) :
    Rephrased SameButBlanks (fullWords src i ((tokenOf k, sp) :: ts)) (words src ((tokenOf k, sp) :: ts)) := by
  have ht : ∀ {o c : Token}, o ≠ .beginComment → o ≠ .raw → (∀ r : List Item, saying src (o, sp) = [.sign o]) →
      (∀ is : List Item, (∀ i ∈ is, Inside i) → IsTag (.sign o :: (is ++ [.sign c]))) → Common src (.tag c false) n ts →
      Rephrased SameButBlanks (fullWords src i ((o, sp) :: ts)) (words src ((o, sp) :: ts)) := by
    intro o c h1 h2 h3 h4 h5
    obtain ⟨is, f, w, k1, k2, k3, k4⟩ := h5
    rw [full_cons h1 h2, Diag.words_cons h1, h3 [], k2, k3]
    have := Rephrased.tag (R := SameButBlanks) (s := []) (s' := []) rfl (h4 is k1) k4
    simpa using this
  cases k <;> first
    | exact absurd hk (by decide)
    | exact h _ _
    | exact ht (c := .endExpr) (by decide) (by decide) (fun _ => rfl) (fun _ hi => .expr hi) h
    | exact ht (c := .endBlock) (by decide) (by decide) (fun _ => rfl) (fun _ hi => .block hi) h

theorem free_open {k : Kind} (hk : isEnd k = false) {sp : Span} {ts : List Tok} (h : Item.sign .beginComment ∉ words src ((tokenOf k, sp) :: ts)) :
    Free src (inside k) ts := by
  rw [Seam.words_open hk] at h
  exact fun hm => h (List.mem_append_right _ hm)

theorem common {m : Mode} {i : Nat} {ts : List Tok} (h : Layout syn env src m i ts) (hf : Seam.Fine m) (hc : Free src m ts) : Common src m i ts := by
  have raw : ∀ {i j : Nat} {l r : Bool} {t a u b : Str}, slice src i j = some t → Trimmed l r t a u b → ∀ {ts : List Tok}, startOf src ts = j →
      Rephrased SameButBlanks (fullWords src j ts) (words src ts) →
      Rephrased SameButBlanks (fullWords src i ((.raw, ⟨i + blen a, i + blen a + blen u⟩) :: ts)) (words src ((.raw, ⟨i + blen a, i + blen a + blen u⟩) :: ts)) := by
    intro i j l r t a u b h ht ts e hr
    rw [full_raw, Diag.words_cons (by simp), e, Seam.textAt_slice h, saying, Seam.textAt_slice (Seam.trimmed_slice h ht)]
    exact Plain.Rephrased.pre blanks_likeness (blanks_trim ht) hr
  have rest : ∀ {tk : Token} {sp : Span} {ts : List Tok}, tk ≠ .beginComment → Item.sign .beginComment ∉ words src ((tk, sp) :: ts) →
      Item.sign .beginComment ∉ words src ts := by
    intro tk sp ts h1 h2
    rw [Diag.words_cons h1] at h2
    exact fun hm => h2 (List.mem_append_right _ hm)
  induction h with
  | done => exact .text (s := []) (s' := []) rfl
  | textEnd free text ne trim => exact raw text trim rfl (.text (s := []) (s' := []) rfl)
  | textTag next opening text ne trim tail ih =>
    have h1 := rest (by simp) hc
    exact raw text trim rfl (open_common opening (ih (Seam.fine_inside _) (free_open opening h1)))
  | tag next opening tail ih => exact open_common opening (ih (Seam.fine_inside _) (free_open opening hc))
  | blank free text tail ih => exact ih hf hc
  | @token c p i tk t rest' free text real tail ih =>
    obtain ⟨h1, h2, h3⟩ := tok_inside text
    obtain ⟨is, f, w, k1, k2, k3, k4⟩ := ih hf (rest h1 hc)
    refine ⟨saying src (tk, ⟨i, i + blen t⟩) ++ is, f, w, Plain.all_append h3 k1, fun j => ?_, ?_, k4⟩
    · rw [full_cons h1 h2, k2, List.append_assoc]
    · rw [Diag.words_cons h1, k3, List.append_assoc]
  | @close c p i k n rest' next same tail ih =>
    have h1 : c ≠ .beginComment := by rintro rfl; exact absurd hf (by simp [Seam.Fine, isEndTag])
    have h2 : c ≠ .raw := by rintro rfl; exact absurd hf (by simp [Seam.Fine, isEndTag])
    have hs : saying src (c, ⟨i, n⟩) = [.sign c] := by
      cases c <;> first | rfl | exact absurd hf (by simp [Seam.Fine, isEndTag])
    have := ih trivial (rest h1 hc)
    exact ⟨[], fullWords src n rest', words src rest', by simp, fun j => by rw [full_cons h1 h2, hs]; rfl, by rw [Diag.words_cons h1, hs]; rfl, this⟩
  | comment next closing ne tail ih => exact fun _ _ => ih trivial hc
  | @emptyComment i k n rest' next closing tail ih =>
    refine absurd ?_ hc
    show _ ∈ words src _
    rw [Seam.words_empty]
    exact List.mem_cons_self

/-- **Trimming takes only white space away.** -/
theorem trimmed_words {ts : List Tok} (h : Layout syn env src (.text false) 0 ts) (hc : Item.sign .beginComment ∉ words src ts) :
    Rephrased SameButBlanks (fullWords src 0 ts) (words src ts) := common h trivial hc

theorem uncommented {ts : List Tok} {ast : List Upon.Stmt} (h : GStmts env src ts ast) : Item.sign .beginComment ∉ words src ts :=
  fun hm => Plain.uncommented_stmts (Plain.stmts_words h) _ hm rfl

end Trims
end Upon
