import Verif.Proofs.Texts
import Verif.Proofs.Words
/-
Templates that say the same up to text have the same tree up to text (for C76).
-/
namespace Upon
open Spec

namespace Plain
section
variable {R : Str → Str → Prop} {env : Env}

/-- The items do not start with text. -/
def Bare1 (ws : List Item) : Prop := ∀ c r, ws ≠ .char c :: r

/-- The same tags, with text that is alike between and after them, but none before. -/
inductive Tags (R : Str → Str → Prop) : List Item → List Item → Prop
  | nil : Tags R [] []
  | tag {tag ws ws'} : IsTag tag → Rephrased R ws ws' → Tags R (tag ++ ws) (tag ++ ws')

theorem Tags.bare {ws ws' : List Item} (h : Tags R ws ws') : Bare1 ws := by
  cases h with
  | nil => exact nofun
  | tag h _ => cases h <;> exact fun c r e => by simp at e

theorem Rephrased.split {ws us : List Item} (h : Rephrased R ws us) : ∃ s s' vs vs', ws = s.map .char ++ vs ∧ us = s'.map .char ++ vs' ∧ R s s' ∧ Tags R vs vs' := by
  cases h with
  | @text s s' h => exact ⟨s, s', [], [], by simp, by simp, h, .nil⟩
  | tag h1 h2 h3 => exact ⟨_, _, _, _, rfl, rfl, h1, .tag h2 h3⟩

theorem text_same {s t : Str} {ws us : List Item} (hw : Bare1 ws) (hu : Bare1 us) (e : s.map Item.char ++ ws = t.map Item.char ++ us) : s = t ∧ ws = us := by
  induction s generalizing t with
  | nil =>
    cases t with
    | nil => exact ⟨rfl, e⟩
    | cons c t => exact absurd e (hw c _)
  | cons c s ih =>
    cases t with
    | nil => exact absurd e.symm (hu c _)
    | cons d t =>
      simp only [List.map_cons, List.cons_append, List.cons.injEq, Item.char.injEq] at e
      obtain ⟨h1, h2⟩ := ih e.2
      exact ⟨by rw [e.1, h1], h2⟩

/-- What text comes before the rest. -/
theorem gap {p : Str} {ws us : List Item} (hw : Bare1 ws) (h : Rephrased R (p.map .char ++ ws) us) : ∃ p' us', us = p'.map .char ++ us' ∧ R p p' ∧ Tags R ws us' := by
  obtain ⟨s, s', vs, vs', e, rfl, h1, h2⟩ := Rephrased.split h
  obtain ⟨rfl, rfl⟩ := text_same hw h2.bare e
  exact ⟨_, _, rfl, h1, h2⟩

theorem cut {is js : List Item} (hi : ∀ i ∈ is, Inside i) (hj : ∀ i ∈ js, Inside i) {x y : Item} (hx : ¬ Inside x) (hy : ¬ Inside y) {r r' : List Item}
    (e : is ++ x :: r = js ++ y :: r') : is = js ∧ x = y ∧ r = r' := by
  induction is generalizing js with
  | nil =>
    cases js with
    | nil => simpa using e
    | cons j js => simp only [List.nil_append, List.cons_append, List.cons.injEq] at e; exact absurd (e.1 ▸ hj j (by simp)) hx
  | cons i is ih =>
    cases js with
    | nil => simp only [List.nil_append, List.cons_append, List.cons.injEq] at e; exact absurd (e.1 ▸ hi i (by simp)) hy
    | cons j js =>
      simp only [List.cons_append, List.cons.injEq] at e
      obtain ⟨h1, h2, h3⟩ := ih (fun i h => hi i (by simp [h])) (fun i h => hj i (by simp [h])) e.2
      exact ⟨by rw [e.1, h1], h2, h3⟩

theorem tags_expr {is r us : List Item} (hi : ∀ i ∈ is, Inside i) (h : Tags R (.sign .beginExpr :: (is ++ .sign .endExpr :: r)) us) :
    ∃ r', us = .sign .beginExpr :: (is ++ .sign .endExpr :: r') ∧ Rephrased R r r' := by
  generalize hw : Item.sign .beginExpr :: (is ++ .sign .endExpr :: r) = ws at h
  cases h with
  | nil => cases hw
  | tag h1 h2 =>
    cases h1 with
    | expr hj =>
      simp only [List.cons_append, List.append_assoc, List.nil_append, List.cons.injEq, true_and] at hw
      obtain ⟨rfl, _, rfl⟩ := cut hi hj (by simp [Inside]) (by simp [Inside]) hw
      exact ⟨_, by simp, h2⟩
    | block hj => simp at hw

theorem tags_block {is r us : List Item} (hi : ∀ i ∈ is, Inside i) (h : Tags R (.sign .beginBlock :: (is ++ .sign .endBlock :: r)) us) :
    ∃ r', us = .sign .beginBlock :: (is ++ .sign .endBlock :: r') ∧ Rephrased R r r' := by
  generalize hw : Item.sign .beginBlock :: (is ++ .sign .endBlock :: r) = ws at h
  cases h with
  | nil => cases hw
  | tag h1 h2 =>
    cases h1 with
    | block hj =>
      simp only [List.cons_append, List.append_assoc, List.nil_append, List.cons.injEq, true_and] at hw
      obtain ⟨rfl, _, rfl⟩ := cut hi hj (by simp [Inside]) (by simp [Inside]) hw
      exact ⟨_, by simp, h2⟩
    | expr hj => simp at hw

theorem tags_tag {w : String} {inner r us : List Item} (hi : ∀ i ∈ inner, Inside i) (h : Tags R (tag w inner ++ r) us) :
    ∃ r', us = tag w inner ++ r' ∧ Rephrased R r r' := by
  have e : ∀ r, tag w inner ++ r = .sign .beginBlock :: ((.word .keyword w.toList :: inner) ++ .sign .endBlock :: r) := fun r => by simp [tag]
  rw [e] at h
  obtain ⟨r', h1, h2⟩ := tags_block (fun i hm => by rcases List.mem_cons.mp hm with rfl | hm; · trivial
                                                    · exact hi i hm) h
  exact ⟨r', by rw [e, h1], h2⟩

theorem bare_tag {w : String} {inner r : List Item} : Bare1 (tag w inner ++ r) := fun c r e => by simp [tag] at e

/-! What is inside tags -/

theorem inside_path {ws : List Item} {ms : List ValueMember} (h : WPath env ws ms) : ∀ i ∈ ws, Inside i := by
  induction h with
  | nil => simp
  | key h _ ih => rcases h with ⟨_, rfl⟩ | ⟨_, rfl⟩ <;> simpa [Inside] using ih
  | index h _ _ ih => rcases h with ⟨_, rfl⟩ | ⟨_, rfl⟩ <;> simpa [Inside] using ih

theorem inside_base {ws : List Item} {b : Base} (h : WBase env ws b) : ∀ i ∈ ws, Inside i := by
  cases h with
  | var h => simpa [Inside] using inside_path h
  | _ => simp [Inside]

theorem inside_args {ws : List Item} {b : List Base} (h : WArgs env ws b) : ∀ i ∈ ws, Inside i := by
  induction h with
  | one h => exact inside_base h
  | more h _ ih =>
    intro i hi
    rcases List.mem_append.mp hi with hi | hi
    · exact inside_base h i hi
    · rcases List.mem_cons.mp hi with rfl | hi
      · simp [Inside]
      · exact ih i hi

theorem inside_calls {ws : List Item} {e e' : Expr} (h : WCalls env e ws e') : ∀ i ∈ ws, Inside i := by
  induction h with
  | nil => simp
  | call _ ih => simpa [Inside] using ih
  | callArgs h _ ih =>
    intro i hi
    simp only [List.mem_cons, List.mem_append] at hi
    rcases hi with rfl | rfl | rfl | hi | hi
    · simp [Inside]
    · trivial
    · simp [Inside]
    · exact inside_args h i hi
    · exact ih i hi

theorem inside_expr {ws : List Item} {e : Expr} (h : WExpr env ws e) : ∀ i ∈ ws, Inside i := by
  obtain ⟨us, b, vs, rfl, h1, h2⟩ := h
  intro i hi
  rcases List.mem_append.mp hi with hi | hi
  · exact inside_base h1 i hi
  · exact inside_calls h2 i hi

theorem inside_cond {ws : List Item} {n : Bool} {e : Expr} (h : WCond env ws n e) : ∀ i ∈ ws, Inside i := by
  cases h with
  | plain h => exact inside_expr h
  | not h => intro i hi; rcases List.mem_cons.mp hi with rfl | hi; · trivial
             · exact inside_expr h i hi

theorem inside_vars {ws : List Item} {vs : Vars} (h : WVars ws vs) : ∀ i ∈ ws, Inside i := by
  cases h <;> simp [Inside]

/-- Alternatives with text that is alike. -/
inductive RetextedElse (R : Str → Str → Prop) : Option (List Stmt) → Option (List Stmt) → Prop
  | none : RetextedElse R none none
  | some {a b} : Retexted R a b → RetextedElse R (some a) (some b)

theorem retexted_if {neg : Bool} {c : Expr} {a a' ss ss' : List Stmt} {els els' : Option (List Stmt)} (h1 : Retexted R a a') (h2 : RetextedElse R els els')
    (h3 : Retexted R ss ss') : Retexted R (.ifElse neg c a els :: ss) (.ifElse neg c a' els' :: ss') := by
  cases h2 with
  | none => exact .ifThen h1 h3
  | some h2 => exact .ifElse h1 h2 h3

mutual
theorem stmts_gap {ws : List Item} {a : List Stmt} (h : WStmts env ws a) (p : Str) {rest us : List Item} (hr : Bare1 rest)
    (hg : Rephrased R (p.map .char ++ (ws ++ rest)) us) :
    ∃ ws' b us', us = ws' ++ us' ∧ WStmts env ws' b ∧ Retexted R (p.map .char ++ a) b ∧ Tags R rest us' := by
  match h with
  | .nil =>
    obtain ⟨p', us', rfl, h1, h2⟩ := gap hr hg
    exact ⟨p'.map .char, p'.map .char, us', rfl, by simpa using wchars p' .nil, by simpa using Retexted.text h1 .nil, h2⟩
  | @WStmts.char _ c _ _ h =>
    obtain ⟨ws', b, us', e, h1, h2, h3⟩ := stmts_gap h (p ++ [c]) hr (by simpa using hg)
    exact ⟨ws', b, us', e, h1, by simpa using h2, h3⟩
  | @WStmts.expr _ is e ws ss he h =>
    obtain ⟨p', us', rfl, h1, h2⟩ := gap (by intro c r e; simp at e) hg
    rw [show Item.sign .beginExpr :: (is ++ .sign .endExpr :: ws) ++ rest = .sign .beginExpr :: (is ++ .sign .endExpr :: (ws ++ rest)) by simp] at h2
    obtain ⟨r', rfl, h4⟩ := tags_expr (inside_expr he) h2
    obtain ⟨ws', b, us', rfl, k1, k2, k3⟩ := stmts_gap h [] hr (by simpa using h4)
    exact ⟨p'.map .char ++ .sign .beginExpr :: (is ++ .sign .endExpr :: ws'), _, us', by simp, wchars p' (.expr he k1), .text h1 (.expr (by simpa using k2)), k3⟩
  | @WStmts.include_ _ raw n ws ss hs h =>
    obtain ⟨p', us', rfl, h1, h2⟩ := gap (by intro c r e; simp [tag] at e) hg
    rw [List.append_assoc] at h2
    obtain ⟨r', rfl, h4⟩ := tags_tag (by simp [Inside]) h2
    obtain ⟨ws', b, us', rfl, k1, k2, k3⟩ := stmts_gap h [] hr (by simpa using h4)
    exact ⟨p'.map .char ++ (tag "include" [.word .string raw] ++ ws'), _, us', by simp, wchars p' (.include_ hs k1), .text h1 (.include_ (by simpa using k2)), k3⟩
  | @WStmts.includeWith _ raw n is e ws ss hs he h =>
    obtain ⟨p', us', rfl, h1, h2⟩ := gap (by intro c r e; simp [tag] at e) hg
    rw [List.append_assoc] at h2
    obtain ⟨r', rfl, h4⟩ := tags_tag (by simpa [Inside] using inside_expr he) h2
    obtain ⟨ws', b, us', rfl, k1, k2, k3⟩ := stmts_gap h [] hr (by simpa using h4)
    exact ⟨p'.map .char ++ (tag "include" (.word .string raw :: .word .keyword "with".toList :: is) ++ ws'), _, us', by simp, wchars p' (.includeWith hs he k1),
      .text h1 (.include_ (by simpa using k2)), k3⟩
  | @WStmts.for_ _ vs v is e body bd ws ss hv he hb h =>
    obtain ⟨p', us', rfl, h1, h2⟩ := gap (by intro c r e; simp [tag] at e) hg
    simp only [List.append_assoc] at h2
    obtain ⟨r', rfl, h4⟩ := tags_tag (fun i hi => by
      simp only [List.mem_append, List.mem_cons] at hi
      rcases hi with hi | rfl | hi
      · exact inside_vars hv i hi
      · trivial
      · exact inside_expr he i hi) h2
    obtain ⟨ws1, b1, us1, rfl, k1, k2, k3⟩ := stmts_gap hb [] bare_tag (by simpa using h4)
    obtain ⟨r', rfl, h5⟩ := tags_tag (by simp) k3
    obtain ⟨ws', b, us', rfl, l1, l2, l3⟩ := stmts_gap h [] hr (by simpa using h5)
    exact ⟨p'.map .char ++ (tag "for" (vs ++ .word .keyword "in".toList :: is) ++ (ws1 ++ (tag "endfor" [] ++ ws'))), _, us', by simp,
      wchars p' (.for_ hv he k1 l1), .text h1 (.for_ (by simpa using k2) (by simpa using l2)), l3⟩
  | @WStmts.with_ _ is e s body bd ws ss he hb h =>
    obtain ⟨p', us', rfl, h1, h2⟩ := gap (by intro c r e; simp [tag] at e) hg
    simp only [List.append_assoc] at h2
    obtain ⟨r', rfl, h4⟩ := tags_tag (fun i hi => by
      simp only [List.mem_append, List.mem_cons, List.not_mem_nil, or_false] at hi
      rcases hi with hi | rfl | rfl
      · exact inside_expr he i hi
      · trivial
      · trivial) h2
    obtain ⟨ws1, b1, us1, rfl, k1, k2, k3⟩ := stmts_gap hb [] bare_tag (by simpa using h4)
    obtain ⟨r', rfl, h5⟩ := tags_tag (by simp) k3
    obtain ⟨ws', b, us', rfl, l1, l2, l3⟩ := stmts_gap h [] hr (by simpa using h5)
    exact ⟨p'.map .char ++ (tag "with" (is ++ [.word .keyword "as".toList, .word .ident s]) ++ (ws1 ++ (tag "endwith" [] ++ ws'))), _, us', by simp,
      wchars p' (.with_ he k1 l1), .text h1 (.with_ (by simpa using k2) (by simpa using l2)), l3⟩
  | @WStmts.if_ _ is n e body bd tail els ws ss hc hb ht h =>
    obtain ⟨p', us', rfl, h1, h2⟩ := gap (by intro c r e; simp [tag] at e) hg
    simp only [List.append_assoc] at h2
    obtain ⟨r', rfl, h4⟩ := tags_tag (inside_cond hc) h2
    obtain ⟨ws1, b1, us1, rfl, k1, k2, k3⟩ := stmts_gap hb [] (else_bare ht) (by simpa using h4)
    obtain ⟨tail', els', us2, rfl, m1, m2, m3⟩ := else_gap ht k3
    obtain ⟨ws', b, us', rfl, l1, l2, l3⟩ := stmts_gap h [] hr (by simpa using m3)
    exact ⟨p'.map .char ++ (tag "if" is ++ (ws1 ++ (tail' ++ ws'))), _, us', by simp,
      wchars p' (.if_ hc k1 m1 l1), .text h1 (retexted_if (by simpa using k2) m2 (by simpa using l2)), l3⟩
theorem else_bare {tail : List Item} {els : Option (List Stmt)} (h : WElse env tail els) {rest : List Item} : Bare1 (tail ++ rest) := by
  cases h <;> exact fun c r e => by simp [tag] at e
theorem else_gap {tail : List Item} {els : Option (List Stmt)} (h : WElse env tail els) {rest us : List Item} (hg : Tags R (tail ++ rest) us) :
    ∃ tail' els' us', us = tail' ++ us' ∧ WElse env tail' els' ∧ RetextedElse R els els' ∧ Rephrased R rest us' := by
  match h with
  | .endif =>
    obtain ⟨r', rfl, h4⟩ := tags_tag (by simp) hg
    exact ⟨_, _, r', rfl, .endif, .none, h4⟩
  | @WElse.else_ _ body bd hb =>
    simp only [List.append_assoc] at hg
    obtain ⟨r', rfl, h4⟩ := tags_tag (by simp) hg
    obtain ⟨ws1, b1, us1, rfl, k1, k2, k3⟩ := stmts_gap hb [] bare_tag (by simpa using h4)
    obtain ⟨r', rfl, h5⟩ := tags_tag (by simp) k3
    exact ⟨tag "else" [] ++ (ws1 ++ tag "endif" []), _, r', by simp, .else_ k1, .some (by simpa using k2), h5⟩
  | @WElse.elseIf _ is n e body bd tail els hc hb ht =>
    simp only [List.append_assoc] at hg
    obtain ⟨r', rfl, h4⟩ := tags_tag (by simpa [Inside] using inside_cond hc) hg
    obtain ⟨ws1, b1, us1, rfl, k1, k2, k3⟩ := stmts_gap hb [] (else_bare ht) (by simpa using h4)
    obtain ⟨tail', els', us2, rfl, m1, m2, m3⟩ := else_gap ht k3
    exact ⟨tag "else" (.word .keyword "if".toList :: is) ++ (ws1 ++ tail'), _, us2, by simp, .elseIf hc k1 m1, .some (retexted_if (by simpa using k2) m2 .nil), m3⟩
end

/-- A template that says the same up to text is a template with the same tree up to text. -/
theorem rephrased_tree {ws us : List Item} {a : List Stmt} (h : WStmts env ws a) (hg : Rephrased R ws us) : ∃ b, WStmts env us b ∧ Retexted R a b := by
  obtain ⟨ws', b, us', rfl, h1, h2, h3⟩ := stmts_gap h [] (rest := []) nofun (by simpa using hg)
  cases h' : us' with
  | nil => exact ⟨b, by simpa using h1, by simpa using h2⟩
  | cons x xs =>
    subst h'
    generalize hw : ([] : List Item) = ws at h3
    generalize hu : x :: xs = us at h3
    cases h3 with
    | nil => cases hu
    | tag h _ => cases h <;> simp at hw

end
end Plain
end Upon
