import Verif.Proofs.Words
/-
Whether a template is accepted depends only on its words (for C44): a tree of the words gives a tree of any tokens that say them.
-/
namespace Upon
open Spec
namespace Plain
variable {env : Env} {src : Str}

/-- A token inside a tag. -/
def Inner1 (src : Str) (t : Tok) : Prop :=
  isBeginTag t.1 = false ∧ isEndTag t.1 = false ∧ t.1 ≠ .raw ∧ ∃ s, t.2.of src = some s

/-- Tokens inside a tag. -/
def Inner (src : Str) (us : List Tok) : Prop := ∀ t ∈ us, Inner1 src t

theorem Inner.plain {us : List Tok} (h : Inner src us) : Upon.Plain us := fun t ht => ⟨(h t ht).1, (h t ht).2.1⟩

theorem Inner.cons {t : Tok} {us : List Tok} (h : Inner src (t :: us)) : Inner1 src t ∧ Inner src us :=
  ⟨h t (by simp), fun x hx => h x (by simp [hx])⟩

theorem Inner.append {a b : List Tok} (h : Inner src (a ++ b)) : Inner src a ∧ Inner src b :=
  ⟨fun x hx => h x (by simp [hx]), fun x hx => h x (by simp [hx])⟩

theorem say_one {t : Tok} (h : Inner1 src t) : ∃ i, saying src t = [i] := by
  obtain ⟨tk, sp⟩ := t
  cases tk <;> first | exact ⟨_, rfl⟩ | exact absurd rfl h.2.2.1

theorem say_word {t : Tok} (h : Inner1 src t) {k : Token} {s : Str} (e : saying src t = [.word k s]) : ∃ sp, t = (k, sp) ∧ sp.of src = some s := by
  obtain ⟨tk, sp⟩ := t
  obtain ⟨_, _, h3, x, hx⟩ := h
  have hx : sp.of src = some x := hx
  cases tk <;> simp only [saying, List.cons.injEq, Item.word.injEq, and_true, reduceCtorEq, textAt_of hx] at e <;>
    first
    | exact absurd rfl h3
    | exact ⟨sp, by rw [e.1], by rw [hx, e.2]⟩

theorem say_sign {t : Tok} (h : Inner1 src t) {k : Token} (e : saying src t = [.sign k]) : ∃ sp, t = (k, sp) := by
  obtain ⟨tk, sp⟩ := t
  cases tk <;> simp only [saying, List.cons.injEq, Item.sign.injEq, and_true, reduceCtorEq] at e <;>
    first
    | exact absurd rfl h.2.2.1
    | exact ⟨sp, by rw [e]⟩

/-- The first word. -/
theorem spoken_head {us : List Tok} (h : Inner src us) {i : Item} {is : List Item} (e : spoken src us = i :: is) :
    ∃ t us', us = t :: us' ∧ Inner1 src t ∧ Inner src us' ∧ saying src t = [i] ∧ spoken src us' = is := by
  cases us with
  | nil => cases e
  | cons t us =>
    obtain ⟨h1, h2⟩ := h.cons
    obtain ⟨j, hj⟩ := say_one h1
    rw [spoken_cons, hj] at e
    cases e
    exact ⟨t, us, rfl, h1, h2, hj, rfl⟩

theorem head_word {us : List Tok} (h : Inner src us) {k : Token} {s : Str} {is : List Item} (e : spoken src us = .word k s :: is) :
    ∃ sp us', us = (k, sp) :: us' ∧ Inner src us' ∧ sp.of src = some s ∧ spoken src us' = is := by
  obtain ⟨t, us', rfl, h1, h2, h3, h4⟩ := spoken_head h e
  obtain ⟨sp, rfl, hs⟩ := say_word h1 h3
  exact ⟨sp, us', rfl, h2, hs, h4⟩

theorem head_sign {us : List Tok} (h : Inner src us) {k : Token} {is : List Item} (e : spoken src us = .sign k :: is) :
    ∃ sp us', us = (k, sp) :: us' ∧ Inner src us' ∧ spoken src us' = is := by
  obtain ⟨t, us', rfl, h1, h2, h3, h4⟩ := spoken_head h e
  obtain ⟨sp, rfl⟩ := say_sign h1 h3
  exact ⟨sp, us', rfl, h2, h4⟩

theorem spoken_split {us : List Tok} (h : Inner src us) {a b : List Item} (e : spoken src us = a ++ b) :
    ∃ us1 us2, us = us1 ++ us2 ∧ Inner src us1 ∧ Inner src us2 ∧ spoken src us1 = a ∧ spoken src us2 = b := by
  induction a generalizing us with
  | nil => exact ⟨[], us, rfl, fun _ h => by simp at h, h, rfl, e⟩
  | cons i a ih =>
    obtain ⟨t, us', rfl, h1, h2, h3, h4⟩ := spoken_head h e
    obtain ⟨us1, us2, rfl, i1, i2, e1, e2⟩ := ih h2 h4
    refine ⟨t :: us1, us2, rfl, ?_, i2, by rw [spoken_cons, h3, e1]; rfl, e2⟩
    intro x hx
    rcases List.mem_cons.mp hx with rfl | hx
    · exact h1
    · exact i1 x hx

theorem spoken_none {us : List Tok} (h : Inner src us) (e : spoken src us = []) : us = [] := by
  cases us with
  | nil => rfl
  | cons t us =>
    obtain ⟨i, hi⟩ := say_one h.cons.1
    rw [spoken_cons, hi] at e
    cases e

/-! Expressions -/

theorem path_tokens {is : List Item} {ms : List ValueMember} (h : WPath env is ms) : ∀ {us : List Tok}, Inner src us →
    spoken src us = is → ∃ ms', GPath env src us ms' := by
  induction h with
  | nil => intro us hi e; rw [spoken_none hi e]; exact ⟨_, .nil⟩
  | key ho _ ih =>
    intro us hi e
    obtain ⟨sp, us, rfl, hi, e⟩ := head_sign hi e
    obtain ⟨sp', us, rfl, hi, hs, e⟩ := head_word hi e
    obtain ⟨ms', h⟩ := ih hi e
    exact ⟨_, .key ho h⟩
  | index ho hd _ ih =>
    intro us hi e
    obtain ⟨sp, us, rfl, hi, e⟩ := head_sign hi e
    obtain ⟨sp', us, rfl, hi, hs, e⟩ := head_word hi e
    obtain ⟨ms', h⟩ := ih hi e
    exact ⟨_, .index ho hs hd h⟩

theorem base_tokens {is : List Item} {b : Base} (h : WBase env is b) {us : List Tok} (hi : Inner src us)
    (e : spoken src us = is) : ∃ b', GBase env src us b' := by
  cases h with
  | true_ =>
    obtain ⟨sp, us, rfl, hi, hs, e⟩ := head_word hi e
    rw [spoken_none hi e]
    exact ⟨_, .true_ ⟨rfl, hs⟩⟩
  | false_ =>
    obtain ⟨sp, us, rfl, hi, hs, e⟩ := head_word hi e
    rw [spoken_none hi e]
    exact ⟨_, .false_ ⟨rfl, hs⟩⟩
  | number h =>
    obtain ⟨sp, us, rfl, hi, hs, e⟩ := head_word hi e
    rw [spoken_none hi e]
    exact ⟨_, .number hs h⟩
  | plus h =>
    obtain ⟨sp', us, rfl, hi, e⟩ := head_sign hi e
    obtain ⟨sp, us, rfl, hi, hs, e⟩ := head_word hi e
    rw [spoken_none hi e]
    exact ⟨_, .plus hs h⟩
  | minus h =>
    obtain ⟨sp', us, rfl, hi, e⟩ := head_sign hi e
    obtain ⟨sp, us, rfl, hi, hs, e⟩ := head_word hi e
    rw [spoken_none hi e]
    exact ⟨_, .minus hs h⟩
  | string h =>
    obtain ⟨sp, us, rfl, hi, hs, e⟩ := head_word hi e
    rw [spoken_none hi e]
    exact ⟨_, .string hs h⟩
  | var h =>
    obtain ⟨sp, us, rfl, hi, hs, e⟩ := head_word hi e
    obtain ⟨ms', h⟩ := path_tokens h hi e
    exact ⟨_, .var h⟩

theorem args_tokens {is : List Item} {bs : List Base} (h : WArgs env is bs) : ∀ {us : List Tok}, Inner src us →
    spoken src us = is → ∃ es l, GArgs env src us (es ++ [l]) := by
  induction h with
  | one h =>
    intro us hi e
    obtain ⟨b', h⟩ := base_tokens h hi e
    exact ⟨[], b', .one h⟩
  | more h _ ih =>
    intro us hi e
    obtain ⟨us1, us2, rfl, i1, i2, e1, e2⟩ := spoken_split hi e
    obtain ⟨sp, us, rfl, hi, e⟩ := head_sign i2 e2
    obtain ⟨b', h⟩ := base_tokens h i1 e1
    obtain ⟨es, l, hg⟩ := ih hi e
    exact ⟨b' :: es, l, .more h hg⟩

theorem calls_tokens {x x' : Expr} {is : List Item} (h : WCalls env x is x') : ∀ {us : List Tok}, Inner src us →
    spoken src us = is → ∀ y, ∃ y', GCalls env src y us y' := by
  induction h with
  | nil => intro us hi e y; rw [spoken_none hi e]; exact ⟨y, .nil⟩
  | call _ ih =>
    intro us hi e y
    obtain ⟨sp', us, rfl, hi, e⟩ := head_sign hi e
    obtain ⟨sp, us, rfl, hi, hs, e⟩ := head_word hi e
    obtain ⟨y', h⟩ := ih hi e _
    exact ⟨y', .call h⟩
  | callArgs ha _ ih =>
    intro us hi e y
    obtain ⟨sp', us, rfl, hi, e⟩ := head_sign hi e
    obtain ⟨sp, us, rfl, hi, hs, e⟩ := head_word hi e
    obtain ⟨sp'', us, rfl, hi, e⟩ := head_sign hi e
    obtain ⟨us1, us2, rfl, i1, i2, e1, e2⟩ := spoken_split hi e
    obtain ⟨es, l, ha⟩ := args_tokens ha i1 e1
    obtain ⟨y', h⟩ := ih i2 e2 _
    exact ⟨y', .callArgs ha h⟩

theorem expr_tokens {is : List Item} {x : Expr} (h : WExpr env is x) {us : List Tok} (hi : Inner src us)
    (e : spoken src us = is) : ∃ y, GExpr env src us y := by
  obtain ⟨a, b, c, rfl, h1, h2⟩ := h
  obtain ⟨us1, us2, rfl, i1, i2, e1, e2⟩ := spoken_split hi e
  obtain ⟨b', h1⟩ := base_tokens h1 i1 e1
  obtain ⟨y, h2⟩ := calls_tokens h2 i2 e2 (.base b')
  exact ⟨y, us1, b', us2, rfl, h1, h2⟩

theorem cond_tokens {is : List Item} {n : Bool} {x : Expr} (h : WCond env is n x) {us : List Tok} (hi : Inner src us)
    (e : spoken src us = is) : ∃ n y, GCond env src us n y := by
  cases h with
  | plain h => obtain ⟨y, h⟩ := expr_tokens h hi e; exact ⟨_, y, .plain h⟩
  | not h =>
    obtain ⟨sp, us, rfl, hi, hs, e⟩ := head_word hi e
    obtain ⟨y, h⟩ := expr_tokens h hi e
    exact ⟨_, y, .not ⟨rfl, hs⟩ h⟩

theorem vars_tokens {is : List Item} {v : Vars} (h : WVars is v) {us : List Tok} (hi : Inner src us)
    (e : spoken src us = is) : ∃ v, GVars us v := by
  cases h with
  | item =>
    obtain ⟨sp, us, rfl, hi, hs, e⟩ := head_word hi e
    rw [spoken_none hi e]
    exact ⟨_, .item⟩
  | keyValue =>
    obtain ⟨sp, us, rfl, hi, hs, e⟩ := head_word hi e
    obtain ⟨sp', us, rfl, hi, e⟩ := head_sign hi e
    obtain ⟨sp'', us, rfl, hi, hs', e⟩ := head_word hi e
    rw [spoken_none hi e]
    exact ⟨_, .keyValue⟩

/-! No delimiters inside tags -/

/-- Words without delimiters. -/
def Quiet (is : List Item) : Prop := ∀ k, (isBeginTag k || isEndTag k) = true → .sign k ∉ is

theorem Quiet.append {a b : List Item} (ha : Quiet a) (hb : Quiet b) : Quiet (a ++ b) := by
  intro k hk h
  rcases List.mem_append.mp h with h | h
  · exact ha k hk h
  · exact hb k hk h

theorem Quiet.nil : Quiet [] := fun _ _ h => by simp at h

theorem Quiet.word {k : Token} {s : Str} {is : List Item} (h : Quiet is) : Quiet (.word k s :: is) := by
  intro j hj hm
  rcases List.mem_cons.mp hm with hm | hm
  · cases hm
  · exact h j hj hm

theorem Quiet.sign {k : Token} {is : List Item} (hk : (isBeginTag k || isEndTag k) = false) (h : Quiet is) : Quiet (.sign k :: is) := by
  intro j hj hm
  rcases List.mem_cons.mp hm with hm | hm
  · cases hm; rw [hk] at hj; cases hj
  · exact h j hj hm

theorem Inner.quiet {us : List Tok} (h : Inner src us) : Quiet (spoken src us) := by
  induction us with
  | nil => exact .nil
  | cons t us ih =>
    obtain ⟨h1, h2⟩ := h.cons
    rw [spoken_cons]
    refine .append ?_ (ih h2)
    obtain ⟨tk, sp⟩ := t
    intro k hk hm
    obtain ⟨i, hi⟩ := say_one h1
    rw [hi] at hm
    have hm := List.mem_singleton.mp hm
    subst hm
    obtain ⟨sp', e⟩ := say_sign h1 hi
    cases e
    rw [h1.1, h1.2.1] at hk
    cases hk

theorem path_quiet {is : List Item} {ms : List ValueMember} (h : WPath env is ms) : Quiet is := by
  induction h with
  | nil => exact .nil
  | key ho _ ih => rcases ho with ⟨_, rfl⟩ | ⟨_, rfl⟩ <;> exact .sign rfl ih.word
  | index ho _ _ ih => rcases ho with ⟨_, rfl⟩ | ⟨_, rfl⟩ <;> exact .sign rfl ih.word

theorem base_quiet {is : List Item} {b : Base} (h : WBase env is b) : Quiet is := by
  cases h with
  | true_ => exact .word .nil
  | false_ => exact .word .nil
  | number => exact .word .nil
  | plus => exact .sign rfl (.word .nil)
  | minus => exact .sign rfl (.word .nil)
  | string => exact .word .nil
  | var h => exact .word (path_quiet h)

theorem args_quiet {is : List Item} {bs : List Base} (h : WArgs env is bs) : Quiet is := by
  induction h with
  | one h => exact base_quiet h
  | more h _ ih => exact (base_quiet h).append (.sign rfl ih)

theorem calls_quiet {x x' : Expr} {is : List Item} (h : WCalls env x is x') : Quiet is := by
  induction h with
  | nil => exact .nil
  | call _ ih => exact .sign rfl ih.word
  | callArgs ha _ ih => exact .sign rfl (.word (.sign rfl ((args_quiet ha).append ih)))

theorem expr_quiet {is : List Item} {x : Expr} (h : WExpr env is x) : Quiet is := by
  obtain ⟨a, b, c, rfl, h1, h2⟩ := h
  exact (base_quiet h1).append (calls_quiet h2)

theorem cond_quiet {is : List Item} {n : Bool} {x : Expr} (h : WCond env is n x) : Quiet is := by
  cases h with
  | plain h => exact expr_quiet h
  | not h => exact (expr_quiet h).word

theorem vars_quiet {is : List Item} {v : Vars} (h : WVars is v) : Quiet is := by
  cases h with
  | item => exact .word .nil
  | keyValue => exact .word (.sign rfl (.word .nil))

theorem split_at {α : Type} {x : α} {a b c d : List α} (h : a ++ x :: b = c ++ x :: d) (ha : x ∉ a) (hc : x ∉ c) : a = c ∧ b = d := by
  induction a generalizing c with
  | nil =>
    cases c with
    | nil => simpa using h
    | cons y c => simp at h; simp [h.1] at hc
  | cons y a ih =>
    cases c with
    | nil => simp at h; simp [h.1] at ha
    | cons z c =>
      simp only [List.cons_append, List.cons.injEq] at h
      simp only [List.mem_cons, not_or] at ha hc
      obtain ⟨e1, e2⟩ := ih h.2 ha.2 hc.2
      exact ⟨by rw [h.1, e1], e2⟩

/-! Templates -/

/-- Tokens between delimiters that match. -/
inductive Shaped (src : Str) : List Tok → Prop
  | nil : Shaped src []
  | raw {sp ts} : Shaped src ts → Shaped src ((.raw, sp) :: ts)
  | comment {b r e ts} : Shaped src ts → Shaped src ((.beginComment, b) :: (.raw, r) :: (.endComment, e) :: ts)
  | empty {b e ts} : Shaped src ts → Shaped src ((.beginComment, b) :: (.endComment, e) :: ts)
  | expr {b e us ts} : Inner src us → Shaped src ts → Shaped src ((.beginExpr, b) :: (us ++ (.endExpr, e) :: ts))
  | block {b e us ts} : Inner src us → Shaped src ts → Shaped src ((.beginBlock, b) :: (us ++ (.endBlock, e) :: ts))

theorem words_block {us : List Tok} (h : Upon.Plain us) (b e : Span) (ts : List Tok) :
    words src ((.beginBlock, b) :: (us ++ (.endBlock, e) :: ts)) = .sign .beginBlock :: (spoken src us ++ .sign .endBlock :: words src ts) := by
  rw [words_eq, strip_cons (by simp), strip_plain h, strip_cons (by simp), words_eq]
  simp [saying]

/-- Text in front. -/
theorem peel_chars {cs : Str} {ws : List Item} {ss : List Stmt} (h : WStmts env ws ss) {rest q : List Item}
    (hr : rest = [] ∨ ∃ r, rest = .sign .beginBlock :: r) (e : ws ++ rest = cs.map .char ++ q) :
    ∃ ws' ss', WStmts env ws' ss' ∧ ws' ++ rest = q := by
  induction cs generalizing ws ss with
  | nil => exact ⟨ws, ss, h, e⟩
  | cons c cs ih =>
    simp only [List.map_cons, List.cons_append] at e
    match h with
    | .nil => rcases hr with rfl | ⟨r, rfl⟩ <;> cases e
    | .char h => simp only [List.cons_append, List.cons.injEq] at e; exact ih h e.2
    | .expr _ _ => cases e
    | .include_ _ _ => cases e
    | .includeWith _ _ _ => cases e
    | .for_ _ _ _ _ => cases e
    | .with_ _ _ _ => cases e
    | .if_ _ _ _ _ => cases e

/-- A block tag in front. -/
theorem take_tag {b e : Span} {us ts : List Tok} (hi : Inner src us) {w : String} {is r : List Item} (hq : Quiet is)
    (h : words src ((.beginBlock, b) :: (us ++ (.endBlock, e) :: ts)) = tag w is ++ r) :
    ∃ vs, GTag src w vs ((.beginBlock, b) :: (us ++ [(.endBlock, e)])) ∧ Inner src vs ∧ spoken src vs = is ∧ words src ts = r := by
  rw [words_block hi.plain, tag_append] at h
  simp only [List.cons.injEq, true_and] at h
  obtain ⟨e1, e2⟩ := split_at (c := .word .keyword w.toList :: is) h (hi.quiet _ rfl) (hq.word _ rfl)
  obtain ⟨sp, vs, rfl, hv, hs, e3⟩ := head_word hi e1
  refine ⟨vs, ?_, hv, e3, e2⟩
  exact .mk ⟨rfl, hs⟩

/-- What the tokens must look like after the statements: the end, or a block tag. -/
def Stop : List Tok → Prop
  | [] => True
  | (.beginBlock, _) :: _ => True
  | _ => False

theorem shaped_stop {ts : List Tok} (h : Shaped src ts) (hs : Stop ts) {w : String} {is r : List Item} (hq : Quiet is)
    (e : words src ts = tag w is ++ r) :
    ∃ vs tg ts', ts = tg ++ ts' ∧ tg.length ≠ 0 ∧ GTag src w vs tg ∧ Inner src vs ∧ spoken src vs = is ∧ words src ts' = r ∧ Shaped src ts' := by
  cases h with
  | nil => simp [words, tag] at e
  | raw => exact hs.elim
  | comment => exact hs.elim
  | empty => exact hs.elim
  | expr => exact hs.elim
  | block hi h =>
    obtain ⟨vs, h1, h2, h3, h4⟩ := take_tag hi hq e
    exact ⟨vs, _, _, by simp, by simp, h1, h2, h3, h4, h⟩

mutual
theorem stmts_tokens (n : Nat) {ts : List Tok} (hn : ts.length ≤ n) (hs : Shaped src ts) {ws rest : List Item} {ss : List Stmt}
    (h : WStmts env ws ss) (hr : rest = [] ∨ ∃ r, rest = .sign .beginBlock :: r) (e : words src ts = ws ++ rest) :
    ∃ ts1 ts2 ss', ts = ts1 ++ ts2 ∧ GStmts env src ts1 ss' ∧ words src ts2 = rest ∧ Shaped src ts2 ∧ Stop ts2 := by
  match n, hs with
  | n, .nil =>
    have e : [] = ws ++ rest := e
    have := List.append_eq_nil_iff.mp e.symm
    exact ⟨[], [], [], rfl, .nil, by rw [this.2]; rfl, .nil, trivial⟩
  | n + 1, .raw hs =>
    rw [words_raw] at e
    obtain ⟨ws', ss', h', e'⟩ := peel_chars h hr e.symm
    obtain ⟨ts1, ts2, ss', rfl, g, h1, h2, h3⟩ := stmts_tokens n (by simp at hn; omega) hs h' hr e'.symm
    exact ⟨_ :: ts1, ts2, _, rfl, .raw g, h1, h2, h3⟩
  | n + 1, .comment hs =>
    rw [words] at e
    obtain ⟨ts1, ts2, ss', rfl, g, h1, h2, h3⟩ := stmts_tokens n (by simp at hn; omega) hs h hr e
    exact ⟨_ :: _ :: _ :: ts1, ts2, _, rfl, .comment g, h1, h2, h3⟩
  | n + 1, .empty (b := b) (e := e') (ts := ts) hs =>
    rw [words_eq, show stripComments ((.beginComment, b) :: (.endComment, e') :: ts) = (.beginComment, b) :: stripComments ((.endComment, e') :: ts) by
      rw [stripComments]; simp] at e
    simp only [spoken_cons, saying, List.cons_append, List.nil_append] at e
    cases h with
    | nil => rcases hr with rfl | ⟨r, rfl⟩ <;> cases e
    | char => cases e
    | expr => cases e
    | include_ => cases e
    | includeWith => cases e
    | for_ => cases e
    | with_ => cases e
    | if_ => cases e
  | n + 1, .expr (b := b) (e := e') (us := us) hi hs =>
    rw [words_expr hi.plain] at e
    match h with
    | .nil => rcases hr with rfl | ⟨r, rfl⟩ <;> cases e
    | .char _ => cases e
    | .include_ _ _ => cases e
    | .includeWith _ _ _ => cases e
    | .for_ _ _ _ _ => cases e
    | .with_ _ _ _ => cases e
    | .if_ _ _ _ _ => cases e
    | .expr h1 h2 =>
      simp only [List.cons_append, List.append_assoc, List.cons.injEq, true_and] at e
      obtain ⟨e1, e2⟩ := split_at e (hi.quiet _ rfl) (expr_quiet h1 _ rfl)
      obtain ⟨y, h1⟩ := expr_tokens h1 hi e1
      obtain ⟨ts1, ts2, ss', rfl, g, k1, k2, k3⟩ := stmts_tokens n (by simp at hn; omega) hs h2 hr e2
      refine ⟨_, ts2, _, ?_, .expr (b := b) (e := e') h1 g, k1, k2, k3⟩; simp
  | n + 1, .block (us := us) hi hs =>
    match h with
    | .nil => exact ⟨[], _, [], rfl, .nil, e, .block hi hs, trivial⟩
    | .char _ => rw [words_block hi.plain] at e; cases e
    | .expr _ _ => rw [words_block hi.plain] at e; cases e
    | .include_ h1 h2 =>
      simp only [List.append_assoc] at e
      obtain ⟨vs, t, i, e1, e2⟩ := take_tag hi (.word .nil) e
      obtain ⟨sp, vs, rfl, i, hs', e1⟩ := head_word i e1
      have := spoken_none i e1
      subst this
      obtain ⟨ts1, ts2, ss', rfl, g, k1, k2, k3⟩ := stmts_tokens n (by simp at hn; omega) hs h2 hr e2
      refine ⟨_, ts2, _, ?_, .include_ t hs' h1 g, k1, k2, k3⟩; simp
    | .includeWith h1 h2 h3 =>
      simp only [List.append_assoc] at e
      obtain ⟨vs, t, i, e1, e2⟩ := take_tag hi (.word (.word (expr_quiet h2))) e
      obtain ⟨sp, vs, rfl, i, hs', e1⟩ := head_word i e1
      obtain ⟨sp', vs, rfl, i, hs'', e1⟩ := head_word i e1
      obtain ⟨y, h2⟩ := expr_tokens h2 i e1
      obtain ⟨ts1, ts2, ss', rfl, g, k1, k2, k3⟩ := stmts_tokens n (by simp at hn; omega) hs h3 hr e2
      refine ⟨_, ts2, _, ?_, .includeWith t hs' h1 ⟨rfl, hs''⟩ h2 g, k1, k2, k3⟩; simp
    | .for_ h1 h2 h3 h4 =>
      simp only [List.append_assoc] at e
      obtain ⟨vs, t, i, e1, e2⟩ := take_tag hi ((vars_quiet h1).append (.word (expr_quiet h2))) e
      obtain ⟨us1, us2, rfl, i1, i2, ex, e1'⟩ := spoken_split i e1
      obtain ⟨sp, us2, rfl, i2, hs', e1'⟩ := head_word i2 e1'
      obtain ⟨v, h1⟩ := vars_tokens h1 i1 ex
      obtain ⟨y, h2⟩ := expr_tokens h2 i2 e1'
      obtain ⟨ts1, ts2, ss1, rfl, g, k1, k2, k3⟩ := stmts_tokens n (by simp at hn; omega) hs h3 (.inr ⟨_, rfl⟩) e2
      obtain ⟨vs', tg, ts3, rfl, l0, t', i', e3, e4, s4⟩ := shaped_stop k2 k3 .nil k1
      have := spoken_none i' e3
      subst this
      obtain ⟨ts4, ts5, ss2, rfl, g2, k1, k2, k3⟩ := stmts_tokens n (by simp at hn; omega) s4 h4 hr e4
      refine ⟨_, ts5, _, ?_, .for_ t h1 ⟨rfl, hs'⟩ h2 g t' g2, k1, k2, k3⟩; simp
    | .with_ h2 h3 h4 =>
      simp only [List.append_assoc] at e
      obtain ⟨vs, t, i, e1, e2⟩ := take_tag hi ((expr_quiet h2).append (.word (.word .nil))) e
      obtain ⟨us1, us2, rfl, i1, i2, ex, e1'⟩ := spoken_split i e1
      obtain ⟨sp, us2, rfl, i2, hs', e1'⟩ := head_word i2 e1'
      obtain ⟨sp', us2, rfl, i2, hs'', e1'⟩ := head_word i2 e1'
      have := spoken_none i2 e1'
      subst this
      obtain ⟨y, h2⟩ := expr_tokens h2 i1 ex
      obtain ⟨ts1, ts2, ss1, rfl, g, k1, k2, k3⟩ := stmts_tokens n (by simp at hn; omega) hs h3 (.inr ⟨_, rfl⟩) e2
      obtain ⟨vs', tg, ts3, rfl, l0, t', i', e3, e4, s4⟩ := shaped_stop k2 k3 .nil k1
      have := spoken_none i' e3
      subst this
      obtain ⟨ts4, ts5, ss2, rfl, g2, k1, k2, k3⟩ := stmts_tokens n (by simp at hn; omega) s4 h4 hr e4
      refine ⟨_, ts5, _, ?_, .with_ t h2 ⟨rfl, hs'⟩ g t' g2, k1, k2, k3⟩; simp
    | .if_ h2 h3 hel h4 =>
      simp only [List.append_assoc] at e
      obtain ⟨vs, t, i, e1, e2⟩ := take_tag hi (cond_quiet h2) e
      obtain ⟨neg, y, h2⟩ := cond_tokens h2 i e1
      obtain ⟨ts1, ts2, ss1, rfl, g, k1, k2, k3⟩ := stmts_tokens n (by simp at hn; omega) hs h3
        (.inr (by cases hel <;> exact ⟨_, rfl⟩)) e2
      obtain ⟨ts3, ts4, els, rfl, g3, k4, k5⟩ := elses_tokens n (by simp at hn; omega) k2 k3 hel k1
      obtain ⟨ts5, ts6, ss2, rfl, g2, k1, k2, k3⟩ := stmts_tokens n (by simp at hn; omega) k5 h4 hr k4
      refine ⟨_, ts6, _, ?_, .if_ t h2 g g3 g2, k1, k2, k3⟩; simp

theorem elses_tokens (n : Nat) {ts : List Tok} (hn : ts.length ≤ n) (hs : Shaped src ts) (hp : Stop ts) {ws rest : List Item}
    {els : Option (List Stmt)} (h : WElse env ws els) (e : words src ts = ws ++ rest) :
    ∃ ts1 ts2 els', ts = ts1 ++ ts2 ∧ GElse env src ts1 els' ∧ words src ts2 = rest ∧ Shaped src ts2 := by
  match n, h with
  | n, .endif =>
    obtain ⟨vs', tg, ts3, rfl, l0, t', i', e3, e4, s4⟩ := shaped_stop hs hp .nil e
    have := spoken_none i' e3
    subst this
    exact ⟨tg, ts3, _, rfl, .endif t', e4, s4⟩
  | 0, .else_ _ =>
    have := List.length_eq_zero_iff.mp (Nat.le_zero.mp hn)
    subst this
    simp [words, tag] at e
  | 0, .elseIf _ _ _ =>
    have := List.length_eq_zero_iff.mp (Nat.le_zero.mp hn)
    subst this
    simp [words, tag] at e
  | n + 1, .else_ h1 =>
    simp only [List.append_assoc] at e
    obtain ⟨vs', tg, ts3, rfl, l0, t', i', e3, e4, s4⟩ := shaped_stop hs hp .nil e
    have := spoken_none i' e3
    subst this
    obtain ⟨ts1, ts2, ss1, rfl, g, k1, k2, k3⟩ := stmts_tokens n (by simp at hn; omega) s4 h1 (.inr ⟨_, rfl⟩) e4
    obtain ⟨vs', tg', ts3, rfl, l0, t'', i', e3, e4, s4⟩ := shaped_stop k2 k3 .nil k1
    have := spoken_none i' e3
    subst this
    refine ⟨_, ts3, _, ?_, .else_ t' g t'', e4, s4⟩; simp
  | n + 1, .elseIf h1 h2 h3 =>
    simp only [List.append_assoc] at e
    obtain ⟨vs', tg, ts3, rfl, l0, t', i', e3, e4, s4⟩ := shaped_stop hs hp (.word (cond_quiet h1)) e
    obtain ⟨sp, us2, rfl, i2, hs', e1'⟩ := head_word i' e3
    obtain ⟨neg, y, h1⟩ := cond_tokens h1 i2 e1'
    obtain ⟨ts1, ts2, ss1, rfl, g, k1, k2, k3⟩ := stmts_tokens n (by simp at hn; omega) s4 h2
      (.inr (by cases h3 <;> exact ⟨_, rfl⟩)) e4
    obtain ⟨ts5, ts6, els, rfl, g3, k4, k5⟩ := elses_tokens n (by simp at hn; omega) k2 k3 h3 k1
    refine ⟨_, ts6, _, ?_, .elseIf t' ⟨rfl, hs'⟩ h1 g g3, k4, k5⟩; simp
end

/-! Layouts have that shape -/

/-- What follows in each mode. -/
def ShapedIn (src : Str) : Mode → List Tok → Prop
  | .text _, ts => Shaped src ts
  | .tag c _, ts => ∃ us e rest, ts = us ++ (c, e) :: rest ∧ Inner src us ∧ Shaped src rest
  | .comment, ts => (∃ r e rest, ts = (.raw, r) :: (.endComment, e) :: rest ∧ Shaped src rest) ∨
      ∃ e rest, ts = (.endComment, e) :: rest ∧ Shaped src rest

theorem layout_shaped {syn : Syn} {m : Mode} {i : Nat} {ts : List Tok} (h : Layout syn env src m i ts) : ShapedIn src m ts := by
  have open_ : ∀ {k : Kind} {sp : Span} {rest : List Tok}, isEnd k = false → ShapedIn src (inside k) rest →
      Shaped src ((tokenOf k, sp) :: rest) := by
    intro k sp rest hk h
    cases k <;> first
      | (cases hk; done)
      | (obtain ⟨us, e, rest', rfl, h1, h2⟩ := h
         first | exact .expr h1 h2 | exact .block h1 h2)
      | (rcases h with ⟨r, e, rest', rfl, h⟩ | ⟨e, rest', rfl, h⟩
         · exact .comment h
         · exact .empty h)
  induction h with
  | done => exact .nil
  | textEnd => exact .raw .nil
  | textTag _ ho _ _ _ _ ih => exact .raw (open_ ho ih)
  | tag _ ho _ ih => exact open_ ho ih
  | blank _ _ _ ih => exact ih
  | @token c p i tk t rest free ht hne _ ih =>
    obtain ⟨us, e, rest', rfl, h1, h2⟩ := ih
    refine ⟨_ :: us, e, rest', rfl, ?_, h2⟩
    intro x hx
    rcases List.mem_cons.mp hx with rfl | hx
    · obtain ⟨r, hd, hx, _⟩ := ht
      obtain ⟨pre, e1, e2⟩ := dropB_eq_some.mp hd
      refine ⟨?_, ?_, ?_, t, slice_eq_some.mpr ⟨pre, r, by rw [e1], e2, rfl⟩⟩
      · cases tk <;> first | rfl | exact hx.elim
      · cases tk <;> first | rfl | exact hx.elim
      · rintro rfl; exact hx
    · exact h1 x hx
  | close _ _ _ ih => exact ⟨[], _, _, rfl, fun _ h => by simp at h, ih⟩
  | comment _ _ _ _ ih => exact .inl ⟨_, _, _, rfl, ih⟩
  | emptyComment _ _ _ ih => exact .inr ⟨_, _, rfl, ih⟩

/-- Tokens that say what a template says have a tree. -/
theorem tree_exists {syn : Syn} {i : Nat} {l : Bool} {ts : List Tok} (h : Layout syn env src (.text l) i ts) {ss : List Stmt}
    (hw : WStmts env (words src ts) ss) : ∃ ss', GStmts env src ts ss' := by
  obtain ⟨ts1, ts2, ss', rfl, g, e, hs, hp⟩ := stmts_tokens ts.length (Nat.le_refl _) (layout_shaped h) hw (.inl rfl)
    (List.append_nil _).symm
  cases hs with
  | nil => rw [List.append_nil]; exact ⟨_, g⟩
  | raw => exact hp.elim
  | comment => exact hp.elim
  | empty => exact hp.elim
  | expr => exact hp.elim
  | block hi _ => rw [words_block hi.plain] at e; cases e

end Plain
end Upon
