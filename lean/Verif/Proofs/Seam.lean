import Verif.Spec.Seam
import Verif.Proofs.LexTiles
import Verif.Proofs.DiagItem
/-
C69: the tokens of a text that is made of two.
-/
namespace Upon.Seam
open Spec

variable {syn : Syn} {env : Env} {x y : Str}

theorem stands_left {d : Str} {i j : Nat} (h : StandsAt x d i j) (y : Str) : StandsAt (x ++ y) d i j := by
  obtain ⟨p, q, rfl, h1, h2⟩ := h
  exact ⟨p, q ++ y, by simp, h1, h2⟩

theorem stands_right (x : Str) {d : Str} {i j : Nat} (h : StandsAt y d i j) : StandsAt (x ++ y) d (blen x + i) (blen x + j) := by
  obtain ⟨p, q, rfl, rfl, rfl⟩ := h
  exact ⟨x ++ p, q, by simp, by simp, by simp [Nat.add_assoc]⟩

theorem stands_le {d : Str} {i j : Nat} (h : StandsAt x d i j) : j = i + blen d ∧ j ≤ blen x := by
  obtain ⟨p, q, rfl, rfl, rfl⟩ := h
  simp

theorem stands_cases (hs : Seamless syn x y) {k : Kind} {d : Str} (hd : (k, d) ∈ syn) {i j : Nat} (h : StandsAt (x ++ y) d i j) :
    StandsAt x d i j ∨ ∃ i' j', i = blen x + i' ∧ j = blen x + j' ∧ StandsAt y d i' j' := by
  obtain ⟨p, q, e, rfl, rfl⟩ := h
  rw [List.append_assoc] at e
  rcases List.append_eq_append_iff.mp e with ⟨a, rfl, e2⟩ | ⟨a, rfl, e2⟩
  · exact .inr ⟨blen a, blen (a ++ d), by simp, by simp [Nat.add_assoc], a, q, by rw [e2]; simp, rfl, rfl⟩
  · rcases List.append_eq_append_iff.mp e2 with ⟨b, rfl, e3⟩ | ⟨b, rfl, e3⟩
    · exact .inl ⟨p, b, by simp, rfl, by simp⟩
    · rcases hs.across _ hd a b rfl ⟨p, rfl⟩ ⟨q, e3.symm⟩ with rfl | rfl
      · exact .inr ⟨0, blen b, by simp, by simp, [], q, by rw [e3]; simp, rfl, by simp⟩
      · exact .inl ⟨p, [], by simp, rfl, by simp⟩

theorem occurs_left {k : Kind} {i j : Nat} (h : Occurs syn x k i j) (y : Str) : Occurs syn (x ++ y) k i j := by
  obtain ⟨d, hd, h⟩ := h
  exact ⟨d, hd, stands_left h y⟩

theorem occurs_right (x : Str) {k : Kind} {i j : Nat} (h : Occurs syn y k i j) : Occurs syn (x ++ y) k (blen x + i) (blen x + j) := by
  obtain ⟨d, hd, h⟩ := h
  exact ⟨d, hd, stands_right x h⟩

theorem occurs_cases (hs : Seamless syn x y) {k : Kind} {i j : Nat} (h : Occurs syn (x ++ y) k i j) :
    Occurs syn x k i j ∨ ∃ i' j', i = blen x + i' ∧ j = blen x + j' ∧ Occurs syn y k i' j' := by
  obtain ⟨d, hd, h⟩ := h
  rcases stands_cases hs hd h with h | ⟨i', j', h1, h2, h⟩
  · exact .inl ⟨d, hd, h⟩
  · exact .inr ⟨i', j', h1, h2, d, hd, h⟩

theorem occurs_lt (hn : NonEmptyDelims syn) {k : Kind} {i j : Nat} (h : Occurs syn x k i j) : i < j ∧ j ≤ blen x := by
  obtain ⟨d, hd, h⟩ := h
  have := stands_le h
  have : blen d ≠ 0 := fun h => hn _ hd (blen_eq_zero.mp h)
  omega

theorem Chosen.occurs {src : Str} {s i j : Nat} {k : Kind} (h : Chosen syn src s k i j) : Occurs syn src k i j := by
  obtain ⟨d, b, l, e, h1, _⟩ := h.first
  exact ⟨d, by rw [e]; simp, h1⟩

theorem chosen_left (hn : NonEmptyDelims syn) (hs : Seamless syn x y) {s i j : Nat} {k : Kind} (h : Chosen syn x s k i j) :
    Chosen syn (x ++ y) s k i j := by
  have hlt := occurs_lt hn (Chosen.occurs h)
  refine ⟨h.after, fun k' i' j' hi ho => ?_, fun k' j' ho => ?_, ?_⟩
  · rcases occurs_cases hs ho with ho | ⟨i'', j'', rfl, rfl, _⟩
    · exact h.leftmost _ _ _ hi ho
    · omega
  · rcases occurs_cases hs ho with ho | ⟨i'', j'', h1, _, _⟩
    · exact h.longest _ _ ho
    · omega
  · obtain ⟨d, b, l, e, h1, h2⟩ := h.first
    exact ⟨d, b, l, e, stands_left h1 y, h2⟩

/-- The next delimiter is in `y` if there is none in the rest of `x`. -/
theorem chosen_across (hn : NonEmptyDelims syn) (hs : Seamless syn x y) {s t i j : Nat} {k : Kind} (h : Chosen syn y t k i j)
    (hx : ∀ k' i' j', s ≤ i' → ¬ Occurs syn x k' i' j') (hst : s ≤ blen x + i) (hsy : t = 0 ∨ blen x + t ≤ s) : Chosen syn (x ++ y) s k (blen x + i) (blen x + j) := by
  refine ⟨hst, fun k' i' j' hi ho => ?_, fun k' j' ho => ?_, ?_⟩
  · rcases occurs_cases hs ho with ho | ⟨i'', j'', rfl, rfl, hy⟩
    · exact absurd ho (hx _ _ _ hi)
    · have := h.leftmost _ _ _ (by omega) hy; omega
  · rcases occurs_cases hs ho with ho | ⟨i'', j'', h1, h2, hy⟩
    · exact absurd ho (hx _ _ _ hst)
    · have : i'' = i := by omega
      subst this
      have := h.longest _ _ hy
      omega
  · obtain ⟨d, b, l, e, h1, h2⟩ := h.first
    exact ⟨d, b, l, e, stands_right x h1, h2⟩

theorem chosen_right (hn : NonEmptyDelims syn) (hs : Seamless syn x y) {t i j : Nat} {k : Kind} (h : Chosen syn y t k i j) :
    Chosen syn (x ++ y) (blen x + t) k (blen x + i) (blen x + j) :=
  chosen_across hn hs h (fun k' i' j' hi ho => by have := occurs_lt hn ho; omega) (by have := h.after; omega) (.inr (by omega))

theorem free_right (hn : NonEmptyDelims syn) (hs : Seamless syn x y) {i : Nat} (h : ∀ k j, ¬ Occurs syn y k i j) (k : Kind) (j : Nat) :
    ¬ Occurs syn (x ++ y) k (blen x + i) j := by
  intro ho
  rcases occurs_cases hs ho with ho | ⟨i'', j'', h1, h2, ho⟩
  · have := occurs_lt hn ho; omega
  · have : i'' = i := by omega
    exact h _ _ (this ▸ ho)

theorem free_left (hs : Seamless syn x y) {i : Nat} (hi : i < blen x) (h : ∀ k j, ¬ Occurs syn x k i j) (k : Kind) (j : Nat) :
    ¬ Occurs syn (x ++ y) k i j := by
  intro ho
  rcases occurs_cases hs ho with ho | ⟨i'', j'', h1, h2, ho⟩
  · exact h _ _ ho
  · omega

theorem slice_left {i j : Nat} {t : Str} (h : slice x i j = some t) (y : Str) : slice (x ++ y) i j = some t := by
  obtain ⟨p, q, rfl, h1, h2⟩ := slice_eq_some.mp h
  exact slice_eq_some.mpr ⟨p, q ++ y, by simp, h1, h2⟩

theorem slice_right (x : Str) {i j : Nat} {t : Str} (h : slice y i j = some t) : slice (x ++ y) (blen x + i) (blen x + j) = some t := by
  obtain ⟨p, q, rfl, rfl, rfl⟩ := slice_eq_some.mp h
  exact slice_eq_some.mpr ⟨x ++ p, q, by simp, by simp, by omega⟩

/-- A byte range, later. -/
def moved (n : Nat) (t : Tok) : Tok := (t.1, ⟨n + t.2.m, n + t.2.n⟩)

theorem saying_of {src src' : Str} {tk : Token} {sp sp' : Span} (h : textAt src sp = textAt src' sp') : saying src (tk, sp) = saying src' (tk, sp') := by
  cases tk <;> simp only [saying, h]

/-- What the tokens say in the given mode. -/
def said (src : Str) : Mode → List Tok → List Item
  | .comment, ts => words src ((.beginComment, ⟨0, 0⟩) :: ts)
  | _, ts => words src ts

theorem words_comment {src : Str} (s s' : Span) (ts : List Tok) :
    words src ((.beginComment, s) :: ts) = words src ((.beginComment, s') :: ts) := by
  rcases ts with _ | ⟨⟨tk, sp⟩, _ | ⟨⟨tk', sp'⟩, ts⟩⟩
  · rfl
  · cases tk <;> rfl
  · cases tk <;> first | rfl | (cases tk' <;> rfl)

/-- What an opening delimiter says, apart from what follows. -/
def openSays (k : Kind) : List Item := if tokenOf k = .beginComment then [] else [.sign (tokenOf k)]

theorem words_open {src : Str} {k : Kind} (hk : isEnd k = false) (sp : Span) (ts : List Tok) :
    words src ((tokenOf k, sp) :: ts) = openSays k ++ said src (inside k) ts := by
  have h1 : ∀ tk, tk ≠ Token.beginComment → ∀ us, saying src (tk, sp) = us → words src ((tk, sp) :: ts) = us ++ words src ts := by
    intro tk h us e
    rw [Diag.words_cons h, e]
  cases k <;> first
    | exact absurd hk (by decide)
    | exact words_comment _ _ _
    | exact h1 _ (by decide) _ rfl

/-- The closing token of a tag is one. -/
def Fine : Mode → Prop
  | .tag c _ => isEndTag c = true
  | _ => True

theorem fine_inside (k : Kind) : Fine (inside k) := by cases k <;> first | trivial | rfl

theorem textAt_slice {src : Str} {i j : Nat} {t : Str} (h : slice src i j = some t) : textAt src ⟨i, j⟩ = t := by
  have h : (⟨i, j⟩ : Span).of src = some t := h
  rw [textAt, h]; rfl

theorem trimmed_slice {src : Str} {i j : Nat} {l r : Bool} {t a u b : Str} (h : slice src i j = some t) (ht : Trimmed l r t a u b) :
    slice src (i + blen a) (i + blen a + blen u) = some u := by
  obtain ⟨p, q, e, rfl, rfl⟩ := slice_eq_some.mp h
  exact slice_eq_some.mpr ⟨p ++ a, b ++ q, by rw [e, ht.split]; simp, by simp, rfl⟩

theorem words_empty {src : Str} (s s' : Span) (ts : List Tok) :
    words src ((.beginComment, s) :: (.endComment, s') :: ts) = .sign .beginComment :: .sign .endComment :: words src ts := by
  rw [words, Diag.words_cons (by simp)]
  · rfl
  · intro _ _ _ _ _ h; cases h

theorem words_end {src : Str} {c : Token} (hc : isEndTag c = true) (sp : Span) (ts : List Tok) :
    words src ((c, sp) :: ts) = .sign c :: words src ts := by
  cases c <;> first | exact absurd hc (by decide) | (rw [Diag.words_cons (by simp)]; rfl)

theorem words_tok {src : Str} {path : Bool} {i : Nat} {tk : Token} {t : Str} (h : TokAt env src path i tk t) (ts : List Tok) :
    words src ((tk, ⟨i, i + blen t⟩) :: ts) = saying src (tk, ⟨i, i + blen t⟩) ++ words src ts := by
  refine Diag.words_cons ?_ ts
  rintro rfl
  obtain ⟨_, _, h, _⟩ := h
  exact h

theorem tok_slice {src : Str} {path : Bool} {i : Nat} {tk : Token} {t : Str} (h : TokAt env src path i tk t) : slice src i (i + blen t) = some t := by
  obtain ⟨r, h, _⟩ := h
  obtain ⟨p, rfl, rfl⟩ := dropB_eq_some.mp h
  exact slice_eq_some.mpr ⟨p, r, rfl, rfl, rfl⟩

theorem tok_ne {tk : Token} {t : Str} (h : TokText env tk t) : t ≠ [] := by
  rintro rfl
  cases tk <;> simp [TokText, Word] at h

theorem layout_right (hn : NonEmptyDelims syn) (hs : Seamless syn x y) {m : Mode} {i : Nat} {us : List Tok} (h : Layout syn env y m i us) (hf : Fine m) :
    Layout syn env (x ++ y) m (blen x + i) (us.map (moved (blen x))) ∧ said (x ++ y) m (us.map (moved (blen x))) = said y m us := by
  have raw : ∀ {i j : Nat} {l r : Bool} {t a u b : Str}, slice y i j = some t → Trimmed l r t a u b → ∀ {ts' ts : List Tok},
      words (x ++ y) ts' = words y ts →
      words (x ++ y) ((.raw, ⟨blen x + i + blen a, blen x + i + blen a + blen u⟩) :: ts') = words y ((.raw, ⟨i + blen a, i + blen a + blen u⟩) :: ts) := by
    intro i j l r t a u b h ht ts' ts e
    have := trimmed_slice h ht
    rw [Diag.words_cons (by simp), Diag.words_cons (by simp), e]
    congr 1
    refine saying_of ?_
    have h2 := slice_right x this
    rw [textAt_slice this, textAt_slice (by rw [← Nat.add_assoc, ← Nat.add_assoc, ← Nat.add_assoc] at h2; exact h2)]
  induction h with
  | @done l =>
    refine ⟨?_, rfl⟩
    have := Layout.done (syn := syn) (env := env) (src := x ++ y) (l := l)
    rwa [blen_append] at this
  | @textEnd l i t a u free text ne trim =>
    refine ⟨?_, ?_⟩
    · have h2 := slice_right x text
      have := Layout.textEnd (syn := syn) (env := env) (src := x ++ y) (i := blen x + i) (fun k p q hp ho => ?_) (by rw [blen_append]; exact h2) ne trim
      · simpa [moved, Nat.add_assoc] using this
      · rcases occurs_cases hs ho with ho | ⟨p', q', rfl, rfl, hy⟩
        · have := occurs_lt hn ho; omega
        · exact free _ _ _ (by omega) hy
    · have := raw text trim (ts' := []) (ts := []) rfl
      simpa [moved, said, Nat.add_assoc] using this
  | @textTag l i k j n t a u b rest next opening text ne trim tail ih =>
    obtain ⟨ih1, ih2⟩ := ih (fine_inside k)
    refine ⟨?_, ?_⟩
    · have := Layout.textTag (l := l) (chosen_right hn hs next) opening (slice_right x text) ne trim ih1
      simpa [moved, Nat.add_assoc] using this
    · have := raw text trim (ts' := (tokenOf k, ⟨blen x + j, blen x + n⟩) :: rest.map (moved (blen x))) (ts := (tokenOf k, ⟨j, n⟩) :: rest)
        (by rw [words_open opening, words_open opening, ih2])
      simpa [moved, said, Nat.add_assoc] using this
  | @tag l i k n rest next opening tail ih =>
    obtain ⟨ih1, ih2⟩ := ih (fine_inside k)
    refine ⟨.tag (chosen_right hn hs next) opening ih1, ?_⟩
    simp only [List.map_cons, moved, said]
    rw [words_open opening, words_open opening]
    congr 1
  | @blank c p i t rest free text tail ih =>
    obtain ⟨ih1, ih2⟩ := ih hf
    refine ⟨.blank (free_right hn hs free) ?_ (by rw [Nat.add_assoc]; exact ih1), ih2⟩
    obtain ⟨r, h1, h2⟩ := text
    refine ⟨r, ?_, h2⟩
    obtain ⟨p, rfl, rfl⟩ := dropB_eq_some.mp h1
    exact dropB_eq_some.mpr ⟨x ++ p, by simp, by simp⟩
  | @token c p i tk t rest free text real tail ih =>
    obtain ⟨ih1, ih2⟩ := ih hf
    have text' : TokAt env (x ++ y) p (blen x + i) tk t := by
      obtain ⟨r, h1, h2⟩ := text
      refine ⟨r, ?_, h2⟩
      obtain ⟨p, rfl, rfl⟩ := dropB_eq_some.mp h1
      exact dropB_eq_some.mpr ⟨x ++ p, by simp, by simp⟩
    have h1 := Layout.token (free_right hn hs free) text' real (by rw [Nat.add_assoc]; exact ih1)
    refine ⟨by simpa [moved, Nat.add_assoc] using h1, ?_⟩
    have h2 := words_tok text' (rest.map (moved (blen x)))
    simp only [List.map_cons, moved, said]
    rw [← Nat.add_assoc, h2, words_tok text, saying_of (src' := y) (sp' := ⟨i, i + blen t⟩)]
    · exact congrArg _ ih2
    · rw [textAt_slice (tok_slice text'), textAt_slice (tok_slice text)]
  | @close c p i k n rest next same tail ih =>
    obtain ⟨ih1, ih2⟩ := ih trivial
    refine ⟨.close (chosen_right hn hs next) same ih1, ?_⟩
    simp only [List.map_cons, moved, said]
    rw [words_end hf, words_end hf]
    exact congrArg _ ih2
  | @comment i k j n rest next closing ne tail ih =>
    obtain ⟨ih1, ih2⟩ := ih trivial
    exact ⟨.comment (chosen_right hn hs next) closing (Nat.add_lt_add_left ne _) ih1, ih2⟩
  | @emptyComment i k n rest next closing tail ih =>
    obtain ⟨ih1, ih2⟩ := ih trivial
    refine ⟨.emptyComment (chosen_right hn hs next) closing ih1, ?_⟩
    simp only [List.map_cons, moved, said]
    rw [words_empty, words_empty]
    exact congrArg _ (congrArg _ ih2)

theorem text_cases {src : Str} {l : Bool} {i : Nat} {us : List Tok} (h : Layout syn env src (.text l) i us) :
    (i = blen src ∧ us = []) ∨
    (∃ t a u, (∀ k x y, i ≤ x → ¬ Occurs syn src k x y) ∧ slice src i (blen src) = some t ∧ t ≠ [] ∧ Trimmed l false t a u [] ∧
      us = [(.raw, ⟨i + blen a, i + blen a + blen u⟩)]) ∨
    (∃ k j n t a u b rest, Chosen syn src i k j n ∧ isEnd k = false ∧ slice src i j = some t ∧ t ≠ [] ∧ Trimmed l (isTrim k) t a u b ∧
      Layout syn env src (inside k) n rest ∧ us = (.raw, ⟨i + blen a, i + blen a + blen u⟩) :: (tokenOf k, ⟨j, n⟩) :: rest) ∨
    (∃ k n rest, DelimAt syn src k i n ∧ isEnd k = false ∧ Layout syn env src (inside k) n rest ∧ us = (tokenOf k, ⟨i, n⟩) :: rest) := by
  cases h with
  | done => exact .inl ⟨rfl, rfl⟩
  | textEnd free text ne trim => exact .inr (.inl ⟨_, _, _, free, text, ne, trim, rfl⟩)
  | textTag next opening text ne trim tail => exact .inr (.inr (.inl ⟨_, _, _, _, _, _, _, _, next, opening, text, ne, trim, tail, rfl⟩))
  | tag next opening tail => exact .inr (.inr (.inr ⟨_, _, _, next, opening, tail, rfl⟩))

/-- Two trimmed texts one after the other. -/
theorem trimmed_join {l r : Bool} {t a u t' u' b : Str} (h1 : Trimmed l false t a u []) (h2 : Trimmed false r t' [] u' b)
    (ha : l = true → u = [] → ∀ c v, u' = c :: v → isWhite c = false)
    (hb : r = true → u' = [] → ∀ v c, t = v ++ [c] → isWhite c = false) : Trimmed l r (t ++ t') a (u ++ u') b := by
  refine ⟨?_, h1.whiteA, h2.whiteB, h1.keepA, h2.keepB, fun hl c v e => ?_, fun hr v c e => ?_, fun hr e => ?_⟩
  · rw [h1.split, h2.split]; simp
  · cases u with
    | nil => exact ha hl rfl c v e
    | cons d u => cases e; exact h1.maxA hl _ _ rfl
  · cases u' using List.reverseRecOn with
    | nil =>
      rw [List.append_nil] at e
      exact hb hr rfl (a ++ v) c (by rw [h1.split, e]; simp)
    | append_singleton u' d _ =>
      rw [← List.append_assoc] at e
      have := List.append_inj' e rfl
      have e : d = c := by simpa using this.2
      subst e
      exact h2.maxB hr _ _ rfl
  · obtain ⟨rfl, rfl⟩ := List.append_eq_nil_iff.mp e
    cases a using List.reverseRecOn with
    | nil => rfl
    | append_singleton a d _ =>
      have h3 := hb hr rfl a d (by rw [h1.split]; simp)
      have h4 := h1.whiteA d (by simp)
      rw [h3] at h4; cases h4

theorem trimmed_none {r : Bool} : Trimmed false r [] [] [] [] :=
  ⟨rfl, by simp, by simp, by simp, by simp, by simp, by simp, by simp⟩

/-- The rest `t` of `x` is text; `y` follows. -/
theorem layout_seam (hn : NonEmptyDelims syn) (hs : Seamless syn x y) {us : List Tok} (hy : Layout syn env y (.text false) 0 us) {l : Bool} {px t a u : Str}
    (hx : x = px ++ t) (free : ∀ k i j, blen px ≤ i → ¬ Occurs syn x k i j) (trim : Trimmed l false t a u [])
    (ha : l = true → u = [] → ∀ c v, y = c :: v → isWhite c = false) :
    ∃ vs, Layout syn env (x ++ y) (.text l) (blen px) vs ∧ words (x ++ y) vs = u.map .char ++ words y us := by
  have hlen : blen x = blen px + blen t := by rw [hx]; simp
  have hx' : ∀ t', (∃ r, y = t' ++ r) → slice (x ++ y) (blen px) (blen x + blen t') = some (t ++ t') := by
    rintro t' ⟨r, rfl⟩
    exact slice_eq_some.mpr ⟨px, r, by rw [hx]; simp, rfl, by rw [hlen]; simp [Nat.add_assoc]⟩
  have raw : ∀ {t' u' b : Str} {r : Bool} {ts : List Tok}, (∃ r, y = t' ++ r) → Trimmed l r (t ++ t') a (u ++ u') b →
      words (x ++ y) ((.raw, ⟨blen px + blen a, blen px + blen a + blen (u ++ u')⟩) :: ts) = u.map .char ++ (u'.map .char ++ words (x ++ y) ts) := by
    intro t' u' b r ts he ht
    rw [Diag.words_cons (by simp), saying, textAt_slice (trimmed_slice (hx' t' he) ht)]
    simp
  have last : ∀ k ∈ syn, isEnd k.1 = false → isTrim k.1 = true → ∀ white rest, y = white ++ k.2 ++ rest → (∀ c ∈ white, isWhite c = true) →
      ∀ v c, t = v ++ [c] → isWhite c = false := by
    intro k hk h1 h2 white rest e hw v c et
    exact hs.before k hk h1 h2 white rest e hw (px ++ v) c (by rw [hx, et]; simp)
  rcases text_cases hy with ⟨h1, rfl⟩ | ⟨t', a', u', h1, h2, h3, h4, rfl⟩ | ⟨k, j, n, t', a', u', b, rest, h1, h2, h3, h4, h5, h6, rfl⟩ | ⟨k, n, rest, h1, h2, h3, rfl⟩
  · have : y = [] := blen_eq_zero.mp h1.symm
    subst this
    by_cases ht : t = []
    · subst ht
      have hu : u = [] := by have := trim.split; simp at this; exact this.2
      subst hu
      refine ⟨[], ?_, rfl⟩
      have : blen px = blen (x ++ []) := by rw [hx]; simp
      rw [this]
      exact .done
    · refine ⟨_, .textEnd ?_ ?_ (by simpa using ht) (trimmed_join trim (trimmed_none (r := false)) (by simp) (by simp)), ?_⟩
      · simpa using free
      · have := hx' [] ⟨[], rfl⟩
        simpa using this
      · have := raw (t' := []) (u' := []) (ts := []) ⟨[], rfl⟩ (trimmed_join trim (trimmed_none (r := false)) (by simp) (by simp))
        rw [this]; simp [words]
  · have ha' : a' = [] := h4.keepA rfl
    subst ha'
    have ey : y = t' := by
      obtain ⟨p, q, e, hp, hq⟩ := slice_eq_some.mp h2
      have hp : p = [] := blen_eq_zero.mp hp
      subst hp
      have : blen q = 0 := by have := congrArg blen e; simp at this; omega
      rw [blen_eq_zero.mp this] at e
      simpa using e
    have eu : t' = u' := by simpa using h4.split
    have hj := trimmed_join trim h4 (fun hl hu c v e => ha hl hu c v (by rw [ey, eu, e])) (by simp)
    refine ⟨_, .textEnd ?_ (t := t ++ t') ?_ (by simp [h3]) hj, ?_⟩
    · intro k i j hi ho
      rcases occurs_cases hs ho with ho | ⟨i', j', _, _, hy⟩
      · exact free _ _ _ hi ho
      · exact h1 _ _ _ (Nat.zero_le _) hy
    · have := hx' t' ⟨[], by simpa using ey⟩
      rw [blen_append, show blen y = blen t' by rw [ey]]; exact this
    · rw [raw (ts := []) ⟨[], by simpa using ey⟩ hj, Diag.words_cons (by simp)]
      have := trimmed_slice h2 h4
      rw [saying, textAt_slice this]
      simp [words]
  · have ha' : a' = [] := h5.keepA rfl
    subst ha'
    obtain ⟨d, ys, hd, rfl, ey⟩ : ∃ d r, (k, d) ∈ syn ∧ j = blen t' ∧ y = t' ++ d ++ r := by
      obtain ⟨d, b', l', e, ⟨p, q, e1, e2, e3⟩, _⟩ := h1.first
      obtain ⟨p', q', e', hp', hj⟩ := slice_eq_some.mp h3
      have hp' : p' = [] := blen_eq_zero.mp hp'
      subst hp'
      have : p = t' := by
        rw [e1] at e'
        have e' : p ++ (d ++ q) = t' ++ q' := by simpa using e'
        exact (append_blen_inj e' (by omega)).1
      subst this
      exact ⟨d, q, by rw [e]; simp, by omega, e1⟩
    obtain ⟨r1, r2⟩ := layout_right (x := x) hn hs h6 (fine_inside k)
    have hj : Trimmed l (isTrim k) (t ++ t') a (u ++ u') b := by
      refine trimmed_join trim h5 (fun hl hu c v e => ha hl hu c (v ++ b ++ d ++ ys) ?_) fun hr hu v c e => ?_
      · rw [ey, h5.split, e]; simp
      · refine last (k, d) hd h2 hr t' ys ey ?_ v c e
        rw [h5.split, hu]; simpa using h5.whiteB
    refine ⟨_, .textTag (chosen_across hn hs h1 free (by omega) (.inl rfl)) h2 (hx' t' ⟨d ++ ys, by rw [ey]; simp⟩) (by simp [h4]) hj r1, ?_⟩
    rw [raw ⟨d ++ ys, by rw [ey]; simp⟩ hj, words_open h2, r2, Diag.words_cons (by simp), words_open h2, saying]
    have := trimmed_slice h3 h5
    rw [textAt_slice this]
  · obtain ⟨d, ys, hd, ey⟩ : ∃ d r, (k, d) ∈ syn ∧ y = d ++ r := by
      obtain ⟨d, b', l', e, ⟨p, q, e1, e2, e3⟩, _⟩ := h1.first
      rw [blen_eq_zero.mp e2] at e1
      exact ⟨d, q, by rw [e]; simp, by simpa using e1⟩
    obtain ⟨r1, r2⟩ := layout_right (x := x) hn hs h3 (fine_inside k)
    have hc := chosen_across hn hs h1 free (by omega) (.inl rfl)
    by_cases ht : t = []
    · subst ht
      have hu : u = [] := by have := trim.split; simp at this; exact this.2
      subst hu
      have : blen px = blen x + 0 := by rw [hlen]; rfl
      refine ⟨_, .tag (k := k) (n := blen x + n) (by rw [DelimAt]; rw [this] at hc ⊢; exact hc) h2 r1, ?_⟩
      rw [words_open h2, words_open h2, r2]; rfl
    · have hj : Trimmed l (isTrim k) (t ++ []) a (u ++ []) [] :=
        trimmed_join trim trimmed_none (by simp) fun hr _ v c e => last (k, d) hd h2 hr [] ys (by simpa using ey) (by simp) v c e
      refine ⟨_, .textTag hc h2 (hx' [] ⟨y, rfl⟩) (by simp [ht]) hj r1, ?_⟩
      rw [raw ⟨y, rfl⟩ hj, words_open h2, r2, words_open h2]; rfl

/-- A tag that asks to trim ends before the text. -/
def Ended (syn : Syn) (x : Str) (m : Mode) (i : Nat) : Prop :=
  m = .text true → ∃ p ∈ syn, isEnd p.1 = true ∧ isTrim p.1 = true ∧ ∃ pre post, x = pre ++ p.2 ++ post ∧ blen (pre ++ p.2) = i

theorem ended_of {s i j : Nat} {k : Kind} (h : Chosen syn x s k i j) (he : isEnd k = true) : Ended syn x (.text (isTrim k)) j := by
  intro e
  injection e with e
  obtain ⟨d, b, l, e1, ⟨p, q, e2, e3, e4⟩, _⟩ := h.first
  exact ⟨(k, d), by rw [e1]; simp, he, e, p, q, e2, e4⟩

theorem end_of {k : Kind} (h : isEndTag (tokenOf k) = true) : isEnd k = true := by cases k <;> first | rfl | exact absurd h (by decide)

theorem ended_inside {k : Kind} (i : Nat) : Ended syn x (inside k) i := by
  intro h
  cases k <;> cases h

/-- A tag does not end with the text. -/
theorem tag_more (hn : NonEmptyDelims syn) {c : Token} {p : Bool} {i : Nat} {ts : List Tok} (h : Layout syn env x (.tag c p) i ts) : i < blen x := by
  have tok : ∀ {p : Bool} {i : Nat} {tk : Token} {t : Str}, TokAt env x p i tk t → i < blen x := by
    intro p i tk t h
    obtain ⟨_, h1, h2, _⟩ := h
    obtain ⟨q, e, rfl⟩ := dropB_eq_some.mp h1
    have : blen t ≠ 0 := fun h => tok_ne h2 (blen_eq_zero.mp h)
    rw [e]; simp; omega
  cases h with
  | blank _ text _ => exact tok text
  | token _ text _ _ => exact tok text
  | close next _ _ => have := occurs_lt hn (Chosen.occurs next); omega

theorem tok_left (hn : NonEmptyDelims syn) {p q : Bool} {i : Nat} {tk c : Token} {t : Str} (h : TokAt env x p i tk t) {ts : List Tok}
    (hm : Layout syn env x (.tag c q) (i + blen t) ts) (y : Str) : TokAt env (x ++ y) p i tk t := by
  obtain ⟨r, h1, h2, h3, h4⟩ := h
  obtain ⟨pre, e, rfl⟩ := dropB_eq_some.mp h1
  have hlt := tag_more hn hm
  have hr : r ≠ [] := by rintro rfl; rw [e] at hlt; simp at hlt
  refine ⟨r ++ y, dropB_eq_some.mpr ⟨pre, by rw [e]; simp, rfl⟩, h2, ?_, h4⟩
  cases r with
  | nil => exact absurd rfl hr
  | cons d r => cases tk <;> first | trivial | exact h3

theorem layout_left (hn : NonEmptyDelims syn) (hs : Seamless syn x y) {us : List Tok} (hy : Layout syn env y (.text false) 0 us) {m : Mode} {i : Nat} {ts : List Tok}
    (h : Layout syn env x m i ts) (hf : Fine m) (he : Ended syn x m i) :
    ∃ vs, Layout syn env (x ++ y) m i vs ∧ said (x ++ y) m vs = said x m ts ++ words y us := by
  have white : ∀ {l : Bool} {px t a u : Str}, x = px ++ t → Ended syn x (.text l) (blen px) → Trimmed l false t a u [] →
      l = true → u = [] → ∀ c v, y = c :: v → isWhite c = false := by
    intro l px t a u hx he ht hl hu c v ey
    subst hl
    obtain ⟨p, hp, h1, h2, pre, post, e, hb⟩ := he rfl
    have : pre ++ p.2 = px ∧ post = t := append_blen_inj (by rw [← e, hx]) hb
    refine hs.after p hp h1 h2 t pre (by rw [hx, this.1]) ?_ c v ey
    have := ht.split
    rw [hu] at this
    rw [this]; simpa using ht.whiteA
  have raw : ∀ {i j : Nat} {l r : Bool} {t a u b : Str}, slice x i j = some t → Trimmed l r t a u b → ∀ (ts vs : List Tok),
      words (x ++ y) ((.raw, ⟨i + blen a, i + blen a + blen u⟩) :: vs) = u.map .char ++ words (x ++ y) vs ∧
      words x ((.raw, ⟨i + blen a, i + blen a + blen u⟩) :: ts) = u.map .char ++ words x ts := by
    intro i j l r t a u b h ht ts vs
    have := trimmed_slice h ht
    rw [Diag.words_cons (by simp), Diag.words_cons (by simp), saying, saying, textAt_slice this, textAt_slice (slice_left this y)]
    exact ⟨rfl, rfl⟩
  induction h with
  | @done l =>
    have ht : Trimmed l false [] [] [] [] := ⟨rfl, by simp, by simp, by simp, by simp, by simp, by simp, by simp⟩
    obtain ⟨vs, h1, h2⟩ := layout_seam hn hs hy (l := l) (px := x) (t := []) (by simp)
      (fun k i j hi ho => by have := occurs_lt hn ho; omega) ht (white (by simp) he ht)
    exact ⟨vs, h1, h2⟩
  | @textEnd l i t a u free text ne trim =>
    obtain ⟨px, q, hx, rfl, hq⟩ := slice_eq_some.mp text
    have : blen q = 0 := by have := congrArg blen hx; simp at this; omega
    rw [blen_eq_zero.mp this, List.append_nil] at hx
    obtain ⟨vs, h1, h2⟩ := layout_seam hn hs hy hx free trim (white hx he trim)
    refine ⟨vs, h1, ?_⟩
    simp only [said]
    rw [h2, (raw text trim [] []).2]; simp [words]
  | @textTag l i k j n t a u b rest next opening text ne trim tail ih =>
    obtain ⟨vs, ih1, ih2⟩ := ih (fine_inside k) (ended_inside _)
    refine ⟨_, .textTag (chosen_left hn hs next) opening (slice_left text y) ne trim ih1, ?_⟩
    simp only [said]
    rw [(raw text trim [] _).1, (raw text trim _ []).2, words_open opening, words_open opening, ih2]
    simp
  | @tag l i k n rest next opening tail ih =>
    obtain ⟨vs, ih1, ih2⟩ := ih (fine_inside k) (ended_inside _)
    refine ⟨_, .tag (chosen_left hn hs next) opening ih1, ?_⟩
    simp only [said]
    rw [words_open opening, words_open opening, ih2]
    simp
  | @blank c p i t rest free text tail ih =>
    obtain ⟨vs, ih1, ih2⟩ := ih hf nofun
    have hlt := tag_more hn tail
    exact ⟨vs, .blank (free_left hs (by omega) free) (tok_left hn text tail y) ih1, ih2⟩
  | @token c p i tk t rest free text real tail ih =>
    obtain ⟨vs, ih1, ih2⟩ := ih hf nofun
    have hlt := tag_more hn tail
    have text' := tok_left hn text tail y
    refine ⟨_, .token (free_left hs (by omega) free) text' real ih1, ?_⟩
    simp only [said] at ih2 ⊢
    rw [words_tok text', words_tok text, ih2, saying_of (src' := x) (sp' := ⟨i, i + blen t⟩)]
    · simp
    · rw [textAt_slice (tok_slice text'), textAt_slice (tok_slice text)]
  | @close c p i k n rest next same tail ih =>
    obtain ⟨vs, ih1, ih2⟩ := ih trivial (ended_of next (end_of (by rw [same]; exact hf)))
    refine ⟨_, .close (chosen_left hn hs next) same ih1, ?_⟩
    simp only [said] at ih2 ⊢
    rw [words_end hf, words_end hf, ih2]
    rfl
  | @comment i k j n rest next closing ne tail ih =>
    obtain ⟨vs, ih1, ih2⟩ := ih trivial (ended_of next (end_of (by rw [closing]; rfl)))
    exact ⟨_, .comment (chosen_left hn hs next) closing ne ih1, ih2⟩
  | @emptyComment i k n rest next closing tail ih =>
    obtain ⟨vs, ih1, ih2⟩ := ih trivial (ended_of next (end_of (by rw [closing]; rfl)))
    refine ⟨_, .emptyComment (chosen_left hn hs next) closing ih1, ?_⟩
    simp only [said] at ih2 ⊢
    rw [words_empty, words_empty, ih2]
    rfl

/-- **The tokens of `x ++ y` say what those of `x` say and then what those of `y` say.** -/
theorem layout_append (hn : NonEmptyDelims syn) (hs : Seamless syn x y) {ts us : List Tok} (hx : Layout syn env x (.text false) 0 ts)
    (hy : Layout syn env y (.text false) 0 us) : ∃ vs, Layout syn env (x ++ y) (.text false) 0 vs ∧ words (x ++ y) vs = words x ts ++ words y us :=
  layout_left hn hs hy hx trivial nofun

theorem tidy_append (hn : NonEmptyDelims syn) (hs : Seamless syn x y) (hx : Tidy syn x) (hy : Tidy syn y) : Tidy syn (x ++ y) := by
  intro p hp h1 q hq h2 h3 before white behind e hne hw d c ed
  have a1 : StandsAt (x ++ y) p.2 (blen before) (blen (before ++ p.2)) := ⟨before, white ++ q.2 ++ behind, by rw [e]; simp, rfl, rfl⟩
  have a2 : StandsAt (x ++ y) q.2 (blen (before ++ p.2 ++ white)) (blen (before ++ p.2 ++ white ++ q.2)) := ⟨before ++ p.2 ++ white, behind, by rw [e], rfl, rfl⟩
  have hqn : blen q.2 ≠ 0 := fun h => hn _ hq (blen_eq_zero.mp h)
  have hpn : blen p.2 ≠ 0 := fun h => hn _ hp (blen_eq_zero.mp h)
  rcases stands_cases hs hq a2 with b2 | ⟨i2, j2, m1, m2, b2⟩
  · -- all in x
    obtain ⟨pre, post, ex, f1, f2⟩ := b2
    have : pre = before ++ p.2 ++ white := by
      have : pre ++ (q.2 ++ post ++ y) = (before ++ p.2 ++ white) ++ (q.2 ++ behind) := by rw [← List.append_assoc, ← List.append_assoc, ← ex, e]; simp
      exact (append_blen_inj this f1).1
    subst this
    exact hx p hp h1 q hq h2 h3 before white post ex hne hw d c ed
  · obtain ⟨pre, post, ey, f1, f2⟩ := b2
    rcases stands_cases hs hp a1 with b1 | ⟨i1, j1, n1, n2, b1⟩
    · -- the closing delimiter is in x, the opening one in y
      obtain ⟨pre', post', ex, g1, g2⟩ := b1
      have k1 := append_blen_inj (a := pre') (b := p.2 ++ post' ++ y) (c := before) (d := p.2 ++ white ++ q.2 ++ behind)
        (by rw [show pre' ++ (p.2 ++ post' ++ y) = x ++ y by rw [ex]; simp, e]; simp) g1
      have k2 : post' ++ y = white ++ (q.2 ++ behind) := by have := k1.2; simpa using this
      have hpw : blen (before ++ p.2 ++ white) = blen (before ++ p.2 ++ (post' ++ pre)) := by
        rw [m1, ← f1, ex, k1.1]; simp [Nat.add_assoc]
      have k3 : white = post' ++ pre := by
        have k4 : (post' ++ pre) ++ (q.2 ++ post) = white ++ (q.2 ++ behind) := by rw [← k2, ey]; simp
        exact (append_blen_inj k4 (by simp at hpw ⊢; omega)).1.symm
      have hl := hs.before q hq h2 h3 pre post ey (fun c hc => hw c (by rw [k3]; simp [hc]))
      cases post' using List.reverseRecOn with
      | nil => exact hl (before ++ d) c (by rw [ex, ed, k1.1]; simp)
      | append_singleton post' w _ =>
        have z1 := hl (pre' ++ p.2 ++ post') w (by rw [ex]; simp)
        have z2 := hw w (by rw [k3]; simp)
        rw [z1] at z2; cases z2
    · -- all in y
      obtain ⟨pre', post', ey', g1, g2⟩ := b1
      have e0 : x ++ pre' = before := (append_blen_inj (a := x ++ pre') (b := p.2 ++ post') (c := before) (d := p.2 ++ white ++ q.2 ++ behind)
        (by rw [show x ++ pre' ++ (p.2 ++ post') = x ++ y by rw [ey']; simp, e]; simp) (by simp; omega)).1
      have ey2 : y = pre' ++ p.2 ++ white ++ q.2 ++ behind := by
        rw [← e0] at e
        have : x ++ y = x ++ (pre' ++ p.2 ++ white ++ q.2 ++ behind) := by rw [e]; simp
        exact List.append_cancel_left this
      exact hy p hp h1 q hq h2 h3 pre' white behind ey2 hne hw d c ed

end Upon.Seam
