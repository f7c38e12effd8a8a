import Verif.Proofs.AC.Search
/-
C01 and C02: the delimiter search.
-/
namespace Upon

theorem built_valid {b : SyntaxBuilder} (h : Spec.Built b) : b.Valid := by
  induction h with
  | new => simp [SyntaxBuilder.Valid, SyntaxBuilder.new]
  | @expr b b' x y _ h ih =>
    simp only [SyntaxBuilder.setExpr] at h
    split at h
    · next hc =>
      injection h with h; subst h
      exact ⟨by intro p hp; injection hp with hp; subst hp; exact hc, ih.2.1, ih.2.2⟩
    · cases h
  | @block b b' x y _ h ih =>
    simp only [SyntaxBuilder.setBlock] at h
    split at h
    · next hc =>
      injection h with h; subst h
      exact ⟨ih.1, by intro p hp; injection hp with hp; subst hp; exact hc, ih.2.2⟩
    · cases h
  | @comment b b' x y _ h ih =>
    simp only [SyntaxBuilder.setComment] at h
    split at h
    · next hc =>
      injection h with h; subst h
      exact ⟨ih.1, ih.2.1, by intro p hp; injection hp with hp; subst hp; exact hc⟩
    · cases h

theorem build_nonEmpty {b : SyntaxBuilder} (h : b.Valid) : Spec.NonEmptyDelims b.build := by
  obtain ⟨h1, h2, h3⟩ := h
  rintro ⟨k, d⟩ hp
  simp only [SyntaxBuilder.build, List.mem_append, or_assoc] at hp
  rcases hp with hp | hp | hp
  · cases he : b.expr with
    | none => simp [he] at hp
    | some p =>
      have := h1 p he
      simp [he] at hp
      rcases hp with ⟨_, rfl⟩ | ⟨_, rfl⟩ | ⟨_, rfl⟩ | ⟨_, rfl⟩ <;> simp [this]
  · cases he : b.block with
    | none => simp [he] at hp
    | some p =>
      have := h2 p he
      simp [he] at hp
      rcases hp with ⟨_, rfl⟩ | ⟨_, rfl⟩ | ⟨_, rfl⟩ | ⟨_, rfl⟩ <;> simp [this]
  · cases he : b.comment with
    | none => simp [he] at hp
    | some p =>
      have := h3 p he
      simp [he] at hp
      rcases hp with ⟨_, rfl⟩ | ⟨_, rfl⟩ | ⟨_, rfl⟩ | ⟨_, rfl⟩ <;> simp [this]

/-- **C01** For every list of non-empty delimiters, every text and every offset, the search reports
an occurrence exactly when there is one at or after the offset, and the one it reports is the
leftmost, then longest, then first configured. -/
theorem C01_search {syn : Syn} (hs : Spec.NonEmptyDelims syn) {a : AC.Auto} (ha : AC.new syn = some a)
    (src : Str) (start : Nat) :
    (∃ k i j, AC.searcherFindAt a (utf8 src) start = some (some (k, i, j)) ∧
        Spec.Chosen syn src start k i j) ∨
      (AC.searcherFindAt a (utf8 src) start = some none ∧
        ∀ k i j, start ≤ i → ¬ Spec.Occurs syn src k i j) := by
  obtain ⟨a', nm, h1, h2⟩ := AC.new_spec hs
  rw [ha] at h1; injection h1 with h1; subst h1
  exact AC.searcherFindAt_spec hs h2 src start

/-- **C01** (anchored search): `starts_with` reports a delimiter exactly when one stands at the
offset, and then the longest, first configured one. -/
theorem C01_starts_with {syn : Syn} (hs : Spec.NonEmptyDelims syn) {a : AC.Auto} (ha : AC.new syn = some a)
    (src : Str) (start : Nat) :
    (∃ k j, AC.searcherStartsWith a (utf8 src) start = some (some (k, j)) ∧
        Spec.Chosen syn src start k start j) ∨
      (AC.searcherStartsWith a (utf8 src) start = some none ∧
        ∀ k j, ¬ Spec.Occurs syn src k start j) := by
  obtain ⟨a', nm, h1, h2⟩ := AC.new_spec hs
  rw [ha] at h1; injection h1 with h1; subst h1
  exact AC.searcherStartsWith_spec hs h2 src start

/-- **C01** The chosen occurrence is unique, so the search result is fully determined. -/
theorem C01_unique {syn : Syn} {src : Str} {start : Nat} {k k' : Kind} {i i' j j' : Nat}
    (h : Spec.Chosen syn src start k i j) (h' : Spec.Chosen syn src start k' i' j') :
    k = k' ∧ i = i' ∧ j = j' := AC.Chosen.unique h h'

/-- **C02** Every syntax a user can build gives a searcher (construction neither panics nor runs
forever), and every search with it, on every text from every offset, returns a result. -/
theorem C02_total {b : SyntaxBuilder} (hb : Spec.Built b) :
    ∃ a, AC.new b.build = some a ∧ ∀ src start, (AC.searcherFindAt a (utf8 src) start).isSome ∧
      (AC.searcherStartsWith a (utf8 src) start).isSome := by
  have hs := build_nonEmpty (built_valid hb)
  obtain ⟨a, nm, h1, h2⟩ := AC.new_spec hs
  refine ⟨a, h1, fun src start => ⟨?_, ?_⟩⟩
  · rcases C01_search hs h1 src start with ⟨k, i, j, h, _⟩ | ⟨h, _⟩ <;> simp [h]
  · rcases C01_starts_with hs h1 src start with ⟨k, j, h, _⟩ | ⟨h, _⟩ <;> simp [h]

/-- The default syntax meets the hypotheses. -/
theorem default_built : Spec.Built defaultBuilder := by
  have h1 : Spec.Built ⟨some (['{', '{'], ['}', '}']), none, none⟩ :=
    .expr (x := ['{', '{']) (y := ['}', '}']) .new rfl
  have h2 : Spec.Built ⟨some (['{', '{'], ['}', '}']), some (['{', '%'], ['%', '}']), none⟩ :=
    .block (x := ['{', '%']) (y := ['%', '}']) h1 rfl
  exact .comment (x := ['{', '#']) (y := ['#', '}']) h2 rfl

theorem default_nonEmpty : Spec.NonEmptyDelims Syn.default := build_nonEmpty (built_valid default_built)

/-- In the text `a{{- b` the delimiters `{{` and `{{-` both occur, at 1. -/
example : Spec.Occurs Syn.default "a{{- b".toList .beginExpr 1 3 ∧
    Spec.Occurs Syn.default "a{{- b".toList .beginExprTrim 1 4 :=
  ⟨⟨"{{".toList, by decide, ['a'], "- b".toList, by decide, by decide, by decide⟩,
   ⟨"{{-".toList, by decide, ['a'], " b".toList, by decide, by decide, by decide⟩⟩

/-- There is a text with no occurrence at all. -/
example : ∀ k i j, ¬ Spec.Occurs Syn.default "a".toList k i j := by
  rintro k i j ⟨d, hd, pre, post, h, -, -⟩
  have hm : ∀ p ∈ Syn.default, 2 ≤ p.2.length := by decide
  have h2 : 2 ≤ d.length := hm _ hd
  have := congrArg List.length h
  simp at this
  omega

set_option maxRecDepth 100000 in
example : (AC.new Syn.default).bind (fun a => AC.searcherFindAt a (utf8 "a{{- b".toList) 0) =
    some (some (.beginExprTrim, 1, 4)) := by decide +kernel

end Upon
