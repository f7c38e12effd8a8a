import Verif.Spec.Print
import Verif.Props.Compose
import Verif.Proofs.DiagItem
import Verif.Props.Literals
/-
A printed template is read back (C53).
-/
namespace Upon
open Spec

namespace Print
variable {b : SyntaxBuilder} {env : Env}

theorem prefix_at {src pre rest d : Str} {i j : Nat} (hs : src = pre ++ rest) (hi : i = blen pre) (h : StandsAt src d i j) :
    d <+: rest ∧ j = blen pre + blen d := by
  obtain ⟨p, q, e, h1, h2⟩ := h
  rw [hs, List.append_assoc] at e
  obtain ⟨e1, e2⟩ := append_blen_inj e (by rw [h1, hi])
  subst e1
  exact ⟨⟨q, e2.symm⟩, by rw [← h2]; simp⟩

theorem stands_of {src pre rest d : Str} (hs : src = pre ++ (d ++ rest)) : StandsAt src d (blen pre) (blen pre + blen d) :=
  ⟨pre, rest, by rw [hs, List.append_assoc], rfl, by simp⟩

/-- A delimiter, if no longer one stands there. -/
theorem delim_of (hstd : Standard b env) {src pre rest d : Str} {k : Kind} (hs : src = pre ++ (d ++ rest)) (hk : (k, d) ∈ b.build)
    (hl : ∀ q ∈ b.build, q.2 <+: d ++ rest → blen q.2 ≤ blen d) : DelimAt b.build src k (blen pre) (blen pre + blen d) := by
  refine ⟨Nat.le_refl _, fun _ _ _ h _ => h, ?_, ?_⟩
  · rintro k' j' ⟨d', hd', h⟩
    obtain ⟨h1, rfl⟩ := prefix_at hs rfl h
    exact Nat.add_le_add_left (hl _ hd' h1) _
  · obtain ⟨as, bs, e, hn⟩ := List.eq_append_cons_of_mem hk
    refine ⟨d, as, bs, e, stands_of hs, fun k' hm => hn ?_⟩
    have : k' = k := hstd.apart (k', d) (by rw [e]; simp [hm]) (k, d) hk rfl
    rw [← this]; exact hm

theorem prefix_cases {d e r : Str} (h : d <+: e ++ r) : d <+: e ∨ ∃ x y, d = e ++ x :: y ∧ x :: y <+: r := by
  obtain ⟨t, h⟩ := h
  rcases List.append_eq_append_iff.mp h with ⟨u, h1, h2⟩ | ⟨u, h1, h2⟩
  · exact .inl ⟨u, h1.symm⟩
  · cases u with
    | nil => exact .inl ⟨[], by rw [h1]; simp⟩
    | cons x y => exact .inr ⟨x, y, h1, ⟨t, h2.symm⟩⟩

theorem blen_prefix {d e : Str} (h : d <+: e) : blen d ≤ blen e := by
  obtain ⟨t, rfl⟩ := h
  simp

/-- An opening delimiter followed by a space. -/
theorem open_of (hstd : Standard b env) {src pre rest d : Str} {k : Kind} (hs : src = pre ++ (d ++ ' ' :: rest)) (hk : (k, d) ∈ b.build) :
    DelimAt b.build src k (blen pre) (blen pre + blen d) := by
  refine delim_of hstd hs hk fun q hq h => ?_
  rcases prefix_cases h with h | ⟨x, y, h1, ⟨t, h2⟩⟩
  · exact blen_prefix h
  · injection h2 with h2
    have := hstd.solid q hq ' ' (by rw [h1, h2]; simp)
    exact absurd this (by decide)

/-- A closing delimiter, whatever follows. -/
theorem close_of (hstd : Standard b env) {src pre rest d : Str} {k : Kind} (hs : src = pre ++ (d ++ rest)) (hk : (k, d) ∈ b.build)
    (he : isEnd k = true) (ht : isTrim k = false) : DelimAt b.build src k (blen pre) (blen pre + blen d) := by
  refine delim_of hstd hs hk fun q hq h => ?_
  rcases prefix_cases h with h | ⟨x, y, h1, _⟩
  · exact blen_prefix h
  · have := hstd.ends _ hk he ht q hq ⟨x :: y, h1.symm⟩
    exact Nat.le_of_eq (by rw [← this])

/-- No delimiter stands where a token starts. -/
theorem free_of (hb : Built b) (hstd : Standard b env) {src pre rest : Str} {c x : Char} (hs : src = pre ++ c :: x :: rest)
    (h : (c = '-' ∧ x = ' ') ∨ (c ≠ '-' ∧ (Punct c ∨ isIdentStart env c = true))) (k : Kind) (j : Nat) : ¬ Occurs b.build src k (blen pre) j := by
  rintro ⟨d, hd, hst⟩
  obtain ⟨⟨t, h1⟩, _⟩ := prefix_at hs rfl hst
  cases d with
  | nil => exact build_nonEmpty (built_valid hb) _ hd rfl
  | cons a d =>
    injection h1 with h1 h2
    subst h1
    rcases hstd.starts _ hd a d rfl with ⟨h3, h4⟩ | ⟨h3, h4⟩
    · rcases h with ⟨_, h5⟩ | ⟨h5, _⟩
      · cases d with
        | nil => exact h4 rfl
        | cons y d =>
          injection h2 with h2
          have := hstd.solid _ hd y (by simp)
          rw [h2, h5] at this
          exact absurd this (by decide)
      · exact h5 h3
    · rcases h with ⟨h5, _⟩ | ⟨_, h5 | h5⟩
      · subst h5; exact h3 (.inl (by simp))
      · exact h3 h5
      · rw [h5] at h4; cases h4

/-- No delimiter stands in the text `t` written before `rest`. -/
def Free (b : SyntaxBuilder) (t rest : Str) : Prop := ∀ p s, t = p ++ s → s ≠ [] → ∀ q ∈ b.build, ¬ q.2 <+: s ++ rest

theorem free_at {src pre t rest : Str} (hs : src = pre ++ (t ++ rest)) (hf : Free b t rest) {k : Kind} {i j : Nat} (hi : blen pre ≤ i)
    (h : Occurs b.build src k i j) : blen pre + blen t ≤ i := by
  obtain ⟨d, hd, p, q, e, h1, _⟩ := h
  rw [hs, List.append_assoc] at e
  obtain ⟨u, rfl, e2⟩ := append_cmp e (by rw [h1]; exact hi)
  by_cases hl : blen t ≤ blen u
  · rw [← h1]; simp; exact hl
  · obtain ⟨s, rfl, e3⟩ := append_cmp e2.symm (by omega)
    refine absurd ⟨q, e3⟩ (hf u s rfl ?_ _ hd)
    rintro rfl
    simp at hl

theorem free_push {t : Str} {c : Char} {ws : List Item} (hf : Free b t (print b (.char c :: ws)))
    (hn : NoAccident b (.char c :: ws)) : Free b (t ++ [c]) (print b ws) := by
  intro p s e hs q hq h
  have e0 : print b (.char c :: ws) = c :: print b ws := rfl
  rcases List.eq_nil_or_concat s with rfl | ⟨s', x, rfl⟩
  · exact hs rfl
  · rw [List.concat_eq_append, ← List.append_assoc] at e
    obtain ⟨e1, e2⟩ := List.append_inj' e rfl
    cases e2
    rw [List.concat_eq_append, List.append_assoc] at h
    cases s' with
    | nil => exact hn [] c ws rfl q hq (by rw [e0]; exact h)
    | cons y s' => exact hf p (y :: s') e1 (by simp) q hq (by rw [e0]; exact h)

theorem noAccident_tail {w : Item} {ws : List Item} (h : NoAccident b (w :: ws)) : NoAccident b ws :=
  fun before c after e => h (w :: before) c after (by rw [e]; rfl)

theorem trimmed_id (t : Str) : Trimmed false false t [] t [] :=
  ⟨by simp, by simp, by simp, fun _ => rfl, fun _ => rfl, by simp, by simp, by simp⟩

theorem textAt_of {src pre t rest : Str} (hs : src = pre ++ (t ++ rest)) : textAt src ⟨blen pre, blen pre + blen t⟩ = t := by
  unfold textAt Span.of
  rw [slice_eq_some.mpr ⟨pre, rest, hs, rfl, rfl⟩]
  rfl

/-- Neither a token nor a delimiter starts with a space or a tab. -/
theorem tok_start {tk : Token} {s : Str} (h : TokText env tk s) (hw : isWord tk = true) :
    ∃ c r, s = c :: r ∧ c ≠ '-' ∧ (Punct c ∨ isIdentStart env c = true) ∧ c ≠ ' ' ∧ c ≠ '\t' := by
  have digit {c : Char} (hc : isDigit c = true) : c ≠ '-' ∧ c ≠ ' ' ∧ c ≠ '\t' := by
    refine ⟨?_, ?_, ?_⟩ <;> (rintro rfl; exact absurd hc (by decide))
  have name (h : Word env s) : ∃ c r, s = c :: r ∧ c ≠ '-' ∧ (Punct c ∨ isIdentStart env c = true) ∧ c ≠ ' ' ∧ c ≠ '\t' := by
    obtain ⟨c, r, rfl, h1, h2, _⟩ := h
    refine ⟨c, r, rfl, ?_, .inr h2, ?_, ?_⟩ <;> (rintro rfl; exact h1 (.inl (by simp)))
  cases tk with
  | ident => exact name h.2
  | keyword => exact name h.2
  | index =>
    obtain ⟨h1, h2⟩ := h
    cases s with
    | nil => exact absurd rfl h1
    | cons c r =>
      have := h2 c (by simp)
      exact ⟨c, r, rfl, (digit this).1, .inl (.inr this), (digit this).2⟩
  | number =>
    obtain ⟨c, r, rfl, h1, _⟩ := h
    exact ⟨c, r, rfl, (digit h1).1, .inl (.inr h1), (digit h1).2⟩
  | string =>
    obtain ⟨body, rfl, _⟩ := h
    exact ⟨'"', _, rfl, by decide, .inl (.inl (by simp)), by decide, by decide⟩
  | _ => cases hw

/-- The text of a word ends at a space. -/
theorem tok_stop (hstd : Standard b env) (tk : Token) (hw : isWord tk = true) (r : Str) : TokStop env tk (' ' :: r) := by
  cases tk with
  | ident => exact hstd.stops
  | keyword => exact hstd.stops
  | index => exact (by decide : isDigit ' ' = false)
  | number => exact (by decide : isNumberChar ' ' = false)
  | string => trivial
  | _ => cases hw

theorem mark_text {tk : Token} (h : isMark tk = true) : TokText env tk (mark tk) := by cases tk <;> first | rfl | cases h

theorem mark_stop {tk : Token} (h : isMark tk = true) (r : Str) : TokStop env tk r := by
  cases tk <;> first | trivial | (cases r <;> trivial) | cases h

theorem mark_fits {tk : Token} (h : isMark tk = true) (p : Bool) : TokFits p tk := by cases tk <;> first | trivial | cases h

theorem mark_start {tk : Token} (h : isMark tk = true) (r : Str) :
    ∃ c x r', mark tk ++ ' ' :: r = c :: x :: r' ∧ ((c = '-' ∧ x = ' ') ∨ (c ≠ '-' ∧ (Punct c ∨ isIdentStart env c = true))) ∧ c ≠ ' ' ∧ c ≠ '\t' := by
  cases tk with
  | minus => exact ⟨_, _, _, rfl, .inl ⟨rfl, rfl⟩, by decide, by decide⟩
  | dot | questionDot | pipe | comma | colon | plus => exact ⟨_, _, _, rfl, .inr ⟨by decide, .inl (.inl (by simp))⟩, by decide, by decide⟩
  | _ => cases h

theorem saying_word {src : Str} {tk : Token} (h : isWord tk = true) (sp : Span) : saying src (tk, sp) = [.word tk (textAt src sp)] := by
  cases tk <;> first | rfl | cases h

theorem saying_mark {src : Str} {tk : Token} (h : isMark tk = true) (sp : Span) : saying src (tk, sp) = [.sign tk] := by
  cases tk <;> first | rfl | cases h

theorem free_blank (hb : Built b) (hstd : Standard b env) {src pre rest : Str} (hs : src = pre ++ ' ' :: rest) (k : Kind) (j : Nat) :
    ¬ Occurs b.build src k (blen pre) j := by
  rintro ⟨d, hd, hst⟩
  obtain ⟨⟨t, h1⟩, _⟩ := prefix_at hs rfl hst
  cases d with
  | nil => exact build_nonEmpty (built_valid hb) _ hd rfl
  | cons a d =>
    injection h1 with h1
    have := hstd.solid _ hd a (by simp)
    rw [h1] at this
    exact absurd this (by decide)

/-- The delimiters that are written. -/
theorem delims (hstd : Standard b env) : ∃ be ee bb eb, (Kind.beginExpr, be) ∈ b.build ∧ (Kind.endExpr, ee) ∈ b.build ∧
    (Kind.beginBlock, bb) ∈ b.build ∧ (Kind.endBlock, eb) ∈ b.build ∧ (∀ ws, print b (.sign .beginExpr :: ws) = be ++ ' ' :: print b ws) ∧
    (∀ ws, print b (.sign .endExpr :: ws) = ee ++ print b ws) ∧ (∀ ws, print b (.sign .beginBlock :: ws) = bb ++ ' ' :: print b ws) ∧
    (∀ ws, print b (.sign .endBlock :: ws) = eb ++ print b ws) := by
  obtain ⟨⟨be, ee⟩, h1⟩ := hstd.expr
  obtain ⟨⟨bb, eb⟩, h2⟩ := hstd.block
  refine ⟨be, ee, bb, eb, ?_, ?_, ?_, ?_, ?_, ?_, ?_, ?_⟩
  all_goals simp [SyntaxBuilder.build, print, spell, h1, h2]

theorem print_mark {tk : Token} (h : isMark tk = true) (ws : List Item) : print b (.sign tk :: ws) = mark tk ++ ' ' :: print b ws := by
  cases tk <;> first | rfl | cases h

theorem print_word (tk : Token) (s : Str) (ws : List Item) : print b (.word tk s :: ws) = s ++ ' ' :: print b ws := by
  simp [print, spell]

/-- No delimiter comes about by accident, and if there are comments they can be written. -/
def Fit (b : SyntaxBuilder) (ws : List Item) : Prop := NoAccident b ws ∧ (.sign .beginComment ∈ ws → ∃ p, b.comment = some p)

theorem Fit.tail {w : Item} {ws : List Item} (h : Fit b (w :: ws)) : Fit b ws :=
  ⟨noAccident_tail h.1, fun hm => h.2 (List.mem_cons_of_mem _ hm)⟩

theorem said_cons {i : Item} (h : i ≠ .sign .beginComment) (ws : List Item) : said (i :: ws) = i :: said ws := by
  simp [said, h]

theorem said_comment (ws : List Item) : said (.sign .beginComment :: ws) = said ws := by simp [said]

/-- How the rest of a text is read, given what it says and where the reader is. -/
def Reading (b : SyntaxBuilder) (env : Env) (src : Str) : Option (Token × Bool) → List Item → Prop
  | none, ws => ∀ pre t, src = pre ++ (t ++ print b ws) → Free b t (print b ws) → Fit b ws →
      ∃ ts, Layout b.build env src (.text false) (blen pre) ts ∧ words src ts = t.map .char ++ said ws
  | some (c, p), ws => c = .endExpr ∨ c = .endBlock → ∀ pre, src = pre ++ ' ' :: print b ws → Fit b ws →
      ∃ ts, Layout b.build env src (.tag c p) (blen pre) ts ∧ words src ts = said ws

/-- A word or mark after a space, inside a tag. -/
theorem layout_item (hb : Built b) (hstd : Standard b env) {src pre s rest : Str} {tk c : Token} {p : Bool} {ts : List Tok}
    (hs : src = pre ++ ' ' :: (s ++ ' ' :: rest)) (ht : TokText env tk s) (hr : tk ≠ .whitespace) (hf : TokFits p tk)
    (hstop : TokStop env tk (' ' :: rest))
    (hst : ∃ c x r', s ++ ' ' :: rest = c :: x :: r' ∧ ((c = '-' ∧ x = ' ') ∨ (c ≠ '-' ∧ (Punct c ∨ isIdentStart env c = true))) ∧ c ≠ ' ' ∧ c ≠ '\t')
    (hl : Layout b.build env src (.tag c (nextPath p tk)) (blen (pre ++ ' ' :: s)) ts) :
    Layout b.build env src (.tag c p) (blen pre) ((tk, ⟨blen (pre ++ [' ']), blen (pre ++ [' ']) + blen s⟩) :: ts) := by
  obtain ⟨a, x, r', e, h1, h2⟩ := hst
  have hs' : src = (pre ++ [' ']) ++ (s ++ ' ' :: rest) := by rw [hs]; simp
  refine .blank (t := [' ']) (free_blank hb hstd hs) ⟨_, dropB_eq_some.mpr ⟨pre, hs, rfl⟩, ⟨by simp, by simp⟩, ?_, trivial⟩ ?_
  · show TokStop env .whitespace (s ++ ' ' :: rest)
    rw [e]; exact h2
  · have e1 : blen pre + blen [' '] = blen (pre ++ [' ']) := by simp
    rw [e1]
    refine .token (free_of hb hstd (by rw [hs', e]) h1) ⟨_, dropB_eq_some.mpr ⟨_, hs', rfl⟩, ht, hstop, hf⟩ hr ?_
    have e2 : blen (pre ++ [' ']) + blen s = blen (pre ++ ' ' :: s) := by simp [Nat.add_assoc]
    rw [e2]
    exact hl

theorem layout_close (hb : Built b) (hstd : Standard b env) {src pre d rest : Str} {k : Kind} {p : Bool} {ts : List Tok}
    (hs : src = pre ++ ' ' :: (d ++ rest)) (hk : (k, d) ∈ b.build) (he : isEnd k = true) (ht : isTrim k = false)
    (hl : Layout b.build env src (.text false) (blen (pre ++ ' ' :: d)) ts) :
    Layout b.build env src (.tag (tokenOf k) p) (blen pre) ((tokenOf k, ⟨blen (pre ++ [' ']), blen (pre ++ [' ']) + blen d⟩) :: ts) := by
  have hs' : src = (pre ++ [' ']) ++ (d ++ rest) := by rw [hs]; simp
  refine .blank (t := [' ']) (free_blank hb hstd hs) ⟨_, dropB_eq_some.mpr ⟨pre, hs, rfl⟩, ⟨by simp, by simp⟩, ?_, trivial⟩ ?_
  · cases d with
    | nil => exact absurd rfl (build_nonEmpty (built_valid hb) _ hk)
    | cons a d =>
      have := hstd.solid _ hk a (by simp)
      refine ⟨?_, ?_⟩ <;> (rintro rfl; exact absurd this (by decide))
  · have e1 : blen pre + blen [' '] = blen (pre ++ [' ']) := by simp
    rw [e1]
    refine .close (close_of hstd hs' hk he ht) rfl ?_
    have e2 : blen (pre ++ [' ']) + blen d = blen (pre ++ ' ' :: d) := by simp [Nat.add_assoc]
    rw [ht, e2]
    exact hl

theorem layout_open (hstd : Standard b env) {src pre t d rest : Str} {k : Kind} {ts : List Tok}
    (hs : src = pre ++ (t ++ (d ++ ' ' :: rest))) (hk : (k, d) ∈ b.build) (he : isEnd k = false) (ht : isTrim k = false)
    (hf : Free b t (d ++ ' ' :: rest)) (hr : tokenOf k ≠ .beginComment)
    (hl : Layout b.build env src (inside k) (blen (pre ++ (t ++ d))) ts) :
    ∃ ts', Layout b.build env src (.text false) (blen pre) ts' ∧
      words src ts' = t.map .char ++ (saying src (tokenOf k, ⟨blen (pre ++ t), blen (pre ++ t) + blen d⟩) ++ words src ts) := by
  have hs' : src = (pre ++ t) ++ (d ++ ' ' :: rest) := by rw [hs]; simp
  have hd := open_of hstd hs' hk
  have e2 : blen (pre ++ t) + blen d = blen (pre ++ (t ++ d)) := by simp [Nat.add_assoc]
  by_cases h0 : t = []
  · subst h0
    refine ⟨_, .tag (k := k) (n := blen (pre ++ ([] ++ d))) ?_ he hl, ?_⟩
    · rw [← e2]; simpa using hd
    · rw [Diag.words_cons hr, ← e2]; simp
  · refine ⟨_, .textTag (k := k) (j := blen (pre ++ t)) (n := blen (pre ++ (t ++ d))) ?_ he (slice_eq_some.mpr ⟨pre, _, hs, rfl, by simp⟩) h0
      (by rw [ht]; exact trimmed_id t) hl, ?_⟩
    · rw [← e2]
      refine ⟨by simp, fun k' i' j' hi ho => ?_, hd.longest, hd.first⟩
      have := free_at hs hf hi ho
      simpa using this
    · rw [Diag.words_cons (by simp), Diag.words_cons hr, ← e2]
      have := textAt_of hs
      simp only [blen, Nat.add_zero, saying]
      rw [this]

theorem delims_comment {bc ec : Str} (h : b.comment = some (bc, ec)) :
    (Kind.beginCommentTrim, bc ++ ['-']) ∈ b.build ∧ (Kind.endComment, ec) ∈ b.build := by
  simp [SyntaxBuilder.build, h]

/-- A space and a comment after text that ends in a character that is not whitespace. -/
theorem layout_comment (hb : Built b) (hstd : Standard b env) {src pre t bc ec rest : Str} {c : Char} {ts : List Tok}
    (hs : src = pre ++ ((t ++ [c]) ++ ' ' :: (bc ++ ' ' :: (ec ++ rest)))) (mb : (Kind.beginCommentTrim, bc) ∈ b.build)
    (me : (Kind.endComment, ec) ∈ b.build) (hw : isWhite c = false) (hf : Free b (t ++ [c]) (' ' :: (bc ++ ' ' :: (ec ++ rest))))
    (hl : Layout b.build env src (.text false) (blen (pre ++ (t ++ [c]) ++ ' ' :: bc ++ ' ' :: ec)) ts) :
    ∃ ts', Layout b.build env src (.text false) (blen pre) ts' ∧ words src ts' = (t ++ [c]).map .char ++ words src ts := by
  have hs1 : src = (pre ++ (t ++ [c]) ++ [' ']) ++ (bc ++ ' ' :: (ec ++ rest)) := by rw [hs]; simp
  have hs2 : src = (pre ++ (t ++ [c]) ++ ' ' :: bc) ++ ' ' :: (ec ++ rest) := by rw [hs]; simp
  have hs3 : src = (pre ++ (t ++ [c]) ++ ' ' :: bc ++ [' ']) ++ (ec ++ rest) := by rw [hs]; simp
  have hd := open_of hstd hs1 mb
  have hf2 : Free b (t ++ [c] ++ [' ']) (bc ++ ' ' :: (ec ++ rest)) := by
    intro p s e hne q hq h
    rcases List.eq_nil_or_concat s with rfl | ⟨s', x, rfl⟩
    · exact hne rfl
    · rw [List.concat_eq_append, ← List.append_assoc] at e
      obtain ⟨e1, e2⟩ := List.append_inj' e rfl
      cases e2
      rw [List.concat_eq_append, List.append_assoc] at h
      cases s' with
      | nil =>
        obtain ⟨z, hz⟩ := h
        cases hq2 : q.2 with
        | nil => exact build_nonEmpty (built_valid hb) _ hq hq2
        | cons y ys =>
          rw [hq2] at hz
          injection hz with hz
          have := hstd.solid q hq y (by rw [hq2]; simp)
          rw [hz] at this
          exact absurd this (by decide)
      | cons y s' => exact hf p (y :: s') e1 (by simp) q hq h
  have lc : Layout b.build env src .comment (blen (pre ++ (t ++ [c]) ++ ' ' :: bc))
      ((.raw, ⟨blen (pre ++ (t ++ [c]) ++ ' ' :: bc), blen (pre ++ (t ++ [c]) ++ ' ' :: bc ++ [' '])⟩) ::
        (.endComment, ⟨blen (pre ++ (t ++ [c]) ++ ' ' :: bc ++ [' ']), blen (pre ++ (t ++ [c]) ++ ' ' :: bc ++ ' ' :: ec)⟩) :: ts) := by
    have hd2 := close_of hstd hs3 me rfl rfl
    have e : blen (pre ++ (t ++ [c]) ++ ' ' :: bc ++ [' ']) + blen ec = blen (pre ++ (t ++ [c]) ++ ' ' :: bc ++ ' ' :: ec) := by
      simp [Nat.add_assoc]
    rw [e] at hd2
    refine .comment (k := .endComment) ⟨by simp, fun k' i' j' hi ho => ?_, hd2.longest, hd2.first⟩ rfl (by simp [Lit.size_space]) hl
    have hfree : Free b [' '] (ec ++ rest) := by
      intro p s e hne q hq h
      have : s = [' '] := by
        cases p with
        | nil => exact e.symm
        | cons x p => simp at e; exact absurd e.2.2 hne
      subst this
      obtain ⟨z, hz⟩ := h
      cases hq2 : q.2 with
      | nil => exact build_nonEmpty (built_valid hb) _ hq hq2
      | cons y ys =>
        rw [hq2] at hz
        injection hz with hz
        have := hstd.solid q hq y (by rw [hq2]; simp)
        rw [hz] at this
        exact absurd this (by decide)
    have := free_at (pre := pre ++ (t ++ [c]) ++ ' ' :: bc) (t := [' ']) (rest := ec ++ rest) (by rw [hs2]; simp) hfree hi ho
    simpa [Nat.add_assoc] using this
  have e2 : blen (pre ++ (t ++ [c]) ++ [' ']) + blen bc = blen (pre ++ (t ++ [c]) ++ ' ' :: bc) := by simp [Nat.add_assoc]
  rw [e2] at hd
  have hs4 : src = pre ++ ((t ++ [c] ++ [' ']) ++ (bc ++ ' ' :: (ec ++ rest))) := by rw [hs]; simp
  have htr : Trimmed false (isTrim .beginCommentTrim) (t ++ [c] ++ [' ']) [] (t ++ [c]) [' '] := by
    refine ⟨by simp, by simp, ?_, fun _ => rfl, ?_, ?_, ?_, by simp⟩
    · intro x hx; simp at hx; subst hx; decide
    · intro h; exact absurd h (by decide)
    · intro h; cases h
    · intro _ v x e
      have := (List.append_inj' e rfl).2
      cases this
      exact hw
  refine ⟨_, .textTag (k := .beginCommentTrim) (j := blen (pre ++ (t ++ [c]) ++ [' '])) (n := blen (pre ++ (t ++ [c]) ++ ' ' :: bc))
    (t := t ++ [c] ++ [' ']) (a := []) (u := t ++ [c]) (b := [' ']) ?_ rfl (slice_eq_some.mpr ⟨pre, _, hs4, rfl, by simp [Nat.add_assoc]⟩) (by simp)
    htr lc, ?_⟩
  · refine ⟨by simp [Nat.add_assoc], fun k' i' j' hi ho => ?_, hd.longest, hd.first⟩
    have := free_at hs4 hf2 hi ho
    simpa [Nat.add_assoc] using this
  · rw [Diag.words_cons (by simp)]
    have := textAt_of (src := src) (pre := pre) (t := t ++ [c]) (rest := ' ' :: (bc ++ ' ' :: (ec ++ rest))) hs
    simp only [blen, Nat.add_zero, saying]
    rw [this]
    rfl

theorem reading (hb : Built b) (hstd : Standard b env) (src : Str) {st : Option (Token × Bool)} {ws : List Item} (h : InPlace env st ws) :
    Reading b env src st ws := by
  obtain ⟨be, ee, bb, eb, m1, m2, m3, m4, e1, e2, e3, e4⟩ := delims hstd
  induction h with
  | nil =>
    intro pre t hs hf _
    have hs1 : src = pre ++ t := by rw [hs]; simp [print]
    by_cases h0 : t = []
    · subst h0
      refine ⟨[], ?_, rfl⟩
      have : blen pre = blen src := by rw [hs1]; simp
      rw [this]
      exact .done
    · refine ⟨_, .textEnd (l := false) (t := t) (a := []) (u := t) ?_ ?_ h0 (trimmed_id t), ?_⟩
      · intro k x y hx ho
        have h1 := free_at hs hf hx ho
        obtain ⟨d, hd, p, q, e, h2, h3⟩ := ho
        have hne : d ≠ [] := build_nonEmpty (built_valid hb) _ hd
        have : blen d ≠ 0 := fun h => hne (blen_eq_zero.mp h)
        have h4 := congrArg blen (hs1.symm.trans e)
        simp at h4
        omega
      · exact slice_eq_some.mpr ⟨pre, [], by rw [hs1]; simp, rfl, by rw [hs1]; simp⟩
      · have := textAt_of (src := src) (pre := pre) (t := t) (rest := []) (by rw [hs1]; simp)
        rw [Diag.words_cons (by simp)]
        simp only [blen, Nat.add_zero, saying]
        rw [this]
        rfl
  | @char c ws _ ih =>
    intro pre t hs hf hn
    obtain ⟨ts, h1, h2⟩ := ih pre (t ++ [c]) (by rw [hs]; simp [print, spell]) (free_push hf hn.1) hn.tail
    exact ⟨ts, h1, by rw [h2, said_cons (by simp)]; simp⟩
  | @comment c ws hw _ ih =>
    intro pre t hs hf hn
    have hf' := free_push hf hn.1
    obtain ⟨⟨bc, ec⟩, hcm⟩ := hn.2 (by simp)
    obtain ⟨mb, me⟩ := delims_comment hcm
    have e0 : ∀ ws, print b (.sign .beginComment :: ws) = ' ' :: ((bc ++ ['-']) ++ ' ' :: (ec ++ print b ws)) := by
      intro ws; simp [print, spell, hcm]
    have hs1 : src = pre ++ ((t ++ [c]) ++ print b (.sign .beginComment :: ws)) := by rw [hs]; simp [print, spell]
    rw [e0] at hs1 hf'
    obtain ⟨ts, h1, h2⟩ := ih (pre ++ (t ++ [c]) ++ ' ' :: (bc ++ ['-']) ++ ' ' :: ec) [] (by rw [hs1]; simp)
      (by intro p s e hs; simp at e; exact absurd e.2 hs) hn.tail.tail
    obtain ⟨ts', h3, h4⟩ := layout_comment hb hstd hs1 mb me hw hf' h1
    exact ⟨ts', h3, by rw [h4, h2, said_cons (by simp), said_comment]; simp⟩
  | @beginExpr ws _ ih =>
    intro pre t hs hf hn
    rw [e1] at hs hf
    obtain ⟨ts, h1, h2⟩ := ih (.inl rfl) (pre ++ (t ++ be)) (by rw [hs]; simp) hn.tail
    obtain ⟨ts', h3, h4⟩ := layout_open hstd hs m1 rfl rfl hf (by simp [tokenOf]) h1
    exact ⟨ts', h3, by rw [h4, h2]; rfl⟩
  | @beginBlock ws _ ih =>
    intro pre t hs hf hn
    rw [e3] at hs hf
    obtain ⟨ts, h1, h2⟩ := ih (.inr rfl) (pre ++ (t ++ bb)) (by rw [hs]; simp) hn.tail
    obtain ⟨ts', h3, h4⟩ := layout_open hstd hs m3 rfl rfl hf (by simp [tokenOf]) h1
    exact ⟨ts', h3, by rw [h4, h2]; rfl⟩
  | @mark c p tk ws hm _ ih =>
    intro hc pre hs hn
    rw [print_mark hm] at hs
    obtain ⟨ts, h1, h2⟩ := ih hc (pre ++ ' ' :: mark tk) (by rw [hs]; simp) hn.tail
    refine ⟨_, layout_item hb hstd hs (mark_text hm) (by rintro rfl; cases hm) (mark_fits hm p) (mark_stop hm _) (mark_start hm _) h1, ?_⟩
    rw [Diag.words_cons (by rintro h; simp only at h; subst h; cases hm), saying_mark hm, h2, said_cons (by rintro h; cases h; cases hm)]; rfl
  | @word c p tk s ws hw ht hf _ ih =>
    intro hc pre hs hn
    rw [print_word] at hs
    obtain ⟨ts, h1, h2⟩ := ih hc (pre ++ ' ' :: s) (by rw [hs]; simp) hn.tail
    have hst := tok_start ht hw
    refine ⟨_, layout_item hb hstd hs ht (by rintro rfl; cases hw) hf (tok_stop hstd tk hw _) ?_ h1, ?_⟩
    · obtain ⟨a, r, rfl, k1, k2, k3⟩ := hst
      cases r with
      | nil => exact ⟨a, ' ', _, rfl, .inr ⟨k1, k2⟩, k3⟩
      | cons x r => exact ⟨a, x, _, rfl, .inr ⟨k1, k2⟩, k3⟩
    · rw [Diag.words_cons (by rintro h; simp only at h; subst h; cases hw), saying_word hw, h2,
        textAt_of (pre := pre ++ [' ']) (t := s) (rest := ' ' :: print b ws) (by rw [hs]; simp)]
      rfl
  | @close c p ws _ ih =>
    intro hc pre hs hn
    rcases hc with rfl | rfl
    · rw [e2] at hs
      obtain ⟨ts, h1, h2⟩ := ih (pre ++ ' ' :: ee) [] (by rw [hs]; simp) (by intro p s e hs; simp at e; exact absurd e.2 hs) hn.tail
      refine ⟨_, layout_close hb hstd hs m2 rfl rfl h1, ?_⟩
      rw [Diag.words_cons (by simp [tokenOf]), h2]; rfl
    · rw [e4] at hs
      obtain ⟨ts, h1, h2⟩ := ih (pre ++ ' ' :: eb) [] (by rw [hs]; simp) (by intro p s e hs; simp at e; exact absurd e.2 hs) hn.tail
      refine ⟨_, layout_close hb hstd hs m4 rfl rfl h1, ?_⟩
      rw [Diag.words_cons (by simp [tokenOf]), h2]; rfl

end Print
end Upon
