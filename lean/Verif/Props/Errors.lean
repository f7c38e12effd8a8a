import Verif.Spec.Location
import Verif.Proofs.ParseErr
import Verif.Proofs.LexBasic
/-
C36: error locations. (C35 is in Props/Blame.lean.)
-/
namespace Upon
open Spec
variable {env : Env}

theorem splitLinesAux_line {line : Str} (h : '\n' ∉ line) (rest cur : Str) :
    splitLinesAux (line ++ '\n' :: rest) cur = (cur.reverse ++ line) :: splitLinesAux rest [] := by
  induction line generalizing cur with
  | nil => simp [splitLinesAux]
  | cons c line ih =>
    have hc : c ≠ '\n' := fun e => h (by simp [e])
    rw [List.cons_append, splitLinesAux, if_neg hc, ih (fun hm => h (List.mem_cons_of_mem _ hm))]
    simp

theorem splitLinesAux_last {line : Str} (h : '\n' ∉ line) (cur : Str) :
    splitLinesAux line cur = if cur.reverse ++ line = [] then [] else [cur.reverse ++ line] := by
  induction line generalizing cur with
  | nil =>
    cases cur with
    | nil => rfl
    | cons c cur => rw [splitLinesAux]; simp; simp
  | cons c line ih =>
    have hc : c ≠ '\n' := fun e => h (by simp [e])
    rw [splitLinesAux, if_neg hc, ih (fun hm => h (List.mem_cons_of_mem _ hm))]
    simp

theorem line_cases (s : Str) : '\n' ∉ s ∨ ∃ line rest, s = line ++ '\n' :: rest ∧ '\n' ∉ line := by
  induction s with
  | nil => simp
  | cons c s ih =>
    by_cases hc : c = '\n'
    · exact .inr ⟨[], s, by simp [hc], by simp⟩
    · rcases ih with h | ⟨line, rest, rfl, h⟩
      · left; simp [h]; exact fun e => hc e.symm
      · right
        refine ⟨c :: line, rest, rfl, ?_⟩
        simp [h]; exact fun e => hc e.symm

theorem ascii_blen {s : Str} (h : AsciiLines s) : blen s = s.length := by
  induction s with
  | nil => rfl
  | cons c s ih =>
    have h1 : c.utf8Size = 1 := by
      rcases h c (by simp) with rfl | ⟨_, h2⟩
      · rfl
      · have : c.val.toNat ≤ 126 := h2
        rw [Char.utf8Size]
        split
        · rfl
        · next h3 => exact absurd (show c.val.toNat ≤ 127 by omega) h3
    rw [blen, ih (fun c hc => h c (by simp [hc])), h1, List.length_cons, Nat.add_comm]

theorem line_width (hw : AsciiWidths env) {line : Str} (ha : AsciiLines line) (hn : '\n' ∉ line) :
    env.width line = blen line := by
  rw [ascii_blen ha]
  apply hw
  intro c hc
  rcases ha c hc with rfl | h
  · exact absurd hc hn
  · exact h

theorem loop_place (hw : AsciiWidths env) {offset : Nat} (N : Nat) : ∀ (s before : Str), s.length ≤ N → AsciiLines s →
    (∀ c r, before.reverse = c :: r → c = '\n') → blen before ≤ offset →
    (offset < blen before + blen s ∨ (offset = blen before + blen s ∧ ∃ c r, s.reverse = c :: r ∧ c ≠ '\n')) →
    ∃ i col line, toLnColLoop env offset (before.count '\n') (blen before) (splitLines s) =
        some (before.count '\n' + i, col) ∧
      Place (before ++ s) offset (before.count '\n' + i) col line ∧ (splitLines s)[i]? = some line := by
  induction N with
  | zero =>
    intro s before hN ha hb hm hr
    have : s = [] := List.length_eq_zero_iff.mp (by omega)
    subst this
    rcases hr with h | ⟨_, c, r, e, _⟩
    · simp [blen] at h; omega
    · cases e
  | succ N ih =>
    intro s before hN ha hb hm hr
    rcases line_cases s with hn | ⟨line, rest, rfl, hn⟩
    · have hs : s ≠ [] := by
        rintro rfl
        rcases hr with h | ⟨_, c, r, e, _⟩
        · simp [blen] at h; omega
        · cases e
      have e : splitLines s = [s] := by
        rw [splitLines, splitLinesAux_last hn]; simp [hs]
      have hlen : env.width s = blen s := line_width hw ha hn
      refine ⟨0, offset - blen before, s, ?_, ?_, by rw [e]; rfl⟩
      · rw [e, toLnColLoop]
        rw [hlen, if_pos (by omega)]; rfl
      · refine ⟨before, [], by simp, hb, (fun _ _ h => by cases h), hn, rfl, by omega, by omega⟩
    · have hal : AsciiLines line := fun c hc => ha c (by simp [hc])
      have hlen : env.width line = blen line := line_width hw hal hn
      have e : splitLines (line ++ '\n' :: rest) = line :: splitLines rest := by
        rw [splitLines, splitLinesAux_line hn]; rfl
      by_cases hin : blen before + (blen line + 1) > offset
      · refine ⟨0, offset - blen before, line, ?_, ?_, by rw [e]; rfl⟩
        · rw [e, toLnColLoop]
          rw [hlen, if_pos hin]; rfl
        · refine ⟨before, '\n' :: rest, rfl, hb, (fun c r h => by cases h; rfl), hn, rfl, by omega, by omega⟩
      · have hbl : blen (before ++ (line ++ ['\n'])) = blen before + (blen line + 1) := by
          rw [blen_append, blen_append]; rfl
        have hcnt : (before ++ (line ++ ['\n'])).count '\n' = before.count '\n' + 1 := by
          rw [List.count_append, List.count_append, List.count_eq_zero.mpr hn]; simp
        have hlr : blen (line ++ '\n' :: rest) = blen line + (1 + blen rest) := by
          rw [blen_append, blen]; rfl
        obtain ⟨i, col, l, h1, h2, h3⟩ := ih rest (before ++ (line ++ ['\n']))
          (by simp at hN; omega) (fun c hc => ha c (by simp [hc]))
          (by intro c r h; simp at h; exact h.1.symm)
          (by omega)
          (by
            rcases hr with h | ⟨h, c, r, e, hc⟩
            · left; omega
            · right
              refine ⟨by omega, ?_⟩
              rw [List.reverse_append, List.reverse_cons] at e
              cases hrr : rest.reverse with
              | nil => rw [hrr] at e; simp at e; exact absurd e.1.symm hc
              | cons x t => rw [hrr] at e; simp at e; exact ⟨x, t, rfl, e.1 ▸ hc⟩)
        rw [hcnt, hbl] at h1
        rw [hcnt] at h2
        refine ⟨i + 1, col, l, ?_, ?_, by rw [e]; exact h3⟩
        · rw [e, toLnColLoop]
          rw [hlen, if_neg hin, h1]
          congr 2; omega
        · have : before ++ (line ++ ['\n']) ++ rest = before ++ (line ++ '\n' :: rest) := by simp
          rw [this, Nat.add_assoc, Nat.add_comm 1 i] at h2
          exact h2

/-- **C36** In a source of printable ASCII lines, the location built for a range (unless it is the empty
range after a final newline) is the line and column of its first byte, with the text of that line. -/
theorem C36_location (hw : AsciiWidths env) {src t : Str} {sp : Span} (ha : AsciiLines src) (hsp : sp.of src = some t)
    (hend : t ≠ [] ∨ ∃ c r, src.reverse = c :: r ∧ c ≠ '\n') :
    ∃ p, Pretty.build env src sp = some p ∧ Place src sp.m p.ln p.col p.text ∧ p.width = max 1 (env.width t) := by
  obtain ⟨pre, post, e, hm, hn⟩ := slice_eq_some.mp hsp
  have hb : blen src = blen pre + (blen t + blen post) := by rw [e, blen_append, blen_append]
  obtain ⟨i, col, line, h1, h2, h3⟩ := loop_place (offset := sp.m) hw src.length src [] (Nat.le_refl _) ha (by simp)
    (by simp [blen]) (by
      rw [blen, hb, Nat.zero_add]
      rcases hend with h | h
      · left
        have : 0 < blen t := by
          cases t with
          | nil => exact absurd rfl h
          | cons c t => rw [blen]; have := c.utf8Size_pos; omega
        omega
      · by_cases hlt : sp.m < blen pre + (blen t + blen post)
        · exact .inl hlt
        · exact .inr ⟨by omega, h⟩)
  simp only [List.count_nil, blen, Nat.zero_add, List.nil_append] at h1 h2
  refine ⟨⟨i, col, max 1 (env.width t), line⟩, ?_, h2, rfl⟩
  rw [Pretty.build]
  simp only [toLnCol, h1, hsp, h3, Option.some_or]
  rfl

/-! Columns, for every text and every way to measure it -/

theorem linesOf_aux (N : Nat) : ∀ s : Str, s.length ≤ N → LinesOf s (splitLines s) := by
  induction N with
  | zero =>
    intro s hN
    have : s = [] := List.length_eq_zero_iff.mp (by omega)
    subst this
    exact ⟨(by intro l h; cases h), .inl rfl⟩
  | succ N ih =>
    intro s hN
    rcases line_cases s with hn | ⟨line, rest, rfl, hn⟩
    · rw [splitLines, splitLinesAux_last hn]
      by_cases hs : s = []
      · subst hs; exact ⟨(by intro l h; cases h), .inl rfl⟩
      · rw [if_neg (by simpa using hs)]
        refine ⟨(by intro l h; simp at h; rwa [h]), .inr ⟨by simp, ?_⟩⟩
        cases hr : s.reverse with
        | nil => exact absurd (by simpa using hr) hs
        | cons c r => exact ⟨c, r, rfl, fun e => hn (by rw [← List.mem_reverse, hr, e]; simp)⟩
    · have e : splitLines (line ++ '\n' :: rest) = line :: splitLines rest := by
        rw [splitLines, splitLinesAux_line hn]; rfl
      obtain ⟨h1, h2⟩ := ih rest (by simp at hN; omega)
      rw [e]
      refine ⟨(by intro l h; rcases List.mem_cons.mp h with rfl | h; exact hn; exact h1 l h), ?_⟩
      rcases h2 with h2 | ⟨h2, c, r, h3, h4⟩
      · left; rw [List.flatMap_cons, ← h2]; simp
      · right
        refine ⟨by rw [List.flatMap_cons, ← h2]; simp, c, r ++ '\n' :: line.reverse, by rw [List.reverse_append, List.reverse_cons, h3]; simp, h4⟩

theorem flatMap_lines_inj : ∀ {a b : List Str}, (∀ l ∈ a, '\n' ∉ l) → (∀ l ∈ b, '\n' ∉ l) →
    a.flatMap (· ++ ['\n']) = b.flatMap (· ++ ['\n']) → a = b
  | [], [], _, _, _ => rfl
  | [], y :: b, _, _, h => by simp at h
  | x :: a, [], _, _, h => by simp at h
  | x :: a, y :: b, ha, hb, h => by
    rw [List.flatMap_cons, List.flatMap_cons, List.append_assoc, List.append_assoc] at h
    have hx := ha x (by simp)
    have hy := hb y (by simp)
    have key : x = y := by
      rcases List.append_eq_append_iff.mp h with ⟨z, h3, h4⟩ | ⟨z, h3, h4⟩
      · cases z with
        | nil => simpa using h3.symm
        | cons c z => simp at h4; exact absurd (by rw [h3, ← h4.1]; simp) hy
      · cases z with
        | nil => simpa using h3
        | cons c z => simp at h4; exact absurd (by rw [h3, ← h4.1]; simp) hx
    subst key
    have := List.append_cancel_left h
    rw [flatMap_lines_inj (fun l h => ha l (by simp [h])) (fun l h => hb l (by simp [h])) (List.append_cancel_left this)]

/-- **C36** A source has one list of lines. -/
theorem C36_lines {src : Str} {a b : List Str} (ha : LinesOf src a) (hb : LinesOf src b) : a = b := by
  have last : ∀ (l : List Str) c r, (l.flatMap (· ++ ['\n'])).reverse = c :: r → c = '\n' := by
    intro l c r h
    rcases List.eq_nil_or_concat l with rfl | ⟨l, x, rfl⟩
    · cases h
    · simp at h; exact h.1.symm
  obtain ⟨ha, h1⟩ := ha
  obtain ⟨hb, h2⟩ := hb
  apply flatMap_lines_inj ha hb
  rcases h1 with h1 | ⟨h1, c, r, h3, h4⟩ <;> rcases h2 with h2 | ⟨h2, c', r', h3', h4'⟩
  · rw [← h1, ← h2]
  · exact absurd (last a c' r' (by rw [← h1]; exact h3')) h4'
  · exact absurd (last b c r (by rw [← h2]; exact h3)) h4
  · rw [← h1, ← h2]

theorem loop_counted (env : Env) (m : Nat) : ∀ (ls before : List Str), columns env before ≤ m →
    match toLnColLoop env m before.length (columns env before) ls with
    | some (ln, col) => ∃ mid line after, ls = mid ++ line :: after ∧ before.length + mid.length = ln ∧
        columns env (before ++ mid) + col = m ∧ col ≤ env.width line
    | none => columns env (before ++ ls) ≤ m
  | [], before, h => by simpa [toLnColLoop] using h
  | l :: ls, before, h => by
    rw [toLnColLoop]
    by_cases hin : columns env before + (env.width l + 1) > m
    · rw [if_pos hin]
      exact ⟨[], l, ls, rfl, rfl, by simp; omega, by omega⟩
    · rw [if_neg hin]
      have e1 : columns env (before ++ [l]) = columns env before + (env.width l + 1) := by simp [columns]
      have := loop_counted env m ls (before ++ [l]) (by omega)
      rw [e1, List.length_append, List.length_singleton] at this
      cases ho : toLnColLoop env m (before.length + 1) (columns env before + (env.width l + 1)) ls with
      | none => rw [ho] at this; simpa using this
      | some p =>
        rw [ho] at this
        obtain ⟨mid, line, after, h1, h2, h3, h4⟩ := this
        exact ⟨l :: mid, line, after, by rw [h1]; rfl, by simp; omega, by simpa using h3, h4⟩

/-- **C36** For any text and any way to measure it, the location built for a range takes the number of bytes before the range for a number of
columns, and is where that many columns lead. -/
theorem C36_columns {src t : Str} {sp : Span} {lines : List Str} (hl : LinesOf src lines) (h0 : src ≠ []) (hsp : sp.of src = some t) :
    ∃ p, Pretty.build env src sp = some p ∧ p.width = max 1 (env.width t) ∧ Counted env lines sp.m p.ln p.col p.text := by
  obtain rfl := C36_lines hl (linesOf_aux _ src (Nat.le_refl _))
  have hne : splitLines src ≠ [] := by
    intro h
    rw [h] at hl
    rcases hl.2 with h | ⟨h, _⟩
    · exact h0 h
    · simp at h
  have hk := loop_counted env sp.m (splitLines src) [] (Nat.zero_le _)
  rw [show columns env [] = 0 from rfl, List.length_nil] at hk
  rw [Pretty.build]
  simp only [toLnCol, hsp]
  cases ho : toLnColLoop env sp.m 0 0 (splitLines src) with
  | some p =>
    obtain ⟨ln, col⟩ := p
    rw [ho] at hk
    obtain ⟨mid, line, after, h1, h2, h3, h4⟩ := hk
    have hg : (splitLines src)[ln]? = some line := by
      rw [h1, ← h2]; simp
    refine ⟨⟨ln, col, max 1 (env.width t), line⟩, ?_, rfl, .inl ⟨mid, after, h1, by simpa using h2, by simpa using h3, h4⟩⟩
    simp only [hg]; rfl
  | none =>
    rw [ho] at hk
    obtain ⟨before, line, hc⟩ : ∃ before line, splitLines src = before ++ [line] := by
      rcases List.eq_nil_or_concat (splitLines src) with h | ⟨b, l, h⟩
      · exact absurd h hne
      · exact ⟨b, l, by rw [h]; simp⟩
    refine ⟨⟨(splitLines src).length, env.width line, max 1 (env.width t), line⟩, ?_, rfl, .inr ⟨before, hc, hk, rfl, rfl⟩⟩
    have hg : (splitLines src)[(splitLines src).length]? = none := by simp
    simp only [hg]
    rw [hc]
    simp

/-- **C36** In printable ASCII the one place that `C36_location` leaves out, the empty range after a final newline, is reported as the end of
the last line, but with the line number after it. -/
theorem C36_end (hw : AsciiWidths env) {src line : Str} {sp : Span} {before : List Str} (ha : AsciiLines src)
    (hl : src = (before ++ [line]).flatMap (· ++ ['\n'])) (hn : ∀ l ∈ before ++ [line], '\n' ∉ l) (hsp : sp.of src = some []) (hm : sp.m = blen src) :
    Pretty.build env src sp = some ⟨before.length + 1, blen line, max 1 (env.width []), line⟩ := by
  have h0 : src ≠ [] := by rw [hl]; simp
  have hcol : ∀ ls : List Str, (∀ l ∈ ls, '\n' ∉ l ∧ AsciiLines l) → columns env ls = blen (ls.flatMap (· ++ ['\n'])) := by
    intro ls h
    induction ls with
    | nil => rfl
    | cons l ls ih =>
      have e1 := line_width hw (h l (by simp)).2 (h l (by simp)).1
      have e2 := ih fun l hl => h l (by simp [hl])
      rw [List.flatMap_cons, blen_append, blen_append, ← e2]
      simp [columns, blen, e1]
      rfl
  have hal : ∀ l ∈ before ++ [line], '\n' ∉ l ∧ AsciiLines l := fun l h => ⟨hn l h, fun c hc => ha c (by
    rw [hl]; exact List.mem_flatMap.mpr ⟨l, h, by simp [hc]⟩)⟩
  obtain ⟨p, h1, h2, h3⟩ := C36_columns (env := env) (lines := before ++ [line]) ⟨hn, .inl hl⟩ h0 hsp
  rw [h1]
  rcases h3 with ⟨b, a, e1, e2, e3, e4⟩ | ⟨b, e1, e2, e3, e4⟩
  · exfalso
    have hc := hcol _ hal
    rw [← hl, ← hm, e1] at hc
    simp [columns] at hc e3
    omega
  · obtain ⟨_, e5⟩ := List.append_inj' e1 rfl
    have e5 : line = p.text := by simpa using e5
    obtain ⟨ln, col, w, text⟩ := p
    dsimp only at h2 e3 e4 e5
    subst e5
    rw [e3, e4, h2, line_width hw (hal line (by simp)).2 (hal line (by simp)).1]
    simp

/-- A place has one line and column. -/
theorem C36_unique {src : Str} {m ln ln' col col' : Nat} {line line' : Str} (h : Place src m ln col line)
    (h' : Place src m ln' col' line') : ln = ln' ∧ col = col' ∧ line = line' := by
  have key : ∀ {b a l b' a' l' : Str} {c c' : Nat}, b ++ (l ++ a) = b' ++ (l' ++ a') →
      (∀ c r, b'.reverse = c :: r → c = '\n') → '\n' ∉ l → blen b + c = blen b' + c' → c ≤ blen l →
      (∀ c r, a = c :: r → c = '\n') → blen b' ≤ blen b := by
    intro b a l b' a' l' c c' e hb' hl hc hcl ha
    refine Nat.le_of_not_lt fun hlt => ?_
    have hlt' : b.length < b'.length := by
      refine Nat.lt_of_not_le fun hle => ?_
      have := List.append_eq_append_iff.mp e
      rcases this with ⟨x, h1, h2⟩ | ⟨x, h1, h2⟩
      · have : x = [] := by
          have := congrArg List.length h1
          simp at this
          exact List.length_eq_zero_iff.mp (by omega)
        subst this
        simp at h1
        rw [h1] at hlt; omega
      · rw [h1, blen_append] at hlt; omega
    rcases List.append_eq_append_iff.mp e with ⟨x, h1, h2⟩ | ⟨x, h1, h2⟩
    · -- b' = b ++ x, l ++ a = x ++ (l' ++ a')
      have hx : x ≠ [] := by
        rintro rfl
        simp at h1; rw [h1] at hlt'; omega
      obtain ⟨x', z, rfl⟩ : ∃ x' z, x = x' ++ [z] := ⟨x.dropLast, x.getLast hx, (List.dropLast_append_getLast hx).symm⟩
      have hz : z = '\n' := hb' z (b ++ x').reverse (by rw [h1]; simp)
      subst hz
      have hbx : blen b' = blen b + (blen x' + 1) := by rw [h1, blen_append, blen_append]; rfl
      rcases List.append_eq_append_iff.mp h2 with ⟨y, h3, h4⟩ | ⟨y, h3, h4⟩
      · -- x' ++ [nl] = l ++ y
        have : blen x' + 1 = blen l + blen y := by
          have := congrArg blen h3
          rw [blen_append, blen_append] at this
          exact this
        have hy : y = [] ∨ 0 < blen y := by
          cases y with
          | nil => exact .inl rfl
          | cons q y => right; rw [blen]; have := q.utf8Size_pos; omega
        rcases hy with rfl | hy
        · simp at h3
          exact hl (by rw [← h3]; simp)
        · omega
      · exact hl (by rw [h3]; simp)
    · have := congrArg List.length h1
      simp at this; omega
  obtain ⟨b, a, e1, hb, ha, hl, hc, hm, hcl⟩ := h
  obtain ⟨b', a', e1', hb', ha', hl', hc', hm', hcl'⟩ := h'
  have h1 := key (e1.symm.trans e1') hb' hl (hm.trans hm'.symm) hcl ha
  have h2 := key (e1'.symm.trans e1) hb hl' (hm'.trans hm.symm) hcl' ha'
  have hbb : blen b = blen b' := by omega
  obtain ⟨rfl, e2⟩ := append_blen_inj (e1.symm.trans e1') hbb
  have hll : line = line' := by
    rcases List.append_eq_append_iff.mp e2 with ⟨x, h3, h4⟩ | ⟨x, h3, h4⟩
    · cases x with
      | nil => simpa using h3.symm
      | cons z x =>
        have := ha z (x ++ a') (by rw [h4]; rfl)
        subst this
        exact absurd (by rw [h3]; simp) hl'
    · cases x with
      | nil => simpa using h3
      | cons z x =>
        have := ha' z (x ++ a) (by rw [h4]; rfl)
        subst this
        exact absurd (by rw [h3]; simp) hl
  exact ⟨hc.symm.trans hc', by omega, hll⟩

/-- **C36** Every compile error has a location, built from a range of the source. -/
theorem C36_compile (cx : LexCx) {e : Err} (h : compileSource cx = .err e) :
    e.kind = .syntax ∧ ∃ sp t p, sp.of cx.source = some t ∧ Pretty.build cx.env cx.source sp = some p ∧ e.pretty = some p := by
  obtain ⟨reason, sp, p, hp, rfl⟩ := (located_compileSource (cx := cx)).1 e h
  refine ⟨rfl, sp, ?_⟩
  cases hs : sp.of cx.source with
  | none => rw [Pretty.build] at hp; simp only [hs] at hp; cases hp
  | some t => exact ⟨t, p, rfl, hp, rfl⟩

/-- **C36** Outside ASCII the location can be wrong: here characters count as one column each (as when the
`unicode` feature is off, and as `unicode_width` counts these), and for the `a` on the second line
(line 1 when counting from 0) the third line is reported. -/
theorem C36_false_unicode (hw : ∀ s, env.width s = s.length) :
    ∃ p, Pretty.build env "éé\na\nb".toList ⟨5, 6⟩ = some p ∧ (⟨5, 6⟩ : Span).of "éé\na\nb".toList = some ['a'] ∧
      p.ln = 2 ∧ Place "éé\na\nb".toList 5 1 0 ['a'] := by
  refine ⟨⟨2, 0, 1, ['b']⟩, ?_, rfl, rfl, "éé\n".toList, "\nb".toList, rfl, ?_, ?_, ?_, rfl, rfl, Nat.zero_le _⟩
  · rw [Pretty.build]
    have h : toLnCol env (splitLines "éé\na\nb".toList) 5 = (2, 0) := by
      show toLnCol env [['é', 'é'], ['a'], ['b']] 5 = _
      simp [toLnCol, toLnColLoop, hw]
    simp only [h]
    simp only [show Span.of ⟨5, 6⟩ "éé\na\nb".toList = some ['a'] from rfl, hw]
    rfl
  · intro c r h; cases h; rfl
  · intro c r h; cases h; rfl
  · decide

example : LinesOf "ab\n\néc".toList ["ab".toList, [], "éc".toList] ∧ LinesOf "ab\n\n".toList ["ab".toList, []] ∧
    (⟨4, 6⟩ : Span).of "ab\n\néc".toList = some ['é'] :=
  ⟨⟨by decide, .inr ⟨by decide, _, _, rfl, by decide⟩⟩, ⟨by decide, .inl (by decide)⟩, rfl⟩

example (hw : AsciiWidths env) : Pretty.build env "a\n{{\n".toList ⟨5, 5⟩ = some ⟨2, 2, max 1 (env.width []), "{{".toList⟩ :=
  C36_end (before := [['a']]) (line := "{{".toList) hw (by show ∀ c ∈ "a\n{{\n".toList, c = '\n' ∨ (' ' ≤ c ∧ c ≤ '~'); decide) (by decide) (by decide) rfl rfl

example : AsciiLines "Hello\n{{ name }}".toList ∧ (⟨9, 13⟩ : Span).of "Hello\n{{ name }}".toList = some "name".toList := by
  refine ⟨?_, rfl⟩
  have : ∀ c ∈ "Hello\n{{ name }}".toList, c = '\n' ∨ (' ' ≤ c ∧ c ≤ '~') := by decide
  exact this

end Upon
