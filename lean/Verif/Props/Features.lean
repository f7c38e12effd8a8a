import Verif.Proofs.FeaturesRender
import Verif.Proofs.FeaturesUp
import Verif.Props.Errors
/-
C56: the feature `unicode`.
-/
namespace Upon
open Spec
variable {env env' : Env} {src : Str}

/-- **C56** Two builds that take the same characters of a text for characters of names compile it to the same template, or report
the same error about the same place of it. -/
theorem C56_compile (e : Engine) (h : Rebuilt env env') (hn : NamesAgree env env' src) :
    SameOutcome env env' (· = src) (e.compile env src) (e.compile env' src) :=
  Feat.compileSource ⟨rfl, rfl, rfl, rfl, rfl, h, hn⟩

theorem rebuilt_plain (env : Env) : Rebuilt env env.plain := ⟨rfl, rfl, rfl, rfl, rfl⟩

theorem ascii_word (c : Char) : isAsciiWord c = (c.isAlphanum || c == '_') := by
  have h : ∀ a b : Char, (decide (a ≤ b)) = (decide (a.val ≤ b.val)) := fun _ _ => rfl
  simp only [isAsciiWord, Char.isAlphanum, Char.isAlpha, Char.isUpper, Char.isLower, Char.isDigit, h]
  have e1 : '0'.val = 48 := rfl
  have e2 : '9'.val = 57 := rfl
  have e3 : 'A'.val = 65 := rfl
  have e4 : 'Z'.val = 90 := rfl
  have e5 : 'a'.val = 97 := rfl
  have e6 : 'z'.val = 122 := rfl
  rw [e1, e2, e3, e4, e5, e6]
  grind

theorem names_plain (ha : AsciiNames env) (hs : Ascii src) : NamesAgree env env.plain src := by
  intro c hc
  obtain ⟨h1, h2⟩ := ha c (hs c hc)
  refine ⟨?_, ?_⟩
  · rw [h2]; exact ascii_word c
  · cases hd : isDigit c with
    | true => exact .inl rfl
    | false =>
      refine .inr ?_
      have e : isIdentStart env.plain c = (c == '_' || isAsciiWord c) := rfl
      rw [e, isIdentStart, h1, ascii_word]
      have : c.isDigit = false := by
        rw [← hd]; rfl
      simp only [Char.isAlphanum, this, Bool.or_false]
      cases c == '_' <;> simp

/-- **C56** With and without the feature `unicode`, a template in ASCII compiles to the same template, or is refused for the same
reason at the same place. -/
theorem C56_ascii (e : Engine) (ha : AsciiNames env) (hs : Ascii src) :
    SameOutcome env env.plain (· = src) (e.compile env src) (e.compile env.plain src) :=
  C56_compile e (rebuilt_plain env) (names_plain ha hs)

/-- **C56** A build with larger tables accepts whatever one with smaller tables accepts, and compiles it to the same template, if
the delimiters start with ASCII characters. -/
theorem C56_accepts {b : SyntaxBuilder} {e : Engine} (s : Setup b ⟨env, e.searcher, src⟩) (hw : Tidy b.build src)
    (hd : ∀ p ∈ b.build, ∀ c r, p.2 = c :: r → c.toNat < 128) (h : Rebuilt env env') (hg : TablesGrow env env') {t : Template}
    (ht : e.compile env src = .ok t) : e.compile env' src = .ok t := by
  have s' : Setup b ⟨env', e.searcher, src⟩ := ⟨s.built, s.searcher⟩
  obtain ⟨ts, ast, h1, h2, h3⟩ := (C09_grammar s hw t).mp ht
  refine (C09_grammar s' hw t).mpr ⟨ts, ast, ?_, Feat.gstmts h h2, h3⟩
  refine Feat.layout_up (build_nonEmpty (built_valid s.built)) ?_ h1
  have punct : ∀ c : Char, Punct c → c.toNat < 128 := by
    intro c hc
    rcases hc with hc | hc
    · simp only [List.mem_cons, List.not_mem_nil, or_false] at hc
      rcases hc with rfl | rfl | rfl | rfl | rfl | rfl | rfl | rfl | rfl | rfl <;> decide
    · simp only [isDigit, Bool.and_eq_true, decide_eq_true_eq] at hc
      have := Char.le_def.mp hc.2
      have h9 : '9'.val.toNat = 57 := rfl
      have : c.val.toNat ≤ '9'.val.toNat := this
      have : c.toNat = c.val.toNat := rfl
      omega
  refine ⟨hg.starts, hg.chars, fun c hc h => ?_, fun c hc h => ?_, fun p hp c r e h => ?_⟩
  · rw [hg.ascii c (punct c hc)]; exact h
  · rw [show isIdentChar env c = true from hg.goesOn c hc] at h; cases h
  · rw [hg.ascii c (hd p hp c r e)]; exact h

theorem grows_plain (ha : AsciiNames env) : TablesGrow env.plain env := by
  have small : ∀ c : Char, isAsciiWord c = true → c.toNat < 128 := by
    intro c h
    simp only [isAsciiWord, Bool.or_eq_true, Bool.and_eq_true, decide_eq_true_eq, beq_iff_eq] at h
    have le : ∀ a b : Char, a ≤ b → a.toNat ≤ b.toNat := fun _ _ h => h
    rcases h with ((h | h) | h) | h
    · have := le _ _ h.2; have : '9'.toNat = 57 := rfl; omega
    · have := le _ _ h.2; have : 'Z'.toNat = 90 := rfl; omega
    · have := le _ _ h.2; have : 'z'.toNat = 122 := rfl; omega
    · subst h; decide
  refine ⟨fun c hd h => ?_, fun c h => ?_, fun c h => ?_, fun c h => ?_⟩
  · have hp : (c == '_' || isAsciiWord c) = true := h
    have hc : c.toNat < 128 := by
      cases hu : c == '_' with
      | true => rw [beq_iff_eq.mp hu]; decide
      | false => rw [hu] at hp; exact small c hp
    obtain ⟨h1, _⟩ := ha c hc
    have : c.isDigit = false := by rw [← hd]; rfl
    rw [ascii_word, Char.isAlphanum, this, Bool.or_false] at hp
    rw [isIdentStart, h1]
    cases hu : c == '_' <;> simp_all
  · have hp : isAsciiWord c = true := h
    rw [isIdentChar, (ha c (small c hp)).2, ← ascii_word]; exact hp
  · rw [isIdentChar, (ha c h).2, ← ascii_word]; rfl
  · have hp : (c == '_' || isAsciiWord c) = true := h
    change isAsciiWord c = true
    cases hu : c == '_' with
    | true => rw [beq_iff_eq.mp hu]; decide
    | false => rw [hu] at hp; exact hp

/-- **C56** Turning the feature `unicode` on never breaks a template, whatever text it holds. -/
theorem C56_upgrade {b : SyntaxBuilder} {e : Engine} (s : Setup b ⟨env, e.searcher, src⟩) (hw : Tidy b.build src)
    (hd : ∀ p ∈ b.build, ∀ c r, p.2 = c :: r → c.toNat < 128) (ha : AsciiNames env) {t : Template}
    (ht : e.compile env.plain src = .ok t) : e.compile env src = .ok t :=
  C56_accepts (env := env.plain) (env' := env) (e := e) ⟨s.built, s.searcher⟩ hw hd ⟨rfl, rfl, rfl, rfl, rfl⟩ (grows_plain ha) ht

/-- **C56** A template renders to the same text, or fails for the same reason at the same place, in every build, whatever
characters the template and the data hold. -/
theorem C56_render (r : Renderer) (h : Rebuilt env env') {res : Res Str} (hr : r.ToString env res) :
    ∃ res', r.ToString env' res' ∧ (res' = res ∨ SameOutcome env env' (fun _ => True) res res') := by
  have rn : Feat.Rn (r.cfg env stringSink) (r.cfg env' stringSink) := ⟨rfl, h⟩
  cases hr with
  | globalsErr e hb => exact ⟨_, .globalsErr e hb, .inl rfl⟩
  | globalsCrash hb => exact ⟨_, .globalsCrash hb, .inl rfl⟩
  | ok b w hb hh =>
    obtain ⟨r', h', he⟩ := Feat.halts rn hh
    cases he
    exact ⟨_, .ok b w hb h', .inl rfl⟩
  | err b e w hb hh =>
    obtain ⟨r', h', he⟩ := Feat.halts rn hh
    cases he with
    | err _ he => exact ⟨_, .err b _ w hb h', .inr (.err he)⟩
  | crash b hb hh =>
    obtain ⟨r', h', he⟩ := Feat.halts rn hh
    cases he
    exact ⟨_, .crash b hb h', .inl rfl⟩

/-- **C56** The same for rendering into a writer, which receives the same text in the same pieces. -/
theorem C56_writer {ω : Type} (r : Renderer) (io : IoWriter ω) (w₀ : ω) (h : Rebuilt env env') {res : Res Unit} {w : ω}
    (hr : r.ToWriter env io w₀ res w) :
    ∃ res', r.ToWriter env' io w₀ res' w ∧ (res' = res ∨ SameOutcome env env' (fun _ => True) res res') := by
  have rn : Feat.Rn (r.cfg env (writerSink io)) (r.cfg env' (writerSink io)) := ⟨rfl, h⟩
  cases hr with
  | globalsErr e hb => exact ⟨_, .globalsErr e hb, .inl rfl⟩
  | globalsCrash hb => exact ⟨_, .globalsCrash hb, .inl rfl⟩
  | ok b w hb hh =>
    obtain ⟨r', h', he⟩ := Feat.halts rn hh
    cases he
    exact ⟨_, .ok b w hb h', .inl rfl⟩
  | err b e w hb hh =>
    obtain ⟨r', h', he⟩ := Feat.halts rn hh
    cases he with
    | @err _ e' _ he =>
      refine ⟨_, .err b _ w hb h', ?_⟩
      cases w.out.2 with
      | none => exact .inr (.err he)
      | some x => exact .inl rfl
  | crash b w hb hh =>
    obtain ⟨r', h', he⟩ := Feat.halts rn hh
    cases he
    exact ⟨_, .crash b w hb h', .inl rfl⟩

/-- **C56** A new engine is the same in every build. -/
theorem C56_engine (h : Rebuilt env env') (s : Syn) : Engine.withSyntax env' s = Engine.withSyntax env s := by
  have : fmtDefault env' = fmtDefault env := by
    funext v
    cases v <;> simp only [fmtDefault, h.show_]
  unfold Engine.withSyntax
  rw [this]

/-! Places -/

theorem splitLinesAux_chars (s cur l : Str) (h : l ∈ splitLinesAux s cur) : (∀ c ∈ l, c ∈ s ∨ c ∈ cur) ∧ ('\n' ∉ cur → '\n' ∉ l) := by
  induction s generalizing cur with
  | nil =>
    cases cur with
    | nil => cases h
    | cons d cur =>
      rw [splitLinesAux, List.mem_singleton] at h
      · subst h
        exact ⟨fun c hc => .inr (List.mem_reverse.mp hc), fun hn hl => hn (List.mem_reverse.mp hl)⟩
      · intro h; cases h
  | cons d s ih =>
    rw [splitLinesAux] at h
    split at h
    · rcases List.mem_cons.mp h with rfl | h
      · exact ⟨fun c hc => .inr (List.mem_reverse.mp hc), fun hn hl => hn (List.mem_reverse.mp hl)⟩
      · obtain ⟨h1, h2⟩ := ih [] h
        exact ⟨fun c hc => .inl (by rcases h1 c hc with h | h; exact .tail _ h; cases h), fun _ => h2 (by simp)⟩
    · next hd =>
      obtain ⟨h1, h2⟩ := ih (d :: cur) h
      refine ⟨fun c hc => ?_, fun hn => h2 ?_⟩
      · rcases h1 c hc with h | h
        · exact .inl (.tail _ h)
        · rcases List.mem_cons.mp h with rfl | h
          · exact .inl (.head _)
          · exact .inr h
      · intro h
        rcases List.mem_cons.mp h with h | h
        · exact hd h.symm
        · exact hn h

theorem toLnCol_agree {ls : List Str} (h : ∀ l ∈ ls, env'.width l = env.width l) (o : Nat) : toLnCol env' ls o = toLnCol env ls o := by
  have loop : ∀ (ls : List Str) i n, (∀ l ∈ ls, env'.width l = env.width l) → toLnColLoop env' o i n ls = toLnColLoop env o i n ls := by
    intro ls
    induction ls with
    | nil => intros; rfl
    | cons l ls ih =>
      intro i n h
      simp only [toLnColLoop, h l (by simp)]
      rw [ih _ _ fun l hl => h l (by simp [hl])]
  rw [toLnCol, toLnCol, loop _ _ _ h]
  cases hl : ls.getLast? with
  | none => rfl
  | some l => rw [Option.map_some, Option.map_some, h l (List.mem_of_getLast? hl)]

/-- **C56** Where both builds find the lines of the text equally wide, they describe a place of it by the same line, column and
quoted line, and mark it equally wide if it is in one line. -/
theorem C56_places (h : WidthsAgree env env' src) {sp : Span} {p p' : Pretty} (hp : Pretty.build env src sp = some p)
    (hp' : Pretty.build env' src sp = some p') :
    SamePlace p p' ∧ ∀ t, sp.of src = some t → '\n' ∉ t → p' = p := by
  have hl : ∀ l ∈ splitLines src, env'.width l = env.width l := by
    intro l hl
    obtain ⟨h1, h2⟩ := splitLinesAux_chars src [] l hl
    exact h l (fun c hc => by rcases h1 c hc with h | h; exact h; cases h) (h2 (by simp))
  simp only [Pretty.build, toLnCol_agree hl] at hp hp'
  cases ht : sp.of src with
  | none => rw [ht] at hp; cases hp
  | some t =>
    rw [ht] at hp hp'
    simp only [Option.bind_eq_bind, Option.bind_some] at hp hp'
    generalize toLnCol env (splitLines src) sp.m = q at hp hp'
    cases hx : ((splitLines src)[q.1]?).or (splitLines src).getLast? with
    | none => rw [hx] at hp; cases hp
    | some x =>
      rw [hx] at hp hp'
      cases hp
      cases hp'
      refine ⟨⟨rfl, rfl, rfl⟩, fun t' e hn => ?_⟩
      cases e
      have : env'.width t = env.width t := by
        refine h t (fun c hc => ?_) hn
        obtain ⟨a, b, e, _⟩ := slice_eq_some.mp ht
        rw [e]; simp [hc]
      rw [this]

theorem ascii_widths (hw : AsciiWidths env) (ha : AsciiLines src) : WidthsAgree env env.plain src := by
  intro s hs hn
  refine (hw s fun c hc => ?_).symm
  rcases ha c (hs c hc) with rfl | h
  · exact absurd hc hn
  · exact h

/-- **C56** With and without the feature `unicode`, an error about a template in printable ASCII names the same line and column and
quotes the same line. -/
theorem C56_ascii_places (e : Engine) (ha : AsciiNames env) (hw : AsciiWidths env) (hs : AsciiLines src) {x : Err}
    (hx : e.compile env src = .err x) :
    ∃ x', e.compile env.plain src = .err x' ∧ x'.kind = x.kind ∧ x'.reason = x.reason ∧ x'.name = x.name ∧
      (x.pretty = none → x'.pretty = none) ∧ ∀ p, x.pretty = some p → ∃ p', x'.pretty = some p' ∧ SamePlace p p' := by
  have hA : Ascii src := by
    intro c hc
    rcases hs c hc with rfl | h
    · decide
    · have : c.toNat ≤ '~'.toNat := h.2
      have : '~'.toNat = 126 := rfl
      omega
  have h := C56_ascii e ha hA
  rw [hx] at h
  generalize hy : e.compile env.plain src = y at h
  cases h with
  | err h =>
    refine ⟨_, rfl, h.kind, h.reason, h.name, fun hn => ?_, fun p hp => ?_⟩
    · rcases h.place with ⟨_, h⟩ | ⟨_, _, _, _, _, _, _, h, _⟩
      · exact h
      · rw [hn] at h; cases h
    · rcases h.place with ⟨h, _⟩ | ⟨s, sp, q, q', rfl, h1, h2, h3, h4⟩
      · rw [hp] at h; cases h
      · rw [hp] at h3
        cases h3
        exact ⟨q', h4, (C56_places (ascii_widths hw hs) h1 h2).1⟩

end Upon
