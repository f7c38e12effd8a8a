import Verif.Spec.Report
import Verif.Model.Display
import Verif.Props.Format
import Verif.Props.Blame
import Verif.Props.Errors
/-
C41: the displayed form of errors.
-/
namespace Upon
open Spec

/-- Text without a newline that begins inside a line stays in it. -/
theorem prefix_line {t x after : Str} (ht : '\n' ∉ t) (ha : ∀ c r, after = c :: r → c = '\n') (h : t <+: x ++ after) : t <+: x := by
  obtain ⟨r, e⟩ := h
  rcases List.append_eq_append_iff.mp e with ⟨y, h1, h2⟩ | ⟨y, h1, h2⟩
  · exact ⟨y, h1.symm⟩
  · cases y with
    | nil => exact ⟨[], by simp [h1]⟩
    | cons c y =>
      have := ha c _ h2
      subst this
      exact absurd (by rw [h1]; simp) ht

/-- Where the offending text stands in its line. -/
theorem place_split {src t line : Str} {m ln col : Nat} (ha : AsciiLines src) (hp : Place src m ln col line) {pre post : Str}
    (e : src = pre ++ (t ++ post)) (hm : blen pre = m) :
    ∃ a b, line = a ++ b ∧ a.length = col ∧ ('\n' ∉ t → t <+: b) := by
  obtain ⟨before, after, e', hb, haf, hl, hc, hm', hcl⟩ := hp
  have al : AsciiLines line := fun c hc => ha c (by rw [e']; simp [hc])
  have ab : AsciiLines before := fun c hc => ha c (by rw [e']; simp [hc])
  have ap : AsciiLines pre := fun c hc => ha c (by rw [e]; simp [hc])
  rw [ascii_blen al] at hcl
  rw [ascii_blen ab] at hm'
  rw [ascii_blen ap] at hm
  refine ⟨line.take col, line.drop col, (List.take_append_drop _ _).symm, by simp [hcl], fun ht => prefix_line ht haf ?_⟩
  have h1 : t ++ post = src.drop m := by rw [e, ← hm]; simp
  have h2 : src.drop m = line.drop col ++ after := by
    rw [e', ← hm', ← List.append_assoc, ← List.drop_drop, List.append_assoc, List.drop_left, List.drop_append]
    rw [show col - line.length = 0 by omega, List.drop_zero]
  rw [← h2, ← h1]
  exact List.prefix_append _ _

theorem width_num (hw : AsciiWidths env) (n : Nat) : env.width (showInt (n : Nat)) = (showInt (n : Nat)).length := by
  apply hw
  intro c hc
  rw [showInt_ofNat] at hc
  have := (numeral_toDigits n).digits c hc
  exact ⟨Char.le_trans (by decide) this.1, Char.le_trans this.2 (by decide)⟩

/-- The layout of the report, for any texts in it. -/
theorem picture_text (num cnum msg name line reason : Str) (col w : Nat) (arrow eq : Str) :
    msg ++ ('\n' :: '\n' :: ' ' :: padRight num.length [] ++ arrow ++ name ++ [':'] ++ num ++ [':'] ++ cnum
    ++ ['\n', ' '] ++ padRight num.length [] ++ [' '] ++ ['|']
    ++ ['\n', ' '] ++ padLeft 0 num ++ [' '] ++ ['|'] ++ [' '] ++ line
    ++ ['\n', ' '] ++ padRight num.length [] ++ [' '] ++ ['|'] ++ [' '] ++ padLeft (col + w) (List.replicate w '^') ++ List.replicate (3 - w) '-'
    ++ ['\n', ' '] ++ padRight num.length [] ++ [' '] ++ ['|']
    ++ ['\n', ' '] ++ padRight num.length [] ++ [' '] ++ ['='] ++ eq ++ reason ++ ['\n']) =
    joined [msg, [], ' ' :: List.replicate num.length ' ' ++ arrow ++ name ++ ':' :: num ++ ':' :: cnum,
      ' ' :: List.replicate num.length ' ' ++ [' ', '|'],
      ' ' :: num ++ [' ', '|', ' '] ++ line,
      ' ' :: List.replicate num.length ' ' ++ [' ', '|', ' '] ++
        (List.replicate col ' ' ++ List.replicate w '^' ++ List.replicate (3 - w) '-'),
      ' ' :: List.replicate num.length ' ' ++ [' ', '|'],
      ' ' :: List.replicate num.length ' ' ++ (' ' :: '=' :: eq) ++ reason, []] := by
  simp only [padLeft, padRight, List.length_replicate, List.length_nil, Nat.sub_zero, Nat.zero_sub,
    List.replicate_zero, List.nil_append, Nat.add_sub_cancel, joined]
  simp only [List.append_assoc, List.cons_append, List.nil_append]

theorem picture (hw : AsciiWidths env) (p : Pretty) (msg reason : Str) (name : Option Str) :
    Picture msg (name.getD "<anonymous>".toList) reason p.ln p.col p.text
      (List.replicate p.col ' ' ++ List.replicate p.width '^' ++ List.replicate (3 - p.width) '-')
      (msg ++ p.withReason env name reason) := by
  have hn := width_num hw (p.ln + 1)
  have h1 : Numeral (p.ln + 1) (showInt (p.ln + 1 : Nat)) := by rw [showInt_ofNat]; exact numeral_toDigits _
  have h2 : Numeral (p.col + 1) (showInt (p.col + 1 : Nat)) := by rw [showInt_ofNat]; exact numeral_toDigits _
  have key := picture_text (showInt (p.ln + 1 : Nat)) (showInt (p.col + 1 : Nat)) msg (name.getD "<anonymous>".toList) p.text reason p.col p.width
    "--> ".toList " reason: ".toList
  refine ⟨showInt (p.ln + 1 : Nat), showInt (p.col + 1 : Nat), List.replicate (showInt (p.ln + 1 : Nat)).length ' ', h1, h2, List.length_replicate,
    fun c h => (List.mem_replicate.mp h).2, ?_⟩
  have e1 : "\n\n ".toList = ['\n', '\n', ' '] := by decide +kernel
  have e2 : "\n ".toList = ['\n', ' '] := by decide +kernel
  have e3 : " ".toList = [' '] := by decide +kernel
  have e4 : ":".toList = [':'] := by decide +kernel
  have e5 : "\n".toList = ['\n'] := by decide +kernel
  have e6 : " |".toList = [' ', '|'] := by decide +kernel
  have e7 : " | ".toList = [' ', '|', ' '] := by decide +kernel
  have e8 : " = reason: ".toList = ' ' :: '=' :: " reason: ".toList := by decide +kernel
  unfold Pretty.withReason
  dsimp only
  rw [hn, e1, e2, e3, e4, e5, e6, e7, e8]
  generalize showInt (p.ln + 1 : Nat) = num at *
  generalize showInt (p.col + 1 : Nat) = cnum at *
  generalize "--> ".toList = arrow at *
  generalize " reason: ".toList = eq at *
  generalize name.getD "<anonymous>".toList = nm at *
  exact key

/-- **C41** In a source of printable ASCII lines the long form of an error located at `t` quotes the line in which `t`
begins and marks it, with its line and column counted from one, the name of the template and the reason. -/
theorem C41_points (hw : AsciiWidths env) {src t : Str} {sp : Span} (ha : AsciiLines src) (hsp : sp.of src = some t)
    (hend : t ≠ [] ∨ ∃ c r, src.reverse = c :: r ∧ c ≠ '\n') {e : Err} (hp : e.pretty = Pretty.build env src sp) {r : String} (hr : e.reason = some r) :
    PointsAt e.kind.message (e.name.getD "<anonymous>".toList) r.toList src sp.m t (e.display env true) := by
  obtain ⟨p, h1, h2, h3⟩ := C36_location hw ha hsp hend
  obtain ⟨pre, post, es, hm, hn⟩ := slice_eq_some.mp hsp
  obtain ⟨a, b, e1, e2, e3⟩ := place_split ha h2 es hm
  rw [h1] at hp
  have hd : e.display env true = e.kind.message ++ p.withReason env e.name r.toList := by
    rw [Err.display]; simp only [hr, hp]; rfl
  refine ⟨p.ln, a, b, _, by rw [← e1, e2]; exact h2, by rw [← e1, e2, hd]; exact picture hw p _ _ _, ?_, ?_⟩
  · obtain ⟨w, hw'⟩ : ∃ w, p.width = w + 1 := ⟨p.width - 1, by omega⟩
    exact ⟨List.replicate w '^' ++ List.replicate (3 - p.width) '-', by rw [e2, hw', List.replicate_succ]; simp⟩
  · intro hne ht
    have hat : AsciiLines t := fun c hc => ha c (by rw [es]; simp [hc])
    have hwt : env.width t = t.length := (line_width hw hat ht).trans (ascii_blen hat)
    have hpos : 0 < t.length := List.length_pos_iff.mpr hne
    have : p.width = t.length := by rw [h3, hwt]; omega
    exact ⟨e3 ht, by rw [e2, this]⟩

/-- **C41** So for every error of compilation. -/
theorem C41_compile (cx : LexCx) (hw : AsciiWidths cx.env) (ha : AsciiLines cx.source) {e : Err} (h : compileSource cx = .err e) :
    ∃ (r : String) (sp : Span) (t : Str), e.reason = some r ∧ sp.of cx.source = some t ∧ ((t ≠ [] ∨ ∃ c r, cx.source.reverse = c :: r ∧ c ≠ '\n') →
      PointsAt "invalid syntax".toList "<anonymous>".toList r.toList cx.source sp.m t (e.display cx.env true)) := by
  obtain ⟨reason, sp, p, hp, rfl⟩ := (located_compileSource (cx := cx)).1 e h
  cases hs : sp.of cx.source with
  | none => rw [Pretty.build] at hp; simp only [hs] at hp; cases hp
  | some t => exact ⟨reason, sp, t, rfl, hs, fun hend => C41_points hw ha hs hend hp.symm rfl⟩

/-- **C41** And for every error of a render that has a reason and is not the depth error, if all templates are
lines of printable ASCII. -/
theorem C41_render {env : Env} (hw : AsciiWidths env) {r : Renderer} {sink : Sink σ} (hh : Healthy env r) {T : Tree} (hT : Parsed env r.template T)
    (ha : AsciiLines T.source) (hall : ∀ t' T', Includable (r.cfg env sink) t' → Parsed env t' T' → AsciiLines T'.source)
    {b : SState} (hb : r.base = .ok b) (out : σ) {e : Err} {w : World σ}
    (h : Halts (r.cfg env sink) (initVM r.template r.name b out) (.err e w)) {why : String} (hr : e.reason = some why)
    (hd : e ≠ depthErr (r.cfg env sink).maxIncludeDepth) :
    ∃ (src : Str) (sp : Span) (t : Str), (src = T.source ∨ ∃ t' T', Includable (r.cfg env sink) t' ∧ Parsed env t' T' ∧ T'.source = src) ∧
      sp.of src = some t ∧ ((t ≠ [] ∨ ∃ c r, src.reverse = c :: r ∧ c ≠ '\n') →
      PointsAt e.kind.message (e.name.getD "<anonymous>".toList) why.toList src sp.m t (e.display env true)) := by
  rcases C36_render hh hT hb out h with ⟨_, h1 | h1⟩ | ⟨src, sp, t, p, h1, h2, h3, h4⟩
  · rw [hr] at h1; cases h1
  · exact absurd h1 hd
  · have hs : AsciiLines src := by
      rcases h1 with rfl | ⟨t', T', hi, hp, rfl⟩
      · exact ha
      · exact hall t' T' hi hp
    exact ⟨src, sp, t, h1, h2, fun hend => C41_points hw hs h2 hend (h4.trans h3.symm) hr⟩

/-- **C41** The short form is the kind and the reason, if there is one; it does not depend on the location or name. -/
theorem C41_short (env : Env) (e : Err) :
    (∀ r, e.reason = some r → e.display env false = e.kind.message ++ ": ".toList ++ r.toList) ∧
    (e.reason = none → e.display env false = e.kind.message) := by
  constructor
  · intro r hr
    rw [Err.display]; simp only [hr]
    cases e.pretty <;> rfl
  · intro hr
    rw [Err.display]; simp only [hr]

/-- **C41** Without a location, or without a reason, the long form is the short one. In particular a failed write is
reported without its location, although the error has one. -/
theorem C41_plain (env : Env) (e : Err) (h : e.reason = none ∨ e.pretty = none) : e.display env true = e.display env false := by
  rw [Err.display, Err.display]
  rcases h with h | h
  · simp only [h]
  · cases hr : e.reason <;> simp only [h]

/-- **C41** The kinds are told apart by the first words of the message. -/
theorem C41_kinds (k k' : ErrKind) : k.message = k'.message ↔ k = k' ∨ ∃ x y, k = .io x ∧ k' = .io y := by
  constructor
  · intro h
    have hx : (k.message.length, k.message[1]?) = (k'.message.length, k'.message[1]?) := by rw [h]
    have hs : (ErrKind.syntax.message.length, ErrKind.syntax.message[1]?) = (14, some 'n') := by decide +kernel
    have hr : (ErrKind.render.message.length, ErrKind.render.message[1]?) = (12, some 'e') := by decide +kernel
    have hf : (ErrKind.filter.message.length, ErrKind.filter.message[1]?) = (12, some 'i') := by decide +kernel
    have ho : (ErrKind.format.message.length, ErrKind.format.message[1]?) = (12, some 'o') := by decide +kernel
    have he : (ErrKind.serialize.message.length, ErrKind.serialize.message[1]?) = (15, some 'e') := by decide +kernel
    have hi : ∀ x, ((ErrKind.io x).message.length, (ErrKind.io x).message[1]?) = (8, some 'o') := fun x => by
      show ((ErrKind.io 0).message.length, (ErrKind.io 0).message[1]?) = _
      decide +kernel
    clear h
    cases k <;> cases k' <;> first
      | exact .inl rfl
      | exact .inr ⟨_, _, rfl, rfl⟩
      | (simp only [hs, hr, hf, ho, he, hi] at hx; exact absurd hx (by decide))
  · rintro (rfl | ⟨x, y, rfl, rfl⟩)
    · rfl
    · rfl

/-- **C41** The source of an error is the I/O error, for those of the writer, and there is none for others. -/
theorem C41_source (e : Err) : (∀ x, e.source = some x ↔ e.kind = .io x) ∧ (∀ x, (ioErr x).source = some x) := by
  refine ⟨fun x => ?_, fun _ => rfl⟩
  rw [Err.source]
  cases e.kind <;> simp

/-- **C41** What `{e:?}` shows, as in the message of `unwrap` or of `main`, begins with the long form as a line (or lines) of its own, so it points at the place;
then come the kind and the reason. -/
theorem C41_debug (env : Env) (quote : Str → Str) (io : Nat → Str) (e : Err) :
    ∃ rest, e.debug env quote io = e.display env true ++ '\n' :: rest ∧ (∀ r, e.reason = some r → ∃ a b, rest = a ++ "reason: Some(".toList ++ quote r.toList ++ b) := by
  refine ⟨_, by rw [Err.debug, List.append_assoc]; rfl, fun r hr => ?_⟩
  rw [hr]
  refine ⟨"Error { kind: ".toList ++ e.kind.debug io ++ ", name: ".toList ++ debugOption quote e.name ++ ", ".toList,
    ")".toList ++ ", pretty: ".toList ++ debugOption (Pretty.debug quote) e.pretty ++ " }".toList, ?_⟩
  have : ", reason: ".toList ++ "Some(".toList = ", ".toList ++ "reason: Some(".toList := by decide +kernel
  simp only [debugOption, List.append_assoc]
  rw [← List.append_assoc _ "Some(".toList, this]
  simp only [List.append_assoc]
  rfl

theorem fmtErrorDisplay_some (m : String) : fmtErrorDisplay (some m) = m.toList := by delta fmtErrorDisplay; dsimp only
theorem fmtErrorDisplay_none : fmtErrorDisplay none = ErrKind.format.message := by delta fmtErrorDisplay ErrKind.message; dsimp only

/-- **C41** The short form of a format error shows what the formatter's own error shows: its message after the kind, or just the kind. -/
theorem C41_formatter (env : Env) (e : Err) (h : e.kind = .format) :
    (∀ m, e.reason = some m → e.display env false = "format error: ".toList ++ fmtErrorDisplay (some m)) ∧
    (∀ m, fmtErrorDisplay (some m) = m.toList) ∧ (e.reason = none → e.display env false = fmtErrorDisplay none) := by
  have hk : ErrKind.format.message ++ ": ".toList = "format error: ".toList := by decide +kernel
  refine ⟨fun m hm => ?_, fmtErrorDisplay_some, fun hn => ?_⟩
  · rw [(C41_short env e).1 m hm, h, hk, fmtErrorDisplay_some]
  · rw [(C41_short env e).2 hn, h, fmtErrorDisplay_none]

end Upon
