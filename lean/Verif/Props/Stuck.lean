import Verif.Proofs.StuckErr
import Verif.Props.Diagnosis
/-
C52: texts that cannot be split into tokens.
-/
namespace Upon
open Spec

variable {b : SyntaxBuilder} {cx : LexCx} {e : Err}

/-- **C52** The lexer returns the tokens `ts` and then fails with `e` exactly when the text has the tokens `ts` up to some place
where it is stuck as `Stuck` describes, and `e` reports that. -/
theorem C52_lexical (s : Setup b cx) (hw : Tidy b.build cx.source) (ts : List Tok) :
    Stops cx ts e ↔ ∃ md o i m sp, Scans b.build cx.env cx.source md o i (.text false) none 0 ts ∧
      Stuck b.build cx.env cx.source o i md m sp ∧ Reports cx m sp e :=
  Lexer.stops_iff (good s hw) ts e

/-- **C52** A text that is stuck somewhere is not a template. -/
theorem C52_rejected (s : Setup b cx) (hw : Tidy b.build cx.source) {md : Mode} {o : Option Span} {i : Nat} {ts : List Tok} {m : String}
    {sp : Span} (h1 : Scans b.build cx.env cx.source md o i (.text false) none 0 ts) (h2 : Stuck b.build cx.env cx.source o i md m sp) :
    ∃ e, compileSource cx = .err e := by
  have g := good s hw
  obtain ⟨e, he⟩ := Diag.stuck_reports g h1 h2
  have hst : Stops cx ts e := (C52_lexical s hw ts).mpr ⟨md, o, i, m, sp, h1, h2, he⟩
  cases hc : compileSource cx with
  | err e => exact ⟨e, rfl⟩
  | ok t =>
    obtain ⟨us, ast, hl, _⟩ := (C09_grammar s hw t).mp hc
    exact (Diag.stops_not_tokens hst ((C06_layout s hw us).mpr hl).1).elim
  | crash =>
    rw [compileSource_eq] at hc
    rcases parseTemplate_spec g with ⟨e, h⟩ | ⟨ast, h⟩
    · rw [h] at hc; cases hc
    · rw [h] at hc; cases hc

/-- **C52** If all before that place is the beginning of a template, or of a template with a tag or comment begun at its end,
then compiling the text gives the error that says so. -/
theorem C52_reported (s : Setup b cx) (hw : Tidy b.build cx.source) {md : Mode} {o : Option Span} {i : Nat} {front part : List Tok}
    {m : String} {sp : Span} (h1 : Scans b.build cx.env cx.source md o i (.text false) none 0 (front ++ part))
    (h2 : Stuck b.build cx.env cx.source o i md m sp)
    (hp : (part = [] ∧ Viable cx.env (words cx.source front)) ∨ InTag cx front part ∨ ∃ next, InComment cx front part next) :
    ∃ e, compileSource cx = .err e ∧ Reports cx m sp e := by
  have g := good s hw
  obtain ⟨e, he⟩ := Diag.stuck_reports g h1 h2
  have hst : Stops cx (front ++ part) e := (C52_lexical s hw _).mpr ⟨md, o, i, m, sp, h1, h2, he⟩
  obtain ⟨e', h'⟩ := C52_rejected s hw h1 h2
  have := Diag.reported g hst hp (C51_diagnosis s hw h')
  subst this
  exact ⟨e', h', he⟩

end Upon
