import Verif.Proofs.DiagLoop
import Verif.Props.Parsing
/-
C51: what a syntax error says is true, and it points at the first token that cannot be there.
-/
namespace Upon
open Spec

variable {b : SyntaxBuilder} {cx : LexCx} {e : Err}

/-- **C51** The error of a text that does not compile is explained by one of the seven cases of `Diagnosis`. -/
theorem C51_diagnosis (s : Setup b cx) (hw : Tidy b.build cx.source) (h : compileSource cx = .err e) : Diagnosis cx e := by
  have g := good s hw
  rw [compileSource_eq] at h
  by_cases hne : cx.source = []
  · rw [parseTemplate_nil hne] at h; cases h
  cases hp : Parser.parseTemplate cx with
  | ok t => rw [hp] at h; cases h
  | crash => rw [hp] at h; cases h
  | err e' =>
    rw [hp] at h
    cases h
    obtain ⟨ts, r, hy⟩ := Yields.exists g _ Lexer.new (Lexer.Inv.new b.build cx) (Nat.le_refl _)
    exact Diag.parseLoop_diagnosis hne _ ts [] r Parser.new ⟨[], [[]]⟩ e hy (.fresh hy) (stream_ok g hy).1 (form_new g hy) Diag.Hist.nil hp

end Upon
