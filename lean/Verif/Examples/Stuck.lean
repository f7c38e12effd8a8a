import Verif.Props.Stuck
import Verif.Examples.Diagnosis
/-
Texts that cannot be split into tokens, one for each case of `Stuck`: the hypotheses of C52 hold of them.
-/
namespace Upon.Demo
open Spec

/-- The tokens the lexer returns before it fails, and its error. -/
def readUntil (cx : LexCx) : Nat → Lexer → Option (List Tok × Err)
  | 0, _ => none
  | fuel + 1, lx =>
    match lx.nextToken cx with
    | .err e => some ([], e)
    | .ok (some t, lx') => (readUntil cx fuel lx').map fun r => (t :: r.1, r.2)
    | _ => none

theorem readUntil_stops {cx : LexCx} {e : Err} : ∀ (fuel : Nat) (lx : Lexer) (ts : List Tok),
    readUntil cx fuel lx = some (ts, e) → ∃ lx', Lexes cx lx ts lx' ∧ lx'.nextToken cx = .err e := by
  intro fuel
  induction fuel with
  | zero => intro lx ts h; cases h
  | succ fuel ih =>
    intro lx ts h
    rw [readUntil] at h
    split at h
    · rename_i e' he; injection h with h; injection h with h1 h2; subst h1 h2; exact ⟨lx, .none, he⟩
    · rename_i t lx' he
      cases hr : readUntil cx fuel lx' with
      | none => rw [hr] at h; cases h
      | some r =>
        rw [hr] at h
        injection h with h; injection h with h1 h2
        obtain ⟨l, h3, h4⟩ := ih lx' r.1 (by rw [hr, ← h2])
        subst h1
        exact ⟨l, .some he h3, h4⟩
    · cases h

/-- A source, the tokens before the place where it is stuck, and the message and byte range of the error. -/
structure Jam where
  source : String
  tokens : List Tok
  message : String
  span : Span

def Jam.holds (a : AC.Auto) (w : Jam) : Bool :=
  match readUntil ⟨asciiEnv, a, w.source.toList⟩ 50 Lexer.new with
  | some (ts, ⟨.syntax, none, some m, some p⟩) =>
    decide (ts = w.tokens) && decide (m = w.message) && decide (Pretty.build asciiEnv w.source.toList w.span = some p)
  | _ => false

/-- One for each case of `Stuck`, in its order. -/
def jams : List Jam :=
  [⟨"{{ a }} %}", [(.beginExpr, ⟨0, 2⟩), (.ident, ⟨3, 4⟩), (.endExpr, ⟨5, 7⟩)], "unexpected end block", ⟨8, 10⟩⟩,
   ⟨"b{{ a {{", [(.raw, ⟨0, 1⟩), (.beginExpr, ⟨1, 3⟩), (.ident, ⟨4, 5⟩)], "unclosed begin expression", ⟨1, 3⟩⟩,
   ⟨"{% if a }}", [(.beginBlock, ⟨0, 2⟩), (.keyword, ⟨3, 5⟩), (.ident, ⟨6, 7⟩)], "unexpected end expression", ⟨8, 10⟩⟩,
   ⟨"{{ a.é", [(.beginExpr, ⟨0, 2⟩), (.ident, ⟨3, 4⟩), (.dot, ⟨4, 5⟩)], "unexpected character", ⟨5, 7⟩⟩,
   ⟨"{{ a?b }}", [(.beginExpr, ⟨0, 2⟩), (.ident, ⟨3, 4⟩)], "unexpected character", ⟨4, 6⟩⟩,
   ⟨"{{ a?", [(.beginExpr, ⟨0, 2⟩), (.ident, ⟨3, 4⟩)], "unexpected character", ⟨4, 5⟩⟩,
   ⟨"{{ \"a\\\" }}\n\"", [(.beginExpr, ⟨0, 2⟩)], "undelimited string", ⟨3, 10⟩⟩,
   ⟨"{# a {%", [(.beginComment, ⟨0, 2⟩)], "unclosed begin comment", ⟨0, 2⟩⟩,
   ⟨"{# a }} #}", [(.beginComment, ⟨0, 2⟩)], "unexpected end expression", ⟨5, 7⟩⟩]

set_option maxRecDepth 100000 in
theorem jams_hold : (AC.new Syn.default).map (fun a => jams.all (Jam.holds a)) = some true := by decide +kernel

theorem jam_stops : ∃ a, AC.new Syn.default = some a ∧ ∀ w ∈ jams, Setup defaultBuilder ⟨asciiEnv, a, w.source.toList⟩ ∧
    ∃ e, Stops ⟨asciiEnv, a, w.source.toList⟩ w.tokens e ∧ Reports ⟨asciiEnv, a, w.source.toList⟩ w.message w.span e := by
  obtain ⟨a, ha, _⟩ := C02_total default_built
  refine ⟨a, ha, fun w hw => ⟨⟨default_built, ha⟩, ?_⟩⟩
  have hc := jams_hold
  rw [show AC.new Syn.default = some a from ha] at hc
  have hk := List.all_eq_true.mp (Option.some.inj hc) _ hw
  unfold Jam.holds at hk
  split at hk
  · rename_i ts m p he
    simp only [Bool.and_eq_true, decide_eq_true_eq] at hk
    obtain ⟨⟨rfl, rfl⟩, hp⟩ := hk
    exact ⟨_, readUntil_stops _ _ _ he, p, hp, rfl⟩
  · cases hk

/-- All of them meet the hypotheses of `C52_rejected`, and the places are those of the errors. -/
example : ∃ a, ∀ w ∈ jams, ∃ md o i m sp e, Scans defaultBuilder.build asciiEnv w.source.toList md o i (.text false) none 0 w.tokens ∧
    Stuck defaultBuilder.build asciiEnv w.source.toList o i md m sp ∧ Reports ⟨asciiEnv, a, w.source.toList⟩ m sp e ∧
    Reports ⟨asciiEnv, a, w.source.toList⟩ w.message w.span e := by
  obtain ⟨a, _, h⟩ := jam_stops
  refine ⟨a, fun w hw => ?_⟩
  obtain ⟨s, e, h1, h2⟩ := h w hw
  obtain ⟨md, o, i, m, sp, k1, k2, k3⟩ := (C52_lexical s (default_tidy _) w.tokens).mp h1
  exact ⟨md, o, i, m, sp, e, k1, k2, k3, h2⟩

/-- The tokens of `b{{ a` are the beginning of a template, so `b{{ a {{` meets the hypotheses of `C52_reported`. -/
example : ∃ a md o i m sp, Setup defaultBuilder ⟨asciiEnv, a, "b{{ a {{".toList⟩ ∧
    Scans defaultBuilder.build asciiEnv "b{{ a {{".toList md o i (.text false) none 0
      ([(.raw, ⟨0, 1⟩)] ++ [(.beginExpr, ⟨1, 3⟩), (.ident, ⟨4, 5⟩)]) ∧
    Stuck defaultBuilder.build asciiEnv "b{{ a {{".toList o i md m sp ∧
    InTag ⟨asciiEnv, a, "b{{ a {{".toList⟩ [(.raw, ⟨0, 1⟩)] [(.beginExpr, ⟨1, 3⟩), (.ident, ⟨4, 5⟩)] := by
  obtain ⟨a, _, h⟩ := jam_stops
  obtain ⟨s, e, h1, h2⟩ := h ⟨"b{{ a {{", [(.raw, ⟨0, 1⟩), (.beginExpr, ⟨1, 3⟩), (.ident, ⟨4, 5⟩)], "unclosed begin expression", ⟨1, 3⟩⟩
    (by simp [jams])
  obtain ⟨md, o, i, m, sp, k1, k2, k3⟩ := (C52_lexical s (default_tidy _) _).mp h1
  have w0 : words "b{{ a {{".toList [(.raw, ⟨0, 1⟩)] = [.char 'b'] := by decide
  have w1 : words "b{{ a {{".toList [(.beginExpr, ⟨1, 3⟩), (.ident, ⟨4, 5⟩)] = [.sign .beginExpr, .word .ident ['a']] := by decide
  have w2 : words "b{{ a {{".toList ([(.raw, ⟨0, 1⟩)] ++ [(.beginExpr, ⟨1, 3⟩), (.ident, ⟨4, 5⟩)]) =
    [.char 'b', .sign .beginExpr, .word .ident ['a']] := by decide
  have hx : ∃ ss, Plain.WStmts asciiEnv [.char 'b', .sign .beginExpr, .word .ident ['a'], .sign .endExpr] ss :=
    ⟨_, .char (.expr (is := [.word .ident ['a']]) ⟨[.word .ident ['a']], _, [], rfl, .var .nil, .nil⟩ .nil)⟩
  obtain ⟨ss, hx⟩ := hx
  refine ⟨a, md, o, i, m, sp, s, k1, k2, ?_, ?_, ?_, Or.inl ?_⟩
  · rw [w0]; exact ⟨_, ss, hx⟩
  · exact ⟨_, _, rfl, Or.inl rfl, by decide⟩
  · rw [w1]; exact ⟨[.char 'b'], [.sign .endExpr], ss, hx⟩
  · rw [w2]; exact ⟨_, ss, hx⟩

end Upon.Demo
