import Verif.Props.Mentions
import Verif.Examples.Whole
/-
A concrete case that meets the hypotheses of the theorems of Props/Mentions: `main` with another
engine, that lacks templates `main` does not need and has others of its own, and other globals.
-/
namespace Upon.Demo
open Spec

/-- An engine without `d` and `f`, with another `h`, and with a formatter `unheard`. -/
def other (a : AC.Auto) (dp : Nat) : Engine := ⟨a, fmtDefault asciiEnv, [("add".toList, .filter add), ("unheard".toList, .formatter twice)],
  [(['b'], code b), (['h'], code f)], dp⟩

/-- Other globals: one more, and `k` as well. -/
def others : Value := globals [("a", globals [("k", .bool true)]), ("k", .none),
  ("xs", .list [globals [("n", .integer 1)], globals [("n", .integer 41)]]), ("y", .integer 7)]

/-- The same template in that engine with those globals. -/
def renderer' (a : AC.Auto) (dp : Nat) : Renderer := .new (other a dp) (code main) none (.borrowed others)

theorem includable' {a : AC.Auto} {dp : Nat} {t : Template} (ht : Includable ((renderer' a dp).cfg asciiEnv stringSink) t) :
    (t = code b ∧ tree t = b) ∨ (t = code f ∧ tree t = f) := by
  obtain ⟨m, hm⟩ := ht
  have hm : (m, t) ∈ [(['b'], code b), (['h'], code f)] := get_some_mem hm
  simp only [List.mem_cons, Prod.mk.injEq, List.not_mem_nil, or_false] at hm
  rcases hm with ⟨_, rfl⟩ | ⟨_, rfl⟩
  · exact .inl ⟨rfl, by decide⟩
  · exact .inr ⟨rfl, by decide⟩

theorem main_includes {n : Str} (h : HasInclude main n) : n = ['b'] := by
  obtain ⟨a, ha, rfl⟩ := h
  unfold main at ha
  simp [stmtsIncludes, stmtIncludes] at ha
  rw [ha]

theorem b_includes {n : Str} (h : HasInclude b n) : False := by
  obtain ⟨a, ha, rfl⟩ := h
  unfold b at ha
  simp [stmtsIncludes, stmtIncludes] at ha

theorem main_needs {a : AC.Auto} {dp : Nat} {U : Tree} (h : Needs ((renderer a dp main none people).cfg asciiEnv stringSink) tree main U) :
    U = main ∨ U = b := by
  induction h with
  | self => exact .inl rfl
  | @registered U n t _ hi _ hg ih =>
    rcases ih with rfl | rfl
    · have e := main_includes hi
      subst e
      have : some (code b) = some t := by rw [← hg]; rfl
      cases this
      exact .inr (by decide)
    · exact (b_includes hi).elim
  | provided _ _ h1 => cases h1

theorem main_names {n : Str} (h : HasName main n) : n = "xs".toList ∨ n = "x".toList := by
  obtain ⟨v, ⟨e, he, hv⟩, hn⟩ := h
  have e1 : stmtsExprs main.body = [.base (.var (name 12 14)), .call ⟨⟨26, 29⟩⟩ (some ⟨[.lit ⟨.integer 1, ⟨31, 32⟩⟩], ⟨29, 32⟩⟩)
        (.base (.var (path .direct 20 21 22 23))) ⟨20, 32⟩] := rfl
  rw [e1] at he
  simp only [List.mem_cons, List.not_mem_nil, or_false] at he
  rcases he with rfl | rfl
  · have : v = name 12 14 := by simpa [exprVars, baseVars] using hv
    subst this
    have : Span.of ⟨12, 14⟩ main.source = some "xs".toList := by decide
    exact .inl (Option.some.inj (hn.symm.trans this))
  · have : v = path .direct 20 21 22 23 := by simpa [exprVars, baseVars] using hv
    subst this
    have : Span.of ⟨20, 21⟩ main.source = some "x".toList := by decide
    exact .inr (Option.some.inj (hn.symm.trans this))

theorem b_names {n : Str} (h : HasName b n) : n = "a".toList := by
  obtain ⟨v, ⟨e, he, hv⟩, hn⟩ := h
  have e1 : stmtsExprs b.body = [.base (.var (path .optional 4 5 7 8))] := rfl
  rw [e1] at he
  simp only [List.mem_cons, List.not_mem_nil, or_false] at he
  subst he
  have : v = path .optional 4 5 7 8 := by simpa [exprVars, baseVars] using hv
  subst this
  have : Span.of ⟨4, 5⟩ b.source = some "a".toList := by decide
  exact Option.some.inj (hn.symm.trans this)

theorem main_calls {n : Str} (h : HasCall main n) : n = "add".toList := by
  obtain ⟨e, he, i, hi, hn⟩ := h
  have e1 : stmtsExprs main.body = [.base (.var (name 12 14)), .call ⟨⟨26, 29⟩⟩ (some ⟨[.lit ⟨.integer 1, ⟨31, 32⟩⟩], ⟨29, 32⟩⟩)
        (.base (.var (path .direct 20 21 22 23))) ⟨20, 32⟩] := rfl
  rw [e1] at he
  simp only [List.mem_cons, List.not_mem_nil, or_false] at he
  rcases he with rfl | rfl
  · simp [exprCalls] at hi
  · have : i = ⟨⟨26, 29⟩⟩ := by simpa [exprCalls] using hi
    subst this
    have : Span.of ⟨26, 29⟩ main.source = some "add".toList := by decide
    exact Option.some.inj (hn.symm.trans this)

theorem b_calls {n : Str} (h : HasCall b n) : False := by
  obtain ⟨e, he, i, hi, hn⟩ := h
  have e1 : stmtsExprs b.body = [.base (.var (path .optional 4 5 7 8))] := rfl
  rw [e1] at he
  simp only [List.mem_cons, List.not_mem_nil, or_false] at he
  subst he
  simp [exprCalls] at hi

theorem main_alike (a : AC.Auto) (dp : Nat) : Alike asciiEnv tree main (renderer a dp main none people) (renderer' a dp) where
  template := rfl
  name := rfl
  formatter := rfl
  provider := rfl
  depth := rfl
  parsed := parsed (by simp [all])
  trees t ht := by
    rcases ht with ht | ht
    · exact tree_parsed t ht
    · rcases includable' ht with ⟨h1, h2⟩ | ⟨h1, h2⟩ <;> rw [h2, h1] <;> exact Demo.parsed (by simp [all])
  mentioned := by
    refine ⟨.scope (.borrowed people), .scope (.borrowed others), rfl, rfl, fun U hU => ?_⟩
    rcases main_needs hU with rfl | rfl
    · refine ⟨.maps fun n hn => ?_, fun n hn => ?_, fun n hn => ?_⟩
      · rcases main_names hn with rfl | rfl <;> rfl
      · rw [main_calls hn]; rfl
      · rw [main_includes hn]; rfl
    · refine ⟨.maps fun n hn => ?_, fun n hn => (b_calls hn).elim, fun n hn => (b_includes hn).elim⟩
      rw [b_names hn]; rfl

example (a : AC.Auto) : (renderer' a 64).ToString asciiEnv (.ok "2,42,[true]".toList) := (C43_to_string (main_alike a 64) _).mp (main_string a)
example (a : AC.Auto) (dp : Nat) (w : List UInt8) : (renderer a dp main none people).ToWriter asciiEnv (disk 6) [] (.err (Err.ofIo 28)) w ↔
    (renderer' a dp).ToWriter asciiEnv (disk 6) [] (.err (Err.ofIo 28)) w := C43_to_writer (main_alike a dp) _ _ _ _
/-- Nothing in the text of `b` is a name that does not stand there. -/
example : ¬ HasName b "zz".toList ∧ ¬ HasCall b "zz".toList := by
  have h : ¬ "zz".toList <:+: b.source := by decide +kernel
  exact ⟨fun h' => h (C43_in_text (.inl h')), fun h' => h (C43_in_text (.inr h'))⟩

end Upon.Demo
