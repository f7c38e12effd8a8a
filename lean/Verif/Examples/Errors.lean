import Verif.Props.Blame
import Verif.Props.NoCrash
import Verif.Props.Filters
import Verif.Props.Format
import Verif.Props.Errors
import Verif.Examples.Whole
/-
Concrete cases that meet the hypotheses of the theorems of Props/Filters, Props/Format, Props/Blame,
Props/NoCrash and Props/Errors.
-/
namespace Upon.Demo
open Spec

/-! C31 -/

example : Fits asciiEnv .i8 (-128) ∧ ¬ Fits asciiEnv .u8 256 := by unfold Fits; decide
example : Converts asciiEnv (.int .u8) (.integer 255) (.int 255) ∧ ∀ a, ¬ Converts asciiEnv (.int .u8) (.integer 256) a := by
  refine ⟨.int (by unfold Fits; decide), fun a h => ?_⟩
  cases h with
  | int h => exact absurd h (by unfold Fits; decide)
/-- `s | add: m.p` fails, because `s` is not an integer; `m.p | add: m.q` is 3. -/
theorem passes_mq : PassAll asciiEnv src st [.int .i64] [.var (path .direct 5 6 9 10)] [.int 0] :=
  .cons (.borrowed (x := .integer 0) (by decide +kernel) (.int (by unfold Fits; decide))) .nil
example : callFilter asciiEnv add src st ⟨⟨17, 20⟩⟩ (.borrowed (.integer 3)) [.var (path .direct 5 6 9 10)] = .ok (.integer 3) :=
  (C31_call add _ _ _ _).mpr ⟨rfl, .int 3, [.int 0], .int (by unfold Fits; decide), passes_mq, rfl⟩
example : ∀ a, ¬ Converts asciiEnv add.val (.string "hi".toList) a := fun a h => by cases h
example (call) : callFilter asciiEnv { add with call } src st ⟨⟨17, 20⟩⟩ (.borrowed (.string "hi".toList)) [.var (path .direct 5 6 9 10)] =
    callFilter asciiEnv add src st ⟨⟨17, 20⟩⟩ (.borrowed (.string "hi".toList)) [.var (path .direct 5 6 9 10)] :=
  C31_not_called add _ _ _ (by rintro ⟨_, a, _, h, _⟩; cases h) call
example : callFilter asciiEnv add src st ⟨⟨17, 20⟩⟩ (.borrowed (.integer 3)) [] =
    .err ⟨.render, none, some s!"filter expected {1} arguments", some ⟨0, 17, 3, src⟩⟩ :=
  C31_arity add ⟨⟨17, 20⟩⟩ (.borrowed (.integer 3)) [] (by decide) (by decide +kernel)
example : callFilter asciiEnv add src st ⟨⟨17, 20⟩⟩ (.borrowed (.string "hi".toList)) [.var (path .direct 5 6 9 10)] =
    .err ⟨.render, none, some s!"filter expected {"i64"} value, found {"string"}", some ⟨0, 17, 3, src⟩⟩ :=
  C31_bad_value add ⟨⟨17, 20⟩⟩ (.borrowed (.string "hi".toList)) _ rfl (fun a h => by cases h) (by decide +kernel)
/-- The argument `s` is a string. -/
theorem bad_s : FirstBad asciiEnv src st add.args [.var (name 0 1)] (.int .i64) (.var (name 0 1)) := by
  have h : lookupVar asciiEnv src st (name 0 1) = .ok (.borrowed (.string "hi".toList)) := by decide +kernel
  refine .here fun a hp => ?_
  cases hp with
  | borrowed h1 h2 => rw [h] at h1; cases h1; cases h2
  | owned h1 _ h2 => rw [h] at h1; cases h1
example := C31_bad_arg add ⟨⟨17, 20⟩⟩ (.borrowed (.integer 3)) [.var (name 0 1)] rfl (.int (i := 3) (by unfold Fits; decide)) bad_s
  (p := ⟨0, 0, 1, src⟩) (by decide +kernel)
/-- A filter that fails. -/
def failing : Filter := { add with call := fun _ _ => .error "no good" }
example : callFilter asciiEnv failing src st ⟨⟨17, 20⟩⟩ (.borrowed (.integer 3)) [.var (path .direct 5 6 9 10)] = .err (Err.filter "no good") :=
  C31_filter_error failing _ _ _ rfl (.int (i := 3) (by unfold Fits; decide)) passes_mq rfl

/-! C32 -/

example : IntText (-42) "-42".toList := (C32_integer _ _).mp (by decide)
example : Prints asciiEnv (.integer (-42)) "-42".toList := .integer ((C32_integer _ _).mp (by decide))
example (res) : Piece (cfg 64) 0 none src [show_ mp_] st w₀ res ↔ res = .ok ⟨"3".toList, []⟩ :=
  C32_emit (cfg := cfg 64) rfl rfl (live_st (by decide)) (e := mp_) (by unfold mp_; nofun) (by
    simp only [mp_, path, ExprIn, BaseIn, VarIn, MemberIn, SpanIn, List.mem_cons, List.not_mem_nil, or_false, forall_eq, ← Option.isSome_iff_exists]
    decide) (by decide) w₀ (v := .borrowed (.integer 3)) (by decide +kernel) (.integer ((C32_integer _ _).mp (by decide))) res
example (res) : Piece (cfg 64) 0 none src [show_ xs_] st w₀ res ↔ ∃ p, Pretty.build asciiEnv src ⟨2, 4⟩ = some p ∧
    res = .err (Err.attachName ⟨.format, none, some s!"expression evaluated to unformattable type {"list"}", some p⟩ none) w₀ :=
  C32_emit_container (cfg := cfg 64) rfl (live_st (by decide)) (e := xs_) (by unfold xs_; nofun) (by
    simp only [xs_, name, ExprIn, BaseIn, VarIn, MemberIn, SpanIn, List.mem_cons, List.not_mem_nil, or_false, false_implies, implies_true, and_true, ← Option.isSome_iff_exists]
    decide) (by decide) w₀ (v := .borrowed (.list [.integer 5, .integer 6])) (by decide +kernel) trivial res
/-- A string that is printed as it is. -/
example {τ} (sink : Sink τ) (s : τ) : (fmtDefault asciiEnv (.string "hi".toList)).run sink s =
    ((sink.write s "hi".toList).1, if (sink.write s "hi".toList).2 then .ok () else .error none) :=
  C32_one_write sink s (.string "hi".toList) "hi".toList (.inl rfl)
/-- An output with room for two characters. -/
def two : Sink Str := ⟨fun s t => if s.length + t.length ≤ 2 then (s ++ t, true) else (s, false)⟩
/-- The sign fits and the digits do not. -/
example : (fmtDefault asciiEnv (.integer (-512))).run two [] = (['-'], .error none) := by rfl
example := C32_any_output (env := asciiEnv) (v := .integer (-512)) (.integer ((C32_integer _ _).mp rfl)) two []

/-! C35, C36 -/

/-- `main` includes `b`, where `a` is not a map. -/
def wrong : Value := globals [("a", .integer 1), ("xs", .list [])]
theorem wrong_run : run 64 main (some "main".toList) wrong 50 =
    some (.err ⟨.render, some ['b'], some "integer does not support key-based access", some ⟨0, 5, 3, b.source⟩⟩ ⟨"[".toList, []⟩) := by decide +kernel
example (a : AC.Auto) := C35_render (healthy a 64 (T := main) (by simp [all]) (some "main".toList) wrong) (T := main) (parsed (by simp [all])) rfl []
  (halts (a := a) wrong_run)
example (a : AC.Auto) := C36_render (healthy a 64 (T := main) (by simp [all]) (some "main".toList) wrong) (T := main) (parsed (by simp [all])) rfl []
  (halts (a := a) wrong_run)
/-- `d` includes nothing. -/
theorem d_run : run 64 d (some ['d']) (globals []) 10 =
    some (.err ⟨.render, some ['d'], some "not found in this scope", some ⟨0, 3, 1, d.source⟩⟩ ⟨[], []⟩) := by decide +kernel
theorem d_plain : ∀ n x, ¬ ContainsAny d.body n x := by
  intro n x h
  unfold d at h
  generalize hss : [Stmt.inlineExpr _ _] = ss at h
  cases h with
  | head h => cases hss; cases h
  | tail h => cases hss; cases h
example (a : AC.Auto) (e : Err) (w : World Str) (h : Halts ((renderer a 64 d (some ['d']) wrong).cfg asciiEnv stringSink)
    (initVM (code d) (some ['d']) (.scope (.borrowed wrong)) []) (.err e w)) : e.name = some ['d'] ∨ e = Err.maxIncludeDepth 64 :=
  C35_no_include (live_initial ((healthy a 64 (T := d) (by simp [all]) (some ['d']) wrong).all stringSink) (b := .scope (.borrowed wrong)) rfl) d_plain
    ((render_piece (r := renderer a 64 d (some ['d']) wrong) (T := d) (parsed (by simp [all])) _ _ _).mp h)

/-! C14 -/

theorem tame_all {T : Tree} (hT : T ∈ [main, b, d, f, h]) : Tame T.body := by
  simp only [List.mem_cons, List.not_mem_nil, or_false] at hT
  rcases hT with rfl | rfl | rfl | rfl | rfl
  · unfold main; simp [Tame, TameStmt]
  · unfold b; simp [Tame, TameStmt]
  · unfold d; simp [Tame, TameStmt]
  · unfold f; simp [Tame, TameStmt]
  · unfold h; simp [Tame, TameStmt]
/-- `main` never panics, whatever the globals are. -/
example (a : AC.Auto) (dp : Nat) (v : Value) : ∃ res, Halts ((renderer a dp main none v).cfg asciiEnv stringSink)
    (initVM (code main) none (.scope (.borrowed v)) []) res ∧ res ≠ .crash := by
  refine C14_tame (healthy a dp (T := main) (by simp [all]) none v) (T := main) (parsed (by simp [all])) (tame_all (by simp)) ?_ rfl []
  intro t hi
  refine ⟨tree t, tree_parsed t hi, tame_all ?_⟩
  rcases includable hi with ⟨_, h⟩ | ⟨_, h⟩ | ⟨_, h⟩ | ⟨_, h⟩ <;> rw [h] <;> simp

/-- `c` may panic, for the reason `C14_panics` gives: the name `longname`, bytes 13 to 21 of `c`, is not a slice of `d`. -/
example (a : AC.Auto) (v : Value) : Unreadable ((renderer a 64 c none v).cfg asciiEnv stringSink) tree c.source c.body [] := by
  generalize c.source = src
  unfold c
  refine .here (n := ⟨['d'], ⟨35, 38⟩⟩) (js := [] ++ [⟨⟨13, 21⟩⟩]) (i := ⟨⟨13, 21⟩⟩) (w1 := ⟨[], []⟩) (w2 := ⟨[], []⟩) (t := code d)
    (.head (.with_ (.head .here))) (by rfl) (by simp) ?_
  simp only [SpanIn, ← Option.isSome_iff_exists]
  decide +kernel

/-- A renderer for `e` in an engine that has only `f`. -/
def alone (a : AC.Auto) (v : Value) : Renderer := .new ⟨a, fmtDefault asciiEnv, [], [(['f'], code f)], 64⟩ (code e) none (.borrowed v)

/-- It includes `f` inside a `with` block, and never panics: the name `b`, bytes 13 to 14 of `e`, is a slice of `f`. -/
example (a : AC.Auto) (v : Value) : ∃ res, Halts ((alone a v).cfg asciiEnv stringSink)
    (initVM (alone a v).template none (.scope (.borrowed v)) []) res ∧ res ≠ .crash := by
  have hi : ∀ {m t}, BMap.get (alone a v).engine.templates m = some t → t = code f := by
    intro m t hm
    have hm : (m, t) ∈ [(['f'], code f)] := get_some_mem hm
    simp only [List.mem_cons, Prod.mk.injEq, List.not_mem_nil, or_false] at hm
    exact hm.2
  have hi' : ∀ t, Includable ((alone a v).cfg asciiEnv stringSink) t → t = code f := fun t ⟨m, hm⟩ => hi hm
  refine C14_ranges (r := alone a v) (T := e) (tree := fun _ => f) ⟨compiled (by simp [all]), fun m t hm => ?_⟩ (parsed (by simp [all]))
    (fun t ht => ?_) ?_ rfl []
  · rw [hi hm]; exact compiled (by simp [all])
  · rw [hi' t ht]; exact parsed (by simp [all])
  · intro U hU n js hj i hm t ht
    have hf : SpanIn f.source ⟨13, 14⟩ := by
      simp only [SpanIn, ← Option.isSome_iff_exists]
      decide +kernel
    rcases hU with rfl | ⟨t, _, rfl⟩
    · unfold e at hj
      cases hj with
      | tail hj => cases hj
      | head hj =>
        cases hj with
        | with_ hj =>
          cases hj with
          | tail hj => cases hj
          | head hj =>
            cases hj
            simp only [List.nil_append, List.mem_singleton] at hm
            rw [hm]; exact hf
    · unfold f at hj
      cases hj with
      | head hj => cases hj
      | tail hj =>
        cases hj with
        | head hj => cases hj
        | tail hj => cases hj

end Upon.Demo
