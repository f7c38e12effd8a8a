import Verif.Proofs.Demo
/-
Concrete cases that meet the hypotheses of the theorems of Props/Rendering, Props/Lookup and
Props/Include.
-/
namespace Upon
deriving instance DecidableEq for Cow
deriving instance DecidableEq for Res
namespace Demo
open Spec

/-- A formatter that writes the value twice, with no regard to failures. -/
def twice : Formatter
  | .string s => .write s fun _ => .write s fun _ => .done (.ok ())
  | _ => .done (.error (some "not a string"))

/-- The engine of `Demo` with this formatter registered as `twice`, writing to a string. -/
def cfg (dp : Nat) : RenderCfg Str := ⟨asciiEnv, fmtDefault asciiEnv, [("add".toList, .filter add), ("twice".toList, .formatter twice)],
  [(['b'], code b), (['d'], code d), (['f'], code f), (['h'], code h)], none, dp, stringSink⟩

theorem all_compiled (dp : Nat) : AllCompiled (cfg dp) := by
  rintro t ⟨m, hm⟩
  have hm : (m, t) ∈ [(['b'], code b), (['d'], code d), (['f'], code f), (['h'], code h)] := get_some_mem hm
  simp only [List.mem_cons, Prod.mk.injEq, List.not_mem_nil, or_false] at hm
  rcases hm with ⟨_, rfl⟩ | ⟨_, rfl⟩ | ⟨_, rfl⟩ | ⟨_, rfl⟩ <;> exact compiled (by simp [all])

/-- A map of globals on an otherwise empty stack, with `k` other templates active. -/
theorem live {dp k : Nat} (hk : k + 1 ≤ max 1 dp) (g : Value) : Live (cfg dp) k [.scope (.borrowed g)] :=
  ⟨all_compiled dp, inRound_cons inRound_nil (fun _ h => by cases h), hk⟩

/-- The globals of these examples. -/
def vals : Value := globals [("m", globals [("p", .integer 3), ("q", .integer 0)]), ("s", .string "hi".toList), ("xs", .list [.integer 5, .integer 6])]

/-- The stack they are on. -/
def st : Stack := [.scope (.borrowed vals)]

/-- The text of these examples, and names in it. -/
def src : Str := "s xs m p q x k v add twice loop index nope".toList
def s_ : Expr := .base (.var (name 0 1))
def xs_ : Expr := .base (.var (name 2 4))
def m_ : Expr := .base (.var (name 5 6))
def mp_ : Expr := .base (.var (path .direct 5 6 7 8))
def mq_ : Expr := .base (.var (path .direct 5 6 9 10))
def x_ : Expr := .base (.var (name 11 12))
def k_ : Expr := .base (.var (name 13 14))
def v_ : Expr := .base (.var (name 15 16))
def nope_ : Expr := .base (.var (name 38 42))
def show_ (e : Expr) : Stmt := .inlineExpr e e.span
def w₀ : World Str := ⟨[], []⟩
def said (s : String) : RunRes Str := .ok ⟨s.toList, []⟩

theorem live_st {dp k : Nat} (hk : k + 1 ≤ max 1 dp) : Live (cfg dp) k st := live hk vals

/-- Run a piece. -/
def piece (dp k : Nat) (nm : Option Str) (src : Str) (ss : List Stmt) (st : Stack) (w : World Str) (n : Nat) : Option (RunRes Str) :=
  (Compiler.compileTemplate src ss).bind fun t => Upon.run (cfg dp) n ⟨⟨t, nm, 0, false⟩ :: List.replicate k idle, st, none, w⟩

theorem piece_of {dp k : Nat} {nm : Option Str} {src : Str} {ss : List Stmt} {st : Stack} {w : World Str} {n : Nat} {res : RunRes Str}
    (h : piece dp k nm src ss st w n = some res) : Piece (cfg dp) k nm src ss st w res := by
  obtain ⟨t, h1, h2⟩ := Option.bind_eq_some_iff.mp h
  exact ⟨t, h1, n, h2⟩

/-! C15, C16 -/
example : ∃ res, Piece (cfg 64) 1 none src [show_ s_] st w₀ res ∧ ∀ res', Piece (cfg 64) 1 none src [show_ s_] st w₀ res' → res' = res :=
  C15_piece (live_st (by decide)) _ _
/-- A piece that includes itself again and again ends too. -/
example : ∃ res, Piece (cfg 64) 0 none h.source h.body st w₀ res := (C15_piece (live_st (by decide)) _ _).imp fun _ h => h.1
example : Piece (cfg 64) 0 none src [.raw ⟨2, 6⟩] st w₀ (said "xs m") :=
  (C16_raw (live_st (by decide)) (t := "xs m".toList) (by decide) _ _).mpr (by decide)

/-! C17 -/
example : valueOf (cfg 64) src st mp_ = .ok (.borrowed (.integer 3)) := by decide +kernel
example (res) : Piece (cfg 64) 0 none src [.ifElse false mp_ [show_ s_] none] st w₀ res ↔ Piece (cfg 64) 0 none src [show_ s_] st w₀ res :=
  (C17_if (live_st (by decide)) (v := .borrowed (.integer 3)) (by decide +kernel) _ _ _ _ _).1 (.inl ⟨nofun, rfl⟩)
example (res) : Piece (cfg 64) 0 none src [.ifElse false mq_ [show_ s_] (some [show_ m_])] st w₀ res ↔ Piece (cfg 64) 0 none src [show_ m_] st w₀ res :=
  (C17_if (live_st (by decide)) (v := .borrowed (.integer 0)) (by decide +kernel) _ _ _ _ _).2 (.inl ⟨.zero, rfl⟩)
example (res) : Piece (cfg 64) 0 none src [.ifElse true mq_ [show_ s_] none] st w₀ res ↔ Piece (cfg 64) 0 none src [show_ s_] st w₀ res :=
  (C17_if (live_st (by decide)) (v := .borrowed (.integer 0)) (by decide +kernel) _ _ _ _ _).1 (.inr ⟨.zero, rfl⟩)
example : ∃ e, valueOf (cfg 64) src st nope_ = .err e ∧
    ∀ res, Piece (cfg 64) 0 none src [.ifElse false nope_ [show_ s_] none] st w₀ res ↔ res = .err (e.attachName none) w₀ := by
  have h : ∃ e, valueOf (cfg 64) src st nope_ = .err e := ⟨⟨.render, none, "not found in this scope", some ⟨0, 38, 4, src⟩⟩, by decide +kernel⟩
  obtain ⟨e, h⟩ := h
  exact ⟨e, h, fun res => C17_error (live_st (by decide)) h _ _ _ _ _⟩
/-- The second of three conditions holds. -/
example (res) : Piece (cfg 64) 0 none src ((elseIfs ([(false, mq_, [show_ m_])] ++ (true, mq_, [show_ s_]) :: [(false, nope_, [])]) none).getD []) st w₀ res ↔
    Piece (cfg 64) 0 none src [show_ s_] st w₀ res :=
  (C17_chain (live_st (by decide)) _ (fun _ => Iff.rfl) _ (by
    intro c hc
    simp only [List.mem_singleton] at hc
    subst hc
    have hv : valueOf (cfg 64) src st mq_ = .ok (.borrowed (.integer 0)) := by decide +kernel
    refine ⟨⟨_, hv⟩, ?_⟩
    rintro ⟨v, h1, h2⟩
    rw [hv] at h1; cases h1
    rcases h2 with ⟨h2, _⟩ | ⟨_, h2⟩
    · exact h2 .zero
    · cases h2) none w₀ res).1 _ _ ⟨_, (by decide +kernel : valueOf (cfg 64) src st mq_ = .ok (.borrowed (.integer 0))), .inr ⟨.zero, rfl⟩⟩

/-! C18 -/
example (res) : Piece (cfg 64) 0 none src [.forLoop (.item ⟨⟨11, 12⟩⟩) xs_ [show_ x_]] st w₀ res ↔
    InTurn (fun j => Piece (cfg 64) 0 none src [show_ x_] (.loop (listRound "x".toList false [.integer 5, .integer 6] j) :: st)) 2 0 w₀ res :=
  C18_list (live_st (by decide)) (v := .borrowed (.list [.integer 5, .integer 6])) (by decide +kernel) rfl (by decide) _ _ _
example : Piece (cfg 64) 0 none src [.forLoop (.item ⟨⟨11, 12⟩⟩) xs_ [show_ x_]] st w₀ (said "56") := piece_of (n := 30) (by decide +kernel)
example (res) : Piece (cfg 64) 0 none src [.forLoop (.keyValue ⟨⟨13, 14⟩⟩ ⟨⟨15, 16⟩⟩ ⟨13, 16⟩) m_ [show_ k_, show_ v_]] st w₀ res ↔
    InTurn (fun j => Piece (cfg 64) 0 none src [show_ k_, show_ v_]
      (.loop (mapRound "k".toList "v".toList false [("p".toList, .integer 3), ("q".toList, .integer 0)] j) :: st)) 2 0 w₀ res :=
  C18_map (live_st (by decide)) (v := .borrowed (.map [("p".toList, .integer 3), ("q".toList, .integer 0)])) (by decide +kernel) rfl
    (by decide) (by decide) _ _ _ _
example : Piece (cfg 64) 0 none src [.forLoop (.keyValue ⟨⟨13, 14⟩⟩ ⟨⟨15, 16⟩⟩ ⟨13, 16⟩) m_ [show_ k_, show_ v_]] st w₀ (said "p3q0") :=
  piece_of (n := 40) (by decide +kernel)
example (res) (hp : Piece (cfg 64) 0 none src [.forLoop (.item ⟨⟨11, 12⟩⟩) s_ [show_ x_]] st w₀ res) :
    ∃ err, res = .err err w₀ ∧ err.kind = .render ∧ err.reason = some "expected iterable, but expression evaluated to string" :=
  C18_error (live_st (by decide)) (v := .borrowed (.string "hi".toList)) (by decide +kernel) (by decide) _ (by decide)
    (by simp only [StmtIn, StmtsIn, VarsIn, ExprIn, BaseIn, VarIn, MemberIn, s_, x_, show_, name, SpanIn, Expr.span, BaseExpr.span,
      ← Option.isSome_iff_exists, List.not_mem_nil, false_implies, implies_true, and_true]; decide) _ _ hp

/-! C20 -/
example (res) : Piece (cfg 64) 0 none src ([.with_ xs_ ⟨⟨0, 1⟩⟩ [show_ m_]] ++ [show_ s_]) st w₀ res ↔
    Then (Piece (cfg 64) 0 none src [.with_ xs_ ⟨⟨0, 1⟩⟩ [show_ m_]] st) (Piece (cfg 64) 0 none src [show_ s_] st) w₀ res :=
  C20_restored (live_st (by decide)) _ _ _ _
example (res) : Piece (cfg 64) 0 none src [.with_ xs_ ⟨⟨0, 1⟩⟩ [show_ s_]] st w₀ res ↔
    Piece (cfg 64) 0 none src [show_ s_] (.var ⟨⟨0, 1⟩⟩ (.borrowed (.list [.integer 5, .integer 6])) :: st) w₀ res :=
  C20_with (live_st (by decide)) (by decide +kernel) _ _ _ _
/-- Inside, `s` is the new one; after it the old one. -/
example : Piece (cfg 64) 0 none src [.with_ mp_ ⟨⟨0, 1⟩⟩ [show_ s_], show_ s_] st w₀ (said "3hi") := piece_of (n := 30) (by decide +kernel)
example : lookupVar asciiEnv src (.var ⟨⟨0, 1⟩⟩ (.borrowed (.integer 3)) :: st) (name 0 1) = lookupPath asciiEnv src (.borrowed (.integer 3)) [] :=
  C20_shadow (s := "s".toList) (by decide) (by decide) _ _
example : lookupVar asciiEnv src (.var ⟨⟨0, 1⟩⟩ (.borrowed (.integer 3)) :: st) (name 2 4) = lookupVar asciiEnv src st (name 2 4) :=
  C20_through (a := "xs".toList) (b := "s".toList) (by decide) (by decide) (by decide) _ _
example : lookupVar asciiEnv src (.loop (listRound "x".toList false [.integer 5, .integer 6] 1) :: st) (name 0 1) = lookupVar asciiEnv src st (name 0 1) :=
  C20_loop_through (s := "s".toList) (by decide) ⟨_, rfl, by decide⟩ (by decide) (by decide) _
example : lookupVar asciiEnv src (.loop (mapRound "k".toList "v".toList false [("p".toList, .integer 3)] 0) :: st) (name 0 1) =
    lookupVar asciiEnv src st (name 0 1) :=
  C20_map_through (s := "s".toList) (by decide) ⟨_, rfl, by decide⟩ (by decide) (by decide) (by decide) _

/-! C18, inside the loop -/
example : ∃ c : Cow, c.val = .integer 6 ∧ lookupVar asciiEnv src (.loop (listRound "x".toList false [.integer 5, .integer 6] 1) :: st) (name 11 12) =
    lookupPath asciiEnv src c [] := C18_item (by decide) ⟨_, rfl, by decide⟩ (by decide) (.inl (by simp [name])) _
example : lookupVar asciiEnv src (.loop (listRound "x".toList false [.integer 5, .integer 6] 1) :: st) (path .direct 27 31 32 37) =
    .ok (.owned (.integer 1)) := C18_loop_list (by decide) ⟨_, rfl, by decide⟩ (.index (by decide)) _
example : lookupVar asciiEnv src (.loop (mapRound "k".toList "v".toList false [("p".toList, .integer 3), ("q".toList, .integer 4)] 1) :: st) (path .direct 27 31 32 37) =
    .ok (.owned (.integer 1)) := C18_loop_map (by decide) ⟨_, rfl, by decide⟩ (.index (by decide)) _
example : lookupVar asciiEnv src (.loop (mapRound "k".toList "v".toList false [("p".toList, .integer 3), ("q".toList, .integer 4)] 1) :: st) (name 13 14) =
    .ok (.owned (.string "q".toList)) := C18_key (x := .integer 4) (by decide) ⟨_, rfl, by decide⟩ (by decide) rfl _
example : ∃ c : Cow, c.val = .integer 4 ∧ lookupVar asciiEnv src
    (.loop (mapRound "k".toList "v".toList false [("p".toList, .integer 3), ("q".toList, .integer 4)] 1) :: st) (name 15 16) = lookupPath asciiEnv src c [] :=
  C18_value (key := "q".toList) (by decide) ⟨_, rfl, by decide⟩ (by decide) (by decide) (.inl (by simp [name])) _

/-! C24 -/
theorem proper_vals : Proper vals := by
  simp only [vals, globals, Proper, ProperMap, ProperList, KeysOnce, List.map]; decide
theorem found_m : Found src vals ⟨.direct, .key ⟨⟨5, 6⟩⟩, ⟨5, 6⟩⟩ (.map [("p".toList, .integer 3), ("q".toList, .integer 0)]) :=
  .key (n := "m".toList) (by decide) (by decide) (by simp [globals])
theorem found_s : Found src vals ⟨.direct, .key ⟨⟨0, 1⟩⟩, ⟨0, 1⟩⟩ (.string "hi".toList) :=
  .key (n := "s".toList) (by decide) (by decide) (by simp)
/-- `m.p` from the globals leads to 3; `m.s` fails, `m?.s` leads to none. -/
example : Leads src vals [⟨.direct, .key ⟨⟨5, 6⟩⟩, ⟨5, 6⟩⟩, ⟨.direct, .key ⟨⟨7, 8⟩⟩, ⟨6, 8⟩⟩] (.integer 3) :=
  .step found_m (.step (.key (n := "p".toList) (by decide) (by decide) (by simp)) .nil)
example : Fails src vals [⟨.direct, .key ⟨⟨5, 6⟩⟩, ⟨5, 6⟩⟩, ⟨.direct, .key ⟨⟨0, 1⟩⟩, ⟨6, 8⟩⟩] ⟨.direct, .key ⟨⟨0, 1⟩⟩, ⟨6, 8⟩⟩ "not found in map" :=
  .step found_m (.missing (.key (n := "s".toList) (by decide) (by simp)) rfl)
example : Leads src vals [⟨.direct, .key ⟨⟨5, 6⟩⟩, ⟨5, 6⟩⟩, ⟨.optional, .key ⟨⟨0, 1⟩⟩, ⟨6, 8⟩⟩] .none :=
  .step found_m (.miss (.key (n := "s".toList) (by decide) (by simp)) rfl)
example := C24_path (env := asciiEnv) (src := src) (.borrowed vals) proper_vals (path .direct 5 6 7 8).path (by
  simp only [path, Var.path, List.mem_cons, List.not_mem_nil, or_false, MemberIn, SpanIn, ← Option.isSome_iff_exists]
  rintro m (rfl | rfl) <;> decide) (by decide)
example : ∃ c' : Cow, c'.val = .string "hi".toList ∧ lookupVar asciiEnv src st (name 0 1) = lookupPath asciiEnv src c' [] :=
  C24_global (c := .borrowed vals) found_s proper_vals _
example : lookupVar asciiEnv src st (name 38 42) = lookupVar asciiEnv src [] (name 38 42) :=
  (C24_unknown (c := .borrowed vals) (v := name 38 42) (by
    intro x h
    simp only [name, Cow.val, vals, globals] at h
    cases h with
    | @key _ _ _ _ n _ hn hm _ =>
      have hn' : (⟨38, 42⟩ : Span).of src = some "nope".toList := by decide
      rw [hn'] at hn; cases hn
      revert hm; simp) proper_vals (by simp only [MemberIn, SpanIn, ← Option.isSome_iff_exists]; decide) (by decide) []).1

/-! C21-C23: includes -/
def inc (s : String) : AstString := ⟨s.toList, ⟨0, 1⟩⟩
example (res) : Piece (cfg 64) 0 none src [.include_ (inc "b") none] st w₀ res ↔ Piece (cfg 64) 1 (some "b".toList) b.source b.body st w₀ res :=
  C21_include (live_st (by decide)) (t := code b) (by rfl) (by rw [Compiler.compileTemplate_eq]; rfl) (by decide) _
example (res) : Piece (cfg 1) 0 none src [.include_ (inc "b") none] st w₀ res ↔ res = .err (Err.maxIncludeDepth 1) w₀ :=
  C23_too_deep (live_st (by decide)) (t := code b) (by rfl) (by decide) _
example (res) : Piece (cfg 64) 0 none src [.include_ (inc "q") none] st w₀ res ↔
    res = .err (Err.attachName ⟨.render, none, "unknown template", some ⟨0, 0, 1, src⟩⟩ none) w₀ :=
  C21_unknown (live_st (by decide)) (by
    have : getTemplate (cfg 64) src (inc "q") w₀ = (w₀, errRender asciiEnv "unknown template" src ⟨0, 1⟩) := rfl
    rw [this, show (errRender asciiEnv "unknown template" src ⟨0, 1⟩ : Res Template) = .err ⟨.render, none, "unknown template", some ⟨0, 0, 1, src⟩⟩ from by
      decide +kernel]) _
example (res) : Piece (cfg 64) 0 none src [.include_ (inc "b") (some m_)] st w₀ res ↔ Piece (cfg 64) 1 (some "b".toList) b.source b.body
    [.scope (.borrowed (.map [("p".toList, .integer 3), ("q".toList, .integer 0)]))] w₀ res :=
  C22_include_with (live_st (by decide)) (by decide +kernel) (t := code b) (by rfl) (by rw [Compiler.compileTemplate_eq]; rfl) (by decide) _
example (res) : Piece (cfg 64) 0 none src [.include_ (inc "b") (some nope_)] st w₀ res ↔
    res = .err (Err.attachName ⟨.render, none, "not found in this scope", some ⟨0, 38, 4, src⟩⟩ none) w₀ :=
  C22_error (live_st (by decide)) (by decide +kernel) _ _
/-- The same from two different stacks. -/
example (res) : Piece (cfg 64) 0 none src [.include_ (inc "b") (some m_)] st w₀ res ↔
    Piece (cfg 64) 0 (some []) src [.include_ (inc "b") (some s_)]
      (.var ⟨⟨0, 1⟩⟩ (.borrowed (.map [("p".toList, .integer 3), ("q".toList, .integer 0)])) :: st) w₀ res :=
  C22_isolated (live_st (by decide)) ((live_st (by decide)).var _ _) (v := .borrowed (.map [("p".toList, .integer 3), ("q".toList, .integer 0)])) (by decide +kernel) (by decide +kernel) rfl (t := code b) (by rfl) (by rfl) (by decide) _

/-! C30 -/
def call_ (a b : Nat) (e : Expr) : Expr := .call ⟨⟨a, b⟩⟩ none e ⟨0, b⟩
example (res) : Piece (cfg 64) 0 none src [show_ (call_ 21 26 s_)] st w₀ res ↔ formats (cfg 64) none twice (.string "hi".toList) src ⟨21, 26⟩ w₀ res :=
  C30_formatter (live_st (by decide)) (v := .borrowed (.string "hi".toList)) (by decide +kernel) (n := "twice".toList) (by decide) (by rfl) (by decide) _ _
example : Piece (cfg 64) 0 none src [show_ (call_ 21 26 s_)] st w₀ (said "hihi") := piece_of (n := 10) (by decide +kernel)
/-- `add` without its argument is an error. -/
example (res) (h : Piece (cfg 64) 0 none src [show_ (call_ 17 20 s_)] st w₀ res) : ∃ e', res = .err e' w₀ ∧ e'.kind = .render ∧
    e'.reason = some "filter expected 1 arguments" :=
  (C30_filter (live_st (by decide)) ⟨_, (by decide : (⟨0, 20⟩ : Span).of src = some "s xs m p q x k v add".toList)⟩ (v := .borrowed (.string "hi".toList)) (by decide +kernel) (n := "add".toList)
    (by decide) (f := add) (by rfl) (by decide) w₀ res).2 ⟨.render, none, "filter expected 1 arguments", some ⟨0, 17, 3, src⟩⟩ (by decide +kernel) h
example (res) : Piece (cfg 64) 0 none src [show_ (call_ 38 42 s_)] st w₀ res ↔ ∃ p, Pretty.build asciiEnv src ⟨38, 42⟩ = some p ∧
    res = .err (Err.attachName ⟨.render, none, some "unknown filter or formatter", some p⟩ none) w₀ :=
  C30_unknown (live_st (by decide)) (v := .borrowed (.string "hi".toList)) (by decide +kernel) (n := "nope".toList) (by decide) (by rfl) (by decide) _ _
example (res) : Piece (cfg 64) 0 none src [show_ mp_] st w₀ res ↔ formats (cfg 64) none (fmtDefault asciiEnv) (.integer 3) src ⟨5, 8⟩ w₀ res :=
  (C30_default (live_st (by decide)) (e := mp_) (by unfold mp_; nofun) (by
    simp only [mp_, path, ExprIn, BaseIn, VarIn, MemberIn, SpanIn, List.mem_cons, List.not_mem_nil, or_false, forall_eq, ← Option.isSome_iff_exists]
    decide) (by decide) _ _).1 (.borrowed (.integer 3)) (by decide +kernel)
example : ∃ e, valueOf (cfg 64) src st (call_ 21 26 s_) = .err e ∧ e.kind = .render ∧
    e.reason = some "expected filter, found formatter" ∧ e.pretty = Pretty.build asciiEnv src ⟨21, 26⟩ :=
  (C30_not_filter (v := .borrowed (.string "hi".toList)) (by decide +kernel) (n := "twice".toList) (by decide) (by decide)).1 twice (by rfl)

end Demo
end Upon
