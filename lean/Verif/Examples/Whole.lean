import Verif.Props.Output
import Verif.Props.Blame
import Verif.Examples.Rendering
/-
Concrete cases that meet the hypotheses of the theorems of Props/Render, Props/Registry and
Props/Output.
-/
namespace Upon.Demo
open Spec

/-- The default engine compiles each tree to its code. -/
theorem compiles {a : AC.Auto} (ha : AC.new Syn.default = some a) {T : Tree} (hT : T ∈ all) :
    compileSource ⟨asciiEnv, a, T.source⟩ = .ok (code T) := by
  have hk := parse_all
  rw [ha] at hk
  have hp := of_decide_eq_true (List.all_eq_true.mp (Option.some.inj hk) T hT)
  rw [compileSource, hp, Res.ok_bind, Compiler.compileTemplate_eq]; rfl

/-- The values of these examples. -/
def people : Value := globals [("a", globals [("k", .bool true)]), ("xs", .list [globals [("n", .integer 1)], globals [("n", .integer 41)]])]

theorem main_run : run 64 main none people 50 = some (.ok ⟨"2,42,[true]".toList, []⟩) := by decide +kernel

/-! C15, C16, C40 -/

example (a : AC.Auto) : Spec.render asBuilt ((renderer a 64 main none people).cfg asciiEnv stringSink) tree main none
    [.globals (.borrowed people)] ⟨[], []⟩ = .ok ⟨"2,42,[true]".toList, []⟩ :=
  ((C16_render (b := .scope (.borrowed people)) (r := renderer a 64 main none people) (T := main) tree_parsed (parsed (by simp [all])) rfl [] _).mp (halts main_run)).symm

theorem main_string (a : AC.Auto) : (renderer a 64 main none people).ToString asciiEnv (.ok "2,42,[true]".toList) :=
  .ok (.scope (.borrowed people)) ⟨"2,42,[true]".toList, []⟩ rfl (halts main_run)

example (a : AC.Auto) : stringResult (Spec.render asBuilt ((renderer a 64 main none people).cfg asciiEnv stringSink) tree main none
    [.globals (.borrowed people)] ⟨[], []⟩) = .ok "2,42,[true]".toList :=
  ((C16_to_string (b := .scope (.borrowed people)) (r := renderer a 64 main none people) (T := main) tree_parsed (parsed (by simp [all])) rfl _).mp (main_string a)).symm

/-- A template that includes itself, at every limit. -/
example (a : AC.Auto) (dp : Nat) : ∃ res, Halts ((renderer a dp h none people).cfg asciiEnv stringSink)
    (initVM (code h) none (.scope (.borrowed people)) []) res :=
  C15_terminates (healthy a dp (T := h) (by simp [all]) none people) rfl []

example (a : AC.Auto) (dp : Nat) : ∃ res, (renderer a dp h none people).ToString asciiEnv res ∧
    ∀ res', (renderer a dp h none people).ToString asciiEnv res' → res' = res :=
  C40_to_string (healthy a dp (by simp [all]) none people)

example (a : AC.Auto) (res) (h : (renderer a 64 main none people).ToString asciiEnv res) : res = .ok "2,42,[true]".toList := by
  obtain ⟨r, _, h2⟩ := C40_to_string (healthy a 64 (T := main) (by simp [all]) none people)
  rw [h2 _ h, h2 _ (main_string a)]

/-! C28, C29 -/

theorem fresh : ∃ e, Fresh asciiEnv defaultBuilder e := by
  obtain ⟨a, ha⟩ := default_setup asciiEnv []
  exact ⟨_, ha.built, by rw [Engine.withSyntax, ha.searcher]; rfl⟩

theorem fresh_compiles {e : Engine} (he : Fresh asciiEnv defaultBuilder e) {T : Tree} (hT : T ∈ all) :
    e.compile asciiEnv T.source = .ok (code T) := compiles he.init.1 hT

/-- Newest first: `main` is added, `b` is added, removed, replaced; `d` is removed. -/
def ops : List Op := [.removeTemplate ['d'], .addFilter "add".toList add, .addTemplate ['b'] b.source, .addFormatter "add".toList twice,
  .addTemplate "main".toList main.source, .removeTemplate ['b'], .addTemplate ['d'] d.source, .addTemplate ['b'] main.source]

example {e : Engine} (he : Fresh asciiEnv defaultBuilder e) : (after asciiEnv e ops).getTemplate ['b'] = some (code b) :=
  (C28_registry he ops ['b'] _).mpr ⟨[.removeTemplate ['d'], .addFilter "add".toList add], _, _, rfl, fresh_compiles he (by simp [all]),
    by simp [Op.Retemplates]⟩

theorem main_added {e : Engine} (he : Fresh asciiEnv defaultBuilder e) : (after asciiEnv e ops).getTemplate "main".toList = some (code main) :=
  (C28_registry he ops _ _).mpr ⟨[.removeTemplate ['d'], .addFilter "add".toList add, .addTemplate ['b'] b.source, .addFormatter "add".toList twice],
    _, _, rfl, fresh_compiles he (by simp [all]), by simp [Op.Retemplates]⟩

example {e : Engine} (he : Fresh asciiEnv defaultBuilder e) : (after asciiEnv e ops).getTemplate ['d'] = none := by
  cases hg : (after asciiEnv e ops).getTemplate ['d'] with
  | none => rfl
  | some t =>
    exfalso
    obtain ⟨newer, src, older, e1, _, h3⟩ := (C28_registry he ops ['d'] t).mp hg
    cases newer with
    | nil => simp [ops] at e1
    | cons op newer =>
      simp only [ops, List.cons_append, List.cons.injEq] at e1
      obtain ⟨rfl, _⟩ := e1
      exact h3 (.removeTemplate ['d']) (by simp) rfl

example {e : Engine} (he : Fresh asciiEnv defaultBuilder e) : BMap.get (after asciiEnv e ops).functions "add".toList = some (.filter add) :=
  (C29_functions he ops _ _).mpr ⟨[.removeTemplate ['d']], _, rfl, by simp [Op.Refunctions]⟩

/-- The later call reports that it replaced a formatter. -/
example {e : Engine} (he : Fresh asciiEnv defaultBuilder e) :
    ((after asciiEnv e (ops.drop 2)).addFilter "add".toList add).2 = some .formatter := by
  have h : BMap.get (after asciiEnv e (ops.drop 2)).functions "add".toList = some (.formatter twice) :=
    (C29_functions he _ _ _).mpr ⟨[.addTemplate ['b'] b.source], _, rfl, by simp [Op.Refunctions]⟩
  rw [((C29_reports _ _ add twice).1), h]; rfl

/-- The history of `Demo`: what was rendered by name gives what the meaning says. -/
example {e : Engine} (he : Fresh asciiEnv defaultBuilder e) :
    ∃ res, Renderer.ToString asciiEnv ⟨.borrowed people, after asciiEnv e ops, code main, some "main".toList, none, none⟩ res ∧
      ∀ res', Renderer.ToString asciiEnv ⟨.borrowed people, after asciiEnv e ops, code main, some "main".toList, none, none⟩ res' → res' = res :=
  C40_history he (fun _ _ _ => default_tidy _) (main_added he) _ _

/-! C25, C26 -/

example (a : AC.Auto) : ∃ w, (renderer a 64 main none people).ToWriter asciiEnv vec (utf8 "log: ".toList) (.ok ()) w ∧
    w = utf8 "log: ".toList ++ utf8 "2,42,[true]".toList :=
  (C25_output asciiEnv _ vec_accepts _ _).mp (main_string a)

/-- A template that fails after it has written something: to `vec` it fails with the same error. -/
theorem h_run : run 3 h none people 20 = some (.err (Err.maxIncludeDepth 3) ⟨"xxx".toList, []⟩) := by decide +kernel
example (a : AC.Auto) : ∃ w, (renderer a 3 h none people).ToWriter asciiEnv vec [] (.err (Err.maxIncludeDepth 3)) w :=
  (C25_error asciiEnv _ vec_accepts _ _).mp (.err (.scope (.borrowed people)) _ _ rfl (halts h_run))

/-- A writer with room for `n` bytes, that writes what fits and then fails with error 28. -/
def disk (n : Nat) : IoWriter (List UInt8) where
  writeAll w bs := if w.length + bs.length ≤ n then (w ++ bs, none) else ((w ++ bs).take n, some 28)

theorem careful (a : AC.Auto) (dp : Nat) : CarefulEngine (engine a dp) := by
  refine ⟨C26_default asciiEnv, ?_⟩
  intro n f hf
  have hf : (n, EngFn.formatter f) ∈ [("add".toList, EngFn.filter add)] := get_some_mem hf
  simp at hf

set_option synthInstance.maxSize 2000 in
/-- A render to a disk with room for 6 bytes, with the attempts recorded. -/
theorem disk_run (a : AC.Auto) : (renderer a 64 main none people).ToWriter asciiEnv (recording (disk 6)) ([], []) (.err (Err.ofIo 28))
    (utf8 "2,42,[".toList, [(utf8 "true".toList, some 28), (utf8 "[".toList, none), (utf8 ",".toList, none), (utf8 "42".toList, none),
      (utf8 ",".toList, none), (utf8 "2".toList, none)]) := by
  have key : Upon.run ⟨asciiEnv, fmtDefault asciiEnv, [("add".toList, .filter add)],
    [(['b'], code b), (['d'], code d), (['f'], code f), (['h'], code h)], none, 64, writerSink (recording (disk 6))⟩ 50
    (initVM (code main) none (.scope (.borrowed people)) (([], []), none)) = some (.err
      ⟨.format, some ['b'], none, some ⟨0, 4, 4, b.source⟩⟩
      ⟨((utf8 "2,42,[".toList, [(utf8 "true".toList, some 28), (utf8 "[".toList, none), (utf8 ",".toList, none), (utf8 "42".toList, none),
      (utf8 ",".toList, none), (utf8 "2".toList, none)]), some 28), []⟩) := by
    decide +kernel
  exact .err (r := renderer a 64 main none people) (io := recording (disk 6)) (w₀ := ([], [])) (.scope (.borrowed people)) _ _ rfl ⟨50, key⟩

example (a : AC.Auto) := C26_failure (healthy a 64 (T := main) (by simp [all]) none people) (careful a 64) (disk_run a) nofun
example (a : AC.Auto) {res' : Res Unit} {full : List UInt8} (hf : (renderer a 64 main none people).ToWriter asciiEnv vec [] res' full)
    (hne : res' ≠ .crash) : utf8 "2,42,[true".toList <+: full :=
  C26_prefix (healthy a 64 (T := main) (by simp [all]) none people) (careful a 64) (disk_run a) nofun hf hne

end Upon.Demo
