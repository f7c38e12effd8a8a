import Verif.Props.Output
import Verif.Proofs.Demo
/-
C16, C25, C26: more about output: `to_writer` and the meaning of a template, output is only appended,
and what is reported with formatters that do not stop at a failed write.
-/
namespace Upon
open Spec
variable {σ ω : Type}

/-! What a render does to its output, it does by writing -/

/-- A relation between an earlier and a later state of the output that every write keeps. -/
structure Grows (sink : Sink σ) (P : σ → σ → Prop) : Prop where
  refl : ∀ s, P s s
  trans : ∀ {a b c}, P a b → P b c → P a c
  write : ∀ s t, P s (sink.write s t).1

theorem Grows.fmt {sink : Sink σ} {P : σ → σ → Prop} (h : Grows sink P) (p : FmtProg) (s : σ) : P s (p.run sink s).1 := by
  induction p generalizing s with
  | done r => exact h.refl s
  | write t k ih => exact h.trans (h.write s t) (ih _ _)

/-- The world after an instruction. -/
def OneStep.After (P : World σ → Prop) : OneStep σ → Prop
  | .next _ _ _ w => P w
  | .err _ w => P w
  | _ => True

theorem after_ofRes {α : Type} {P : World σ → Prop} {w : World σ} (hw : P w) (r : Res α) {k : α → OneStep σ}
    (hk : ∀ a, (k a).After P) : (OneStep.ofRes w r k).After P := by
  cases r with
  | ok a => exact hk a
  | err e => exact hw
  | crash => trivial

theorem after_emit {cfg : RenderCfg σ} {P : σ → σ → Prop} (h : Grows cfg.sink P) (f : Formatter) (v : Value) (src : Str) (sp : Span)
    (w : World σ) {k : World σ → OneStep σ} (hk : ∀ w', P w.out w'.out → (k w').After fun w' => P w.out w'.out) :
    (emit cfg f v src sp w k).After fun w' => P w.out w'.out := by
  have := h.fmt (f v) w.out
  rw [emit]
  split
  · next out he => exact hk _ (by rw [he] at this; exact this)
  · next out _ he => exact after_ofRes (by rw [he] at this; exact this) _ (fun _ => trivial)

theorem after_exec {cfg : RenderCfg σ} {P : σ → σ → Prop} (h : Grows cfg.sink P) (src : Str) (pc : Nat) (st : Stack) (x : Option Cow)
    (w : World σ) (i : Instr) : (execInstr cfg src pc st x w i).After fun w' => P w.out w'.out := by
  have r := h.refl w.out
  cases i <;> simp only [execInstr]
  case jump => exact r
  case jumpIfTrue => split; · trivial
                     · split <;> exact r
  case jumpIfFalse => split; · trivial
                      · split <;> exact r
  case emit => split; · trivial
               · exact after_emit h _ _ _ _ _ fun w' hw => hw
  case emitRaw =>
    refine after_ofRes r _ fun raw => ?_
    have := h.write w.out raw
    split
    · next out he => rw [he] at this; exact this
    · next out he => rw [he] at this; exact this
  case emitWith =>
    refine after_ofRes r _ fun n => ?_
    split
    · split
      · trivial
      · exact after_ofRes r _ fun a => after_emit h _ _ _ _ _ fun w' hw => hw
    · split
      · trivial
      · exact after_emit h _ _ _ _ _ fun w' hw => hw
    · exact after_ofRes r _ fun _ => trivial
  case loopStart => split; · trivial
                    · exact after_ofRes r _ fun _ => r
  case loopNext => split
                   · split <;> exact r
                   · trivial
  case withStart => split; · trivial
                    · exact r
  case withEnd => split; · exact r
                  · trivial
  case include_ => trivial
  case includeWith => split <;> trivial
  case exprStart => exact after_ofRes r _ fun _ => by split; · exact r
                                                      · trivial
  case exprStartLit => split; · exact r
                       · trivial
  case apply =>
    refine after_ofRes r _ fun n => ?_
    split
    · split
      · trivial
      · exact after_ofRes r _ fun a => r
    · exact after_ofRes r _ fun _ => trivial
    · exact after_ofRes r _ fun _ => trivial

/-- The output at the end, if the render did not panic. -/
def Spec.outOf : RunRes σ → Option σ
  | .ok w => some w.out
  | .err _ w => some w.out
  | .crash => none

theorem out_step {cfg : RenderCfg σ} {P : σ → σ → Prop} (h : Grows cfg.sink P) (vm : VM σ) :
    (∀ vm', step cfg vm = .next vm' → P vm.w.out vm'.w.out) ∧
    (∀ r o, step cfg vm = .halt r → outOf r = some o → P vm.w.out o) := by
  have r := h.refl vm.w.out
  have ck : ∀ vm1 : VM σ, P vm.w.out vm1.w.out → (∀ vm', checkDepth cfg vm1 = .next vm' → P vm.w.out vm'.w.out) ∧
      (∀ r o, checkDepth cfg vm1 = .halt r → outOf r = some o → P vm.w.out o) := by
    intro vm1 h1
    rw [checkDepth]
    split
    · refine ⟨fun _ e => (by cases e), fun r o e ho => ?_⟩
      cases e; cases ho; exact h1
    · refine ⟨fun _ e => ?_, fun _ _ e => by cases e⟩
      cases e; exact h1
  have stop : ∀ res : RunRes σ, (∀ o, outOf res = some o → P vm.w.out o) →
      (∀ vm', StepRes.halt res = .next vm' → P vm.w.out vm'.w.out) ∧
      (∀ r o, StepRes.halt res = .halt r → outOf r = some o → P vm.w.out o) := by
    intro res h1
    refine ⟨fun _ e => (by cases e), fun r o e ho => ?_⟩
    cases e; exact h1 o ho
  have gt : ∀ src n, (getTemplate cfg src n vm.w).1.out = vm.w.out := by
    intro src n; rw [getTemplate]; split <;> rfl
  rw [step]
  split
  · exact stop _ fun o e => by cases e; exact r
  · split
    · split
      · split
        · split
          · exact ck _ r
          · exact stop _ fun o e => by cases e
        · exact ck _ r
      · exact stop _ fun o e => by cases e
    · next fr frames _ _ i _ =>
      have ha := after_exec h fr.tmpl.source fr.pc vm.stack vm.expr vm.w i
      split
      · next he =>
        rw [he] at ha
        refine ⟨fun _ e => ?_, fun _ _ e => by cases e⟩
        cases e; exact ha
      · next he =>
        rw [he] at ha
        exact stop _ fun o e => by cases e; exact ha
      · exact stop _ fun o e => by cases e
      · next pc n he =>
        have hg := gt fr.tmpl.source n
        split
        · next e => rw [e] at hg; exact ck _ (by rw [hg]; exact r)
        · next e => rw [e] at hg; exact stop _ fun o e => by cases e; rw [hg]; exact r
        · exact stop _ fun o e => by cases e
      · next pc n g he =>
        have hg := gt fr.tmpl.source n
        split
        · next e => rw [e] at hg; exact ck _ (by rw [hg]; exact r)
        · next e => rw [e] at hg; exact stop _ fun o e => by cases e; rw [hg]; exact r
        · exact stop _ fun o e => by cases e

theorem out_halts {cfg : RenderCfg σ} {P : σ → σ → Prop} (h : Grows cfg.sink P) {vm : VM σ} {res : RunRes σ} (hh : Halts cfg vm res)
    {o : σ} (ho : outOf res = some o) : P vm.w.out o := by
  obtain ⟨n, hn⟩ := hh
  induction n generalizing vm with
  | zero => cases hn
  | succ n ih =>
    rw [run] at hn
    have hs := out_step h vm
    split at hn
    · next r he => cases hn; exact hs.2 _ _ he ho
    · next vm' he => exact h.trans (hs.1 _ he) (ih hn)

theorem grows_string : Grows stringSink (fun a b : Str => a <+: b) :=
  ⟨fun _ => List.prefix_rfl, List.IsPrefix.trans, fun s t => List.prefix_append s t⟩

/-- **C25** Output is only appended: a render that starts with some text in its buffer ends, well or with
an error, with that text at the beginning of the buffer. -/
theorem C25_append {cfg : RenderCfg Str} (hs : cfg.sink = stringSink) {vm : VM Str} {res : RunRes Str} (h : Halts cfg vm res) {o : Str}
    (ho : outOf res = some o) : vm.w.out <+: o :=
  out_halts (P := fun a b => a <+: b) (hs ▸ grows_string) h ho

/-! `to_writer` -/

/-- What `to_writer` returns, and the writer at the end, given how the render ended. -/
def Spec.WriterEnds : RunRes (ω × Option Nat) → Res Unit → ω → Prop
  | .ok w, res, x => res = .ok () ∧ x = w.out.1
  | .err e w, res, x => res = .err (match w.out.2 with
      | some failure => ioErr failure
      | none => e) ∧ x = w.out.1
  | .crash, res, _ => res = .crash

/-- **C16** `to_writer` returns what the meaning of the tree says, and nothing else, on every writer. -/
theorem C16_to_writer {env : Env} {r : Renderer} {io : IoWriter ω} {tree : Template → Tree}
    (ht : ∀ t, Includable (r.cfg env (writerSink io)) t → Parsed env t (tree t)) {T : Tree} (hT : Parsed env r.template T)
    {b : SState} (hb : r.base = .ok b) (w₀ : ω) (res : Res Unit) (x : ω) :
    r.ToWriter env io w₀ res x ↔
      WriterEnds (Spec.render asBuilt (r.cfg env (writerSink io)) tree T r.name [ofBase b] ⟨(w₀, none), []⟩) res x := by
  have key := fun r' => C16_render ht hT hb (w₀, none) r'
  generalize Spec.render asBuilt (r.cfg env (writerSink io)) tree T r.name [ofBase b] ⟨(w₀, none), []⟩ = m at key
  have fix : ∀ (e : Err) (w : World (ω × Option Nat)), (w.out.2.map Err.ofIo).getD e = (match w.out.2 with
      | some failure => ioErr failure
      | none => e) := by
    intro e w; cases w.out.2 <;> rfl
  constructor
  · intro h
    cases h with
    | globalsErr e h => rw [hb] at h; cases h
    | globalsCrash h => rw [hb] at h; cases h
    | ok b' w h1 h2 => rw [hb] at h1; cases h1; rw [← (key _).mp h2]; exact ⟨rfl, rfl⟩
    | err b' e w h1 h2 => rw [hb] at h1; cases h1; rw [← (key _).mp h2]; exact ⟨by rw [fix], rfl⟩
    | crash b' w' h1 h2 => rw [hb] at h1; cases h1; rw [← (key _).mp h2]; rfl
  · intro h
    cases m with
    | ok w => obtain ⟨rfl, rfl⟩ := h; exact .ok b w hb ((key _).mpr rfl)
    | err e w => obtain ⟨rfl, rfl⟩ := h; rw [← fix]; exact .err b e w hb ((key _).mpr rfl)
    | crash => cases h; exact .crash b x hb ((key _).mpr rfl)

/-! Any formatters -/

/-- The failure of the most recent attempt that failed. -/
def Spec.lastFailure : List Attempt → Option Nat
  | [] => none
  | (_, some x) :: _ => some x
  | (_, none) :: older => lastFailure older

theorem grows_recording (io : IoWriter ω) : Grows (writerSink (recording io)) (fun a b : (ω × List Attempt) × Option Nat =>
    a.1.2 <:+ b.1.2 ∧ (a.2 = lastFailure a.1.2 → b.2 = lastFailure b.1.2)) := by
  refine ⟨fun s => ⟨List.suffix_rfl, id⟩, fun h1 h2 => ⟨h1.1.trans h2.1, fun h => h2.2 (h1.2 h)⟩, fun s t => ?_⟩
  obtain ⟨⟨w, l⟩, x⟩ := s
  dsimp only [writerSink, recording]
  cases (io.writeAll w (utf8 t)).2 with
  | none => exact ⟨List.suffix_cons _ _, fun h => h⟩
  | some e => exact ⟨List.suffix_cons _ _, fun _ => rfl⟩

/-- **C26** Whatever the formatters do: if `to_writer` fails and a write has failed, then what it returns
is the failure of the last write that failed; and if none has, it is not the failure of a write. -/
theorem C26_any_formatter {env : Env} {r : Renderer} {b : SState} (hb : r.base = .ok b) {io : IoWriter ω} {w₀ w : ω} {l : List Attempt} {e : Err}
    (h : r.ToWriter env (recording io) (w₀, []) (.err e) (w, l)) :
    (∀ x, lastFailure l = some x → e = ioErr x) ∧
    (lastFailure l = none → ∃ w', Halts (r.cfg env (writerSink (recording io))) (initVM r.template r.name b ((w₀, []), none)) (.err e w')) := by
  generalize hx : (w, l) = p at h
  cases h with
  | globalsErr e h => rw [hb] at h; cases h
  | err b' e' w' h1 h2 =>
    rw [hb] at h1; cases h1
    have hg := (out_halts (grows_recording io) h2 rfl).2 rfl
    have hl : w'.out.1.2 = l := by rw [← hx]
    rw [hl] at hg
    constructor
    · intro x hf
      rw [hf] at hg; rw [hg]; rfl
    · intro hf
      rw [hf] at hg; rw [hg]; exact ⟨w', h2⟩

/-- A formatter that ignores failures. -/
def Demo.careless : Formatter := fun _ => .write "x".toList fun _ => .write "y".toList fun _ => .done (.ok ())

/-- A writer that is full. -/
def Demo.full : IoWriter (List UInt8) where
  writeAll w _ := (w, some 28)

set_option synthInstance.maxSize 2000 in
/-- **C26** With a formatter that does not stop at a failed write, writes go on after the failure and
`to_writer` returns `Ok`, here for the template `{{ a }}` and a writer that always fails. -/
theorem C26_false_careless : ∃ r : Renderer, Healthy asciiEnv r ∧ r.template.source = "{{ a }}".toList ∧
    r.ToWriter asciiEnv (recording Demo.full) ([], []) (.ok ()) ([], [(utf8 "y".toList, some 28), (utf8 "x".toList, some 28)]) := by
  obtain ⟨a, _⟩ := default_setup asciiEnv []
  have hh := Demo.healthy a 64 (T := Demo.d) (by simp [Demo.all]) none (Demo.globals [("a", .integer 1)])
  refine ⟨{ Demo.renderer a 64 Demo.d none (Demo.globals [("a", .integer 1)]) with
    engine := (Demo.engine a 64).setDefaultFormatter Demo.careless }, ⟨hh.main, hh.included⟩, rfl, ?_⟩
  have key : Upon.run ⟨asciiEnv, Demo.careless, [("add".toList, .filter Demo.add)],
    [(['b'], Demo.code Demo.b), (['d'], Demo.code Demo.d), (['f'], Demo.code Demo.f), (['h'], Demo.code Demo.h)], none, 64,
      writerSink (recording Demo.full)⟩ 50
    (initVM (Demo.code Demo.d) none (.scope (.borrowed (Demo.globals [("a", .integer 1)]))) (([], []), none)) = some (.ok
      ⟨(([], [(utf8 "y".toList, some 28), (utf8 "x".toList, some 28)]), some 28), []⟩) := by decide +kernel
  exact .ok (env := asciiEnv) (r := { Demo.renderer a 64 Demo.d none (Demo.globals [("a", .integer 1)]) with
    engine := (Demo.engine a 64).setDefaultFormatter Demo.careless }) (w₀ := ([], [])) (io := recording Demo.full) (.scope (.borrowed (Demo.globals [("a", .integer 1)]))) _ rfl ⟨50, key⟩

end Upon
