import Verif.Spec.Output
import Verif.Proofs.ParsedIn
import Verif.Props.Registry
/-
C25, C26: writers.
-/
namespace Upon
open Spec
variable {ω : Type}

theorem fmt_lock {σ τ : Type} {s : Sink σ} {s' : Sink τ} {R : σ → τ → Prop}
    (h : ∀ a b t, R a b → (s.write a t).2 = (s'.write b t).2 ∧ R (s.write a t).1 (s'.write b t).1) (p : FmtProg) (a : σ)
    (b : τ) (hR : R a b) : (p.run s a).2 = (p.run s' b).2 ∧ R (p.run s a).1 (p.run s' b).1 := by
  induction p generalizing a b with
  | done r => exact ⟨rfl, hR⟩
  | write t k ih =>
    obtain ⟨h1, h2⟩ := h a b t hR
    rw [FmtProg.run, FmtProg.run, h1]
    exact ih _ _ _ h2

/-- Two sinks that always behave alike. -/
theorem lock_alike {σ τ : Type} (cfg : RenderCfg σ) {s' : Sink τ} {R : σ → τ → Prop}
    (h : ∀ a b t, R a b → (cfg.sink.write a t).2 = (s'.write b t).2 ∧ R (cfg.sink.write a t).1 (s'.write b t).1) :
    Lock cfg s' R (fun _ _ => False) :=
  ⟨fun a b t hR => .inl (h a b t hR), fun f v a b _ hR => .inl (fmt_lock h (f v) a b hR), fun _ _ _ h => h⟩

theorem halts_alike {σ τ : Type} {cfg : RenderCfg σ} {s' : Sink τ} {R : σ → τ → Prop}
    (h : ∀ a b t, R a b → (cfg.sink.write a t).2 = (s'.write b t).2 ∧ R (cfg.sink.write a t).1 (s'.write b t).1)
    {t : Template} {n : Option Str} {base : SState} {a : σ} {b : τ} (hR : R a b) {r : RunRes σ}
    (hr : Halts cfg (initVM t n base a) r) :
    ∃ r', Halts (cfg.on s') (initVM t n base b) r' ∧ RunRel R (fun _ _ => False) r r' :=
  halts_rel (lock_alike cfg h) (vm' := initVM t n base b) ⟨rfl, rfl, rfl, hR, rfl⟩ (fun ⟨_, _, h⟩ => h.elim) hr

/-- The relation between the text collected by `to_string` and the writer. -/
def Mirror (log : ω → List UInt8) (w₀ : ω) (s : Str) (x : ω × Option Nat) : Prop :=
  log x.1 = log w₀ ++ utf8 s ∧ x.2 = none

theorem mirror_write {io : IoWriter ω} {log : ω → List UInt8} (h : Accepts io log) (w₀ : ω) (s : Str) (x : ω × Option Nat)
    (t : Str) (hm : Mirror log w₀ s x) :
    (stringSink.write s t).2 = ((writerSink io).write x t).2 ∧
      Mirror log w₀ (stringSink.write s t).1 ((writerSink io).write x t).1 := by
  have h1 := h.accepts x.1 (utf8 t)
  have h2 := h.keeps x.1 (utf8 t)
  dsimp only [stringSink, writerSink]
  generalize io.writeAll x.1 (utf8 t) = p at h1 h2
  obtain ⟨p1, p2⟩ := p
  dsimp only at h1 h2
  subst h1
  exact ⟨rfl, by rw [h2, hm.1, utf8_append, List.append_assoc], hm.2⟩

theorem to_writer_of_string {env : Env} {r : Renderer} {io : IoWriter ω} {log : ω → List UInt8} (ha : Accepts io log)
    (w₀ : ω) {res : Res Str} (h : r.ToString env res) :
    (∃ s w, res = .ok s ∧ r.ToWriter env io w₀ (.ok ()) w ∧ log w = log w₀ ++ utf8 s) ∨
    (∃ e w, res = .err e ∧ r.ToWriter env io w₀ (.err e) w) ∨ (∃ w, res = .crash ∧ r.ToWriter env io w₀ .crash w) := by
  have key := fun (b : SState) (x : RunRes Str) => halts_alike (cfg := r.cfg env stringSink) (s' := writerSink io)
    (R := Mirror log w₀) (mirror_write ha w₀) (t := r.template) (n := r.name) (base := b) (a := []) (b := (w₀, none))
    ⟨by simp [utf8], rfl⟩ (r := x)
  cases h with
  | globalsErr e h => exact .inr (.inl ⟨e, w₀, rfl, .globalsErr e h⟩)
  | globalsCrash h => exact .inr (.inr ⟨w₀, rfl, .globalsCrash h⟩)
  | ok b w h1 h2 =>
    obtain ⟨r', h3, h4⟩ := key b _ h2
    cases h4 with
    | @ok _ w' hw => exact .inl ⟨_, _, rfl, .ok b w' h1 h3, hw.out.1⟩
    | broken h => obtain ⟨_, h⟩ := h; exact h.elim
  | err b e w h1 h2 =>
    obtain ⟨r', h3, h4⟩ := key b _ h2
    cases h4 with
    | @err _ _ w' hw =>
      refine .inr (.inl ⟨_, w'.out.1, rfl, ?_⟩)
      have := Renderer.ToWriter.err b e w' h1 h3
      rw [hw.out.2] at this
      exact this
    | broken h => obtain ⟨_, h⟩ := h; exact h.elim
  | crash b h1 h2 =>
    obtain ⟨r', h3, h4⟩ := key b _ h2
    cases h4 with
    | crash => exact .inr (.inr ⟨w₀, rfl, .crash b w₀ h1 h3⟩)
    | broken h => obtain ⟨_, h⟩ := h; exact h.elim

theorem to_string_of_writer {env : Env} {r : Renderer} {io : IoWriter ω} {log : ω → List UInt8} (ha : Accepts io log)
    (w₀ : ω) {res : Res Unit} {w : ω} (h : r.ToWriter env io w₀ res w) :
    (∃ s, res = .ok () ∧ r.ToString env (.ok s) ∧ log w = log w₀ ++ utf8 s) ∨
    (∃ e, res = .err e ∧ r.ToString env (.err e)) ∨ (res = .crash ∧ r.ToString env .crash) := by
  have key := fun (b : SState) (x : RunRes (ω × Option Nat)) =>
    halts_alike (cfg := r.cfg env (writerSink io)) (s' := stringSink)
    (R := fun x s => Mirror log w₀ s x) (fun a b t h => by
      obtain ⟨h1, h2⟩ := mirror_write ha w₀ b a t h
      exact ⟨h1.symm, h2⟩) (t := r.template) (n := r.name) (base := b) (a := (w₀, none)) (b := [])
    ⟨by simp [utf8], rfl⟩ (r := x)
  cases h with
  | globalsErr e h => exact .inr (.inl ⟨e, rfl, .globalsErr e h⟩)
  | globalsCrash h => exact .inr (.inr ⟨rfl, .globalsCrash h⟩)
  | ok b w h1 h2 =>
    obtain ⟨r', h3, h4⟩ := key b _ h2
    cases h4 with
    | @ok _ w' hw => exact .inl ⟨_, rfl, .ok b w' h1 h3, hw.out.1⟩
    | broken h => obtain ⟨_, h⟩ := h; exact h.elim
  | err b e w h1 h2 =>
    obtain ⟨r', h3, h4⟩ := key b _ h2
    cases h4 with
    | @err _ _ w' hw =>
      refine .inr (.inl ⟨e, ?_, .err b e w' h1 h3⟩)
      rw [hw.out.2]; rfl
    | broken h => obtain ⟨_, h⟩ := h; exact h.elim
  | crash b w h1 h2 =>
    obtain ⟨r', h3, h4⟩ := key b _ h2
    cases h4 with
    | crash => exact .inr (.inr ⟨rfl, .crash b h1 h3⟩)
    | broken h => obtain ⟨_, h⟩ := h; exact h.elim

/-- **C25** `to_writer`, on a writer that accepts everything, succeeds exactly when `to_string` does, and
then the bytes written are exactly those of the string. -/
theorem C25_output (env : Env) (r : Renderer) {io : IoWriter ω} {log : ω → List UInt8} (ha : Accepts io log) (w₀ : ω)
    (s : Str) :
    r.ToString env (.ok s) ↔ ∃ w, r.ToWriter env io w₀ (.ok ()) w ∧ log w = log w₀ ++ utf8 s := by
  constructor
  · intro h
    rcases to_writer_of_string ha w₀ h with ⟨s', w, e, h1, h2⟩ | ⟨e, w, h1, _⟩ | ⟨w, h1, _⟩
    · cases e; exact ⟨w, h1, h2⟩
    · cases h1
    · cases h1
  · rintro ⟨w, h, hl⟩
    rcases to_string_of_writer ha w₀ h with ⟨s', e, h1, h2⟩ | ⟨e, h1, _⟩ | ⟨h1, _⟩
    · rw [hl] at h2
      rw [utf8_inj (List.append_cancel_left h2)]; exact h1
    · cases h1
    · cases h1

/-- **C25** … and it fails exactly when `to_string` does, with the same error. -/
theorem C25_error (env : Env) (r : Renderer) {io : IoWriter ω} {log : ω → List UInt8} (ha : Accepts io log) (w₀ : ω)
    (e : Err) : r.ToString env (.err e) ↔ ∃ w, r.ToWriter env io w₀ (.err e) w := by
  constructor
  · intro h
    rcases to_writer_of_string ha w₀ h with ⟨s', w, e, h1, h2⟩ | ⟨e, w, h1, h2⟩ | ⟨w, h1, _⟩
    · cases e
    · cases h1; exact ⟨w, h2⟩
    · cases h1
  · rintro ⟨w, h⟩
    rcases to_string_of_writer ha w₀ h with ⟨s', e, h1, h2⟩ | ⟨e, h1, h2⟩ | ⟨h1, _⟩
    · cases e
    · cases h1; exact h2
    · cases h1

/-- **C25** … and it panics exactly when `to_string` does. -/
theorem C25_panic (env : Env) (r : Renderer) {io : IoWriter ω} {log : ω → List UInt8} (ha : Accepts io log) (w₀ : ω) :
    r.ToString env .crash ↔ ∃ w, r.ToWriter env io w₀ .crash w := by
  constructor
  · intro h
    rcases to_writer_of_string ha w₀ h with ⟨s', w, e, h1, h2⟩ | ⟨e, w, h1, h2⟩ | ⟨w, h1, h2⟩
    · cases e
    · cases h1
    · exact ⟨w, h2⟩
  · rintro ⟨w, h⟩
    rcases to_string_of_writer ha w₀ h with ⟨s', e, h1, h2⟩ | ⟨e, h1, h2⟩ | ⟨h1, h2⟩
    · cases e
    · cases h1
    · exact h2

theorem vec_accepts : Accepts vec id := ⟨fun _ _ => rfl, fun _ _ => rfl⟩

/-! Failing writers -/

/-- The recording writer and the writer are in the same state. -/
theorem recording_write (io : IoWriter ω) (a : ω × Option Nat) (b : (ω × List Attempt) × Option Nat) (t : Str)
    (h : a.1 = b.1.1 ∧ a.2 = b.2) :
    ((writerSink io).write a t).2 = ((writerSink (recording io)).write b t).2 ∧
      (((writerSink io).write a t).1.1 = ((writerSink (recording io)).write b t).1.1.1 ∧
        ((writerSink io).write a t).1.2 = ((writerSink (recording io)).write b t).1.2) := by
  obtain ⟨a1, a2⟩ := a
  obtain ⟨⟨b1, bl⟩, b2⟩ := b
  obtain ⟨rfl, rfl⟩ := h
  dsimp only [writerSink, recording]
  generalize io.writeAll a1 (utf8 t) = p
  obtain ⟨p1, p2⟩ := p
  cases p2 <;> exact ⟨rfl, rfl, rfl⟩

/-- **C26** Recording the attempts of a writer changes nothing: every call of `to_writer` on a writer is
a call on the recording writer, with the same result. -/
theorem C26_recording {env : Env} {r : Renderer} {io : IoWriter ω} {w₀ w : ω} {res : Res Unit}
    (h : r.ToWriter env io w₀ res w) : ∃ l, r.ToWriter env (recording io) (w₀, []) res (w, l) := by
  have key := fun (b : SState) (x : RunRes (ω × Option Nat)) =>
    halts_alike (cfg := r.cfg env (writerSink io)) (s' := writerSink (recording io))
    (R := fun a b => a.1 = b.1.1 ∧ a.2 = b.2) (recording_write io) (t := r.template) (n := r.name) (base := b)
    (a := (w₀, none)) (b := ((w₀, []), none)) ⟨rfl, rfl⟩ (r := x)
  cases h with
  | globalsErr e h => exact ⟨_, .globalsErr e h⟩
  | globalsCrash h => exact ⟨_, .globalsCrash h⟩
  | ok b w h1 h2 =>
    obtain ⟨r', h3, h4⟩ := key b _ h2
    cases h4 with
    | @ok _ w' hw =>
      have := Renderer.ToWriter.ok b w' h1 h3
      rw [hw.out.1]
      exact ⟨_, this⟩
    | broken h => obtain ⟨_, h⟩ := h; exact h.elim
  | err b e w h1 h2 =>
    obtain ⟨r', h3, h4⟩ := key b _ h2
    cases h4 with
    | @err _ _ w' hw =>
      have := Renderer.ToWriter.err b e w' h1 h3
      rw [hw.out.1, hw.out.2]
      exact ⟨_, this⟩
    | broken h => obtain ⟨_, h⟩ := h; exact h.elim
  | crash b w h1 h2 =>
    obtain ⟨r', h3, h4⟩ := key b _ h2
    cases h4 with
    | crash => exact ⟨[], .crash b _ h1 h3⟩
    | broken h => obtain ⟨_, h⟩ := h; exact h.elim

/-- Nothing failed so far. -/
def Working (a : List UInt8 × Option Nat) (b : (ω × List Attempt) × Option Nat) : Prop :=
  attempted b.1.2 = a.1 ∧ (∀ x ∈ b.1.2, x.2 = none) ∧ a.2 = none ∧ b.2 = none

/-- The last attempt failed. -/
def Broken (a : List UInt8 × Option Nat) (b : (ω × List Attempt) × Option Nat) : Prop :=
  attempted b.1.2 <+: a.1 ∧ ∃ bs e older, b.1.2 = (bs, some e) :: older ∧ (∀ x ∈ older, x.2 = none) ∧ b.2 = some e

theorem working_write (io : IoWriter ω) (a : List UInt8 × Option Nat) (b : (ω × List Attempt) × Option Nat) (t : Str)
    (h : Working a b) :
    (((writerSink vec).write a t).2 = ((writerSink (recording io)).write b t).2 ∧
      Working ((writerSink vec).write a t).1 ((writerSink (recording io)).write b t).1) ∨
    (((writerSink (recording io)).write b t).2 = false ∧
      Broken ((writerSink vec).write a t).1 ((writerSink (recording io)).write b t).1) := by
  obtain ⟨a1, a2⟩ := a
  obtain ⟨⟨b1, bl⟩, b2⟩ := b
  obtain ⟨h1, h2, h3, h4⟩ := h
  dsimp only at h1 h2 h3 h4
  subst h1 h3 h4
  dsimp only [writerSink, recording, vec]
  generalize io.writeAll b1 (utf8 t) = p
  obtain ⟨p1, p2⟩ := p
  cases p2 with
  | none =>
    refine .inl ⟨rfl, rfl, fun x hx => ?_, rfl, rfl⟩
    rcases List.mem_cons.mp hx with rfl | hx
    · rfl
    · exact h2 x hx
  | some e => exact .inr ⟨rfl, List.prefix_rfl, _, e, bl, rfl, h2, rfl⟩

theorem broken_mono (a : List UInt8 × Option Nat) (b : (ω × List Attempt) × Option Nat) (t : Str)
    (h : Broken a b) : Broken ((writerSink vec).write a t).1 b :=
  ⟨h.1.trans (List.prefix_append _ _), h.2⟩

theorem broken_run (a : List UInt8 × Option Nat) (b : (ω × List Attempt) × Option Nat) (p : FmtProg)
    (h : Broken a b) : Broken (p.run (writerSink vec) a).1 b := by
  induction p generalizing a with
  | done r => exact h
  | write s k ih => exact ih _ _ (broken_mono a b s h)

theorem working_fmt (io : IoWriter ω) {p : FmtProg} (hp : Careful p) (a : List UInt8 × Option Nat)
    (b : (ω × List Attempt) × Option Nat) (h : Working a b) :
    ((p.run (writerSink vec) a).2 = (p.run (writerSink (recording io)) b).2 ∧
      Working (p.run (writerSink vec) a).1 (p.run (writerSink (recording io)) b).1) ∨
    ((∃ e, (p.run (writerSink (recording io)) b).2 = .error e) ∧
      Broken (p.run (writerSink vec) a).1 (p.run (writerSink (recording io)) b).1) := by
  induction hp generalizing a b with
  | done => exact .inl ⟨rfl, h⟩
  | @write s k _ hf ih =>
    rw [FmtProg.run, FmtProg.run]
    have htrue : ((writerSink vec).write a s).2 = true := rfl
    rcases working_write io a b s h with ⟨h1, h2⟩ | ⟨h1, h2⟩
    · rw [← h1, htrue]; exact ih _ _ h2
    · obtain ⟨e, he⟩ := hf
      rw [h1, he]
      exact .inr ⟨⟨e, rfl⟩, broken_run _ _ _ h2⟩

theorem lock_failing {env : Env} {r : Renderer} (hc : CarefulEngine r.engine) (io : IoWriter ω) :
    Lock (r.cfg env (writerSink vec)) (writerSink (recording io)) Working Broken := by
  refine ⟨fun a b t h => working_write io a b t h, fun f v a b hf h => ?_, fun a b t h => broken_mono a b t h⟩
  refine working_fmt io ?_ a b h
  rcases hf with rfl | ⟨n, hn⟩
  · exact hc.1 v
  · exact hc.2 n f hn v

theorem failing_rel {env : Env} {r : Renderer} (h : Healthy env r) (hc : CarefulEngine r.engine) (io : IoWriter ω) (w₀ : ω)
    {b : SState} {x : RunRes (List UInt8 × Option Nat)}
    (hx : Halts (r.cfg env (writerSink vec)) (initVM r.template r.name b ([], none)) x)
    {y : RunRes ((ω × List Attempt) × Option Nat)}
    (hy : Halts (r.cfg env (writerSink (recording io))) (initVM r.template r.name b ((w₀, []), none)) y) :
    RunRel Working Broken x y := by
  obtain ⟨y', h1, h2⟩ := halts_rel (lock_failing hc io) (vm' := initVM r.template r.name b ((w₀, []), none))
    ⟨rfl, rfl, rfl, ⟨rfl, fun x h => (by cases h), rfl, rfl⟩, rfl⟩ (fun _ => ⟨fun f hf => by
      rcases List.mem_cons.mp hf with rfl | hf
      · exact h.main.shows
      · exact absurd hf List.not_mem_nil, fun t ht => (h.all _ t ht).shows⟩) hx
  have : y = y' := hy.unique h1
  rw [this]; exact h2

/-- **C26** A writer failure ends the render: no write is attempted after it, and it is the error that
`to_writer` returns. If no write fails then `to_writer` returns what it returns on a writer that
accepts everything. -/
theorem C26_failure {env : Env} {r : Renderer} (h : Healthy env r) (hc : CarefulEngine r.engine) {io : IoWriter ω} {w₀ w : ω}
    {l : List Attempt} {res : Res Unit} (hr : r.ToWriter env (recording io) (w₀, []) res (w, l)) (hne : res ≠ .crash) :
    (∃ bs e older, l = (bs, some e) :: older ∧ (∀ x ∈ older, x.2 = none) ∧ res = .err (ioErr e)) ∨
    ((∀ x ∈ l, x.2 = none) ∧ r.ToWriter env vec [] res (attempted l)) := by
  generalize hp : (w, l) = p at hr
  cases hb : r.base with
  | err e =>
    cases hr with
    | globalsErr e' h => cases hp; exact .inr ⟨fun x h => (by cases h), .globalsErr e' h⟩
    | globalsCrash h => exact absurd rfl hne
    | crash => exact absurd rfl hne
    | ok b w h => rw [hb] at h; cases h
    | err b e w h => rw [hb] at h; cases h
  | crash =>
    cases hr with
    | globalsErr e h => rw [hb] at h; cases h
    | globalsCrash h => exact absurd rfl hne
    | crash => exact absurd rfl hne
    | ok b w h => rw [hb] at h; cases h
    | err b e w h => rw [hb] at h; cases h
  | ok b =>
    obtain ⟨x, hx⟩ := C15_terminates h (sink := writerSink vec) hb ([], none)
    cases hr with
    | globalsErr e' h => rw [hb] at h; cases h
    | globalsCrash h => exact absurd rfl hne
    | crash => exact absurd rfl hne
    | ok b' w' h1 h2 =>
      rw [hb] at h1; cases h1
      have hrel := failing_rel h hc io w₀ hx h2
      cases hrel with
      | @ok w1 _ hw =>
        right
        obtain ⟨e1, e2, e3, e4⟩ := hw.out
        have := Renderer.ToWriter.ok b w1 hb hx
        rw [← e1, ← hp] at this
        rw [← hp] at e2
        exact ⟨e2, this⟩
    | err b' e w' h1 h2 =>
      rw [hb] at h1; cases h1
      have hrel := failing_rel h hc io w₀ hx h2
      cases hrel with
      | @err _ w1 _ hw =>
        right
        obtain ⟨e1, e2, e3, e4⟩ := hw.out
        have := Renderer.ToWriter.err b e w1 hb hx
        rw [e3, ← e1, ← hp] at this
        rw [← hp] at e2
        rw [e4]
        exact ⟨e2, this⟩
      | broken hB _ =>
        left
        obtain ⟨_, _, bs, e', older, h3, h4, h5⟩ := hB
        rw [← hp] at h3
        refine ⟨bs, e', older, h3, h4, ?_⟩
        rw [h5]; rfl

/-- **C26** What was written, up to and including the attempt that failed, is the beginning of what a
writer that accepts everything gets. -/
theorem C26_prefix {env : Env} {r : Renderer} (h : Healthy env r) (hc : CarefulEngine r.engine) {io : IoWriter ω} {w₀ w : ω}
    {l : List Attempt} {res : Res Unit} (hr : r.ToWriter env (recording io) (w₀, []) res (w, l)) (hne : res ≠ .crash)
    {res' : Res Unit} {full : List UInt8} (hf : r.ToWriter env vec [] res' full) (hne' : res' ≠ .crash) :
    attempted l <+: full := by
  generalize hp : (w, l) = p at hr
  have main : ∀ {b : SState} {x : RunRes (List UInt8 × Option Nat)} {y : RunRes ((ω × List Attempt) × Option Nat)},
      Halts (r.cfg env (writerSink vec)) (initVM r.template r.name b ([], none)) x →
      Halts (r.cfg env (writerSink (recording io))) (initVM r.template r.name b ((w₀, []), none)) y →
      ∀ wx wy, (x = .ok wx ∨ ∃ e, x = .err e wx) → (y = .ok wy ∨ ∃ e, y = .err e wy) →
        attempted wy.out.1.2 <+: wx.out.1 := by
    intro b x y hx hy wx wy ex ey
    have hrel := failing_rel h hc io w₀ hx hy
    cases hrel with
    | ok hw =>
      rcases ex with ex | ⟨_, ex⟩ <;> cases ex
      rcases ey with ey | ⟨_, ey⟩ <;> cases ey
      exact hw.out.1 ▸ List.prefix_rfl
    | err hw =>
      rcases ex with ex | ⟨_, ex⟩ <;> cases ex
      rcases ey with ey | ⟨_, ey⟩ <;> cases ey
      exact hw.out.1 ▸ List.prefix_rfl
    | crash => rcases ex with ex | ⟨_, ex⟩ <;> cases ex
    | broken _ hB =>
      rcases ey with ey | ⟨_, ey⟩ <;> cases ey
      exact (hB wx ex).1
  cases hf with
  | globalsErr e' h =>
    cases hr with
    | globalsErr => cases hp; exact List.prefix_rfl
    | globalsCrash h => exact absurd rfl hne
    | crash => exact absurd rfl hne
    | ok b w h' => rw [h] at h'; cases h'
    | err b e w h' => rw [h] at h'; cases h'
  | globalsCrash h => exact absurd rfl hne'
  | crash => exact absurd rfl hne'
  | ok b wx h1 h2 =>
    cases hr with
    | globalsErr e' h => rw [h1] at h; cases h
    | globalsCrash h => exact absurd rfl hne
    | crash => exact absurd rfl hne
    | ok b' wy h3 h4 => rw [h1] at h3; cases h3; have := main h2 h4 wx wy (.inl rfl) (.inl rfl); rw [← hp] at this; exact this
    | err b' e wy h3 h4 =>
      rw [h1] at h3; cases h3; have := main h2 h4 wx wy (.inl rfl) (.inr ⟨_, rfl⟩); rw [← hp] at this; exact this
  | err b e wx h1 h2 =>
    cases hr with
    | globalsErr e' h => rw [h1] at h; cases h
    | globalsCrash h => exact absurd rfl hne
    | crash => exact absurd rfl hne
    | ok b' wy h3 h4 =>
      rw [h1] at h3; cases h3; have := main h2 h4 wx wy (.inr ⟨_, rfl⟩) (.inl rfl); rw [← hp] at this; exact this
    | err b' e wy h3 h4 =>
      rw [h1] at h3; cases h3; have := main h2 h4 wx wy (.inr ⟨_, rfl⟩) (.inr ⟨_, rfl⟩); rw [← hp] at this; exact this

/-- **C26** An engine without user formatters is careful. -/
theorem C26_default (env : Env) (v : Value) : Careful (fmtDefault env v) := by
  have w : ∀ ts, Careful (FmtProg.writeAll ts) := fun ts => by
    induction ts with
    | nil => exact .done
    | cons s ts ih => exact .write ih ⟨none, rfl⟩
  cases v with
  | none => exact .done
  | bool b => exact w _
  | integer i => exact w _
  | float f => exact w _
  | string s => exact w _
  | list l => exact .done
  | map m => exact .done

end Upon
