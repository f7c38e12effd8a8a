import Verif.Proofs.Ways
import Verif.Proofs.Globals
import Verif.Props.Registry
import Verif.Props.Rendering
/-
C55: all ways to render a template agree.
-/
namespace Upon
open Spec
variable {ω : Type} {env : Env}

/-! From data or from a value -/

/-- **C55** Rendering data that can be serialised is rendering the value it is serialised to. -/
theorem C55_serialized {r : Renderer} {d : SV} {v : Value} (h : d.toValue env = .ok v) :
    (∀ res, { r with globals := .owned (d.toValue env) }.ToString env res ↔ { r with globals := .borrowed v }.ToString env res) ∧
    ∀ (io : IoWriter ω) (w₀ : ω) res w, { r with globals := .owned (d.toValue env) }.ToWriter env io w₀ res w ↔
      { r with globals := .borrowed v }.ToWriter env io w₀ res w := by
  have hb : ({ r with globals := .owned (d.toValue env) } : Renderer).base = ({ r with globals := .borrowed v } : Renderer).base := by
    rw [h]; rfl
  constructor
  · intro res
    constructor
    · intro h
      cases h with
      | globalsErr e h => exact .globalsErr e (hb ▸ h)
      | globalsCrash h => exact .globalsCrash (hb ▸ h)
      | ok b w h hh => exact .ok b w (hb ▸ h) hh
      | err b e w h hh => exact .err b e w (hb ▸ h) hh
      | crash b h hh => exact .crash b (hb ▸ h) hh
    · intro h
      cases h with
      | globalsErr e h => exact .globalsErr e (hb.trans h)
      | globalsCrash h => exact .globalsCrash (hb.trans h)
      | ok b w h hh => exact .ok b w (hb.trans h) hh
      | err b e w h hh => exact .err b e w (hb.trans h) hh
      | crash b h hh => exact .crash b (hb.trans h) hh
  · intro io w₀ res w
    constructor
    · intro h
      cases h with
      | globalsErr e h => exact .globalsErr e (hb ▸ h)
      | globalsCrash h => exact .globalsCrash (hb ▸ h)
      | ok b w h hh => exact .ok b w (hb ▸ h) hh
      | err b e w h hh => exact .err b e w (hb ▸ h) hh
      | crash b w h hh => exact .crash b w (hb ▸ h) hh
    · intro h
      cases h with
      | globalsErr e h => exact .globalsErr e (hb.trans h)
      | globalsCrash h => exact .globalsCrash (hb.trans h)
      | ok b w h hh => exact .ok b w (hb.trans h) hh
      | err b e w h hh => exact .err b e w (hb.trans h) hh
      | crash b w h hh => exact .crash b w (hb.trans h) hh

/-- **C55** In terms of the public functions. -/
theorem C55_render {t : Template} {eng : Engine} {d : SV} {v : Value} (h : d.toValue env = .ok v) (res : Res Str) :
    (t.render env eng d).ToString env res ↔ (t.renderFrom eng v).ToString env res :=
  (C55_serialized (ω := Unit) (r := .new eng t none (.borrowed v)) h).1 res

theorem C55_render_ref {t : TemplateRef} {d : SV} {v : Value} (h : d.toValue env = .ok v) (res : Res Str) :
    (t.render env d).ToString env res ↔ (t.renderFrom v).ToString env res :=
  (C55_serialized (ω := Unit) (r := .new t.engine t.template (some t.name) (.borrowed v)) h).1 res

/-- **C55** Data that cannot be serialised: that error is the result, and nothing is written. -/
theorem C55_serialize_error {r : Renderer} {d : SV} {e : Err} (h : d.toValue env = .err e) :
    (∀ res, { r with globals := .owned (d.toValue env) }.ToString env res ↔ res = .err e) ∧
    ∀ (io : IoWriter ω) (w₀ : ω) res w, { r with globals := .owned (d.toValue env) }.ToWriter env io w₀ res w ↔ res = .err e ∧ w = w₀ := by
  have hb : ({ r with globals := .owned (d.toValue env) } : Renderer).base = .err e := by rw [h]; rfl
  constructor
  · intro res
    constructor
    · intro h
      cases h with
      | globalsErr e h => rw [hb] at h; cases h; rfl
      | globalsCrash h => rw [hb] at h; cases h
      | ok b w h => rw [hb] at h; cases h
      | err b e w h => rw [hb] at h; cases h
      | crash b h => rw [hb] at h; cases h
    · rintro rfl; exact .globalsErr e hb
  · intro io w₀ res w
    constructor
    · intro h
      cases h with
      | globalsErr e h => rw [hb] at h; cases h; exact ⟨rfl, rfl⟩
      | globalsCrash h => rw [hb] at h; cases h
      | ok b w h => rw [hb] at h; cases h
      | err b e w h => rw [hb] at h; cases h
      | crash b w h => rw [hb] at h; cases h
    · rintro ⟨rfl, rfl⟩; exact .globalsErr e hb

/-! With or without a name; with a function that gives the engine's templates or without -/

namespace Ways

/-- Renderers whose runs are related. -/
structure Rs (R : List Str → List Str → Prop) (n : Str) (r r' : Renderer) : Prop where
  base : r.base = r'.base
  alike : ∀ {σ : Type} (s : Sink σ), Alike R (r.cfg env s) (r'.cfg env s)
  vm : ∀ {σ : Type} (b : SState) (o : σ), V R n (initVM r.template r.name b o) (initVM r'.template r'.name b o)

variable {R : List Str → List Str → Prop} {n : Str} {r r' : Renderer}

theorem to_string (h : Rs (env := env) R n r r') :
    (∀ res, r.ToString env res → ∃ res', r'.ToString env res' ∧ SameBut n res res') ∧
    (∀ res', r'.ToString env res' → ∃ res, r.ToString env res ∧ SameBut n res res') := by
  constructor
  · intro res hr
    cases hr with
    | globalsErr e hb => exact ⟨_, .globalsErr e (h.base ▸ hb), .err (.inl rfl)⟩
    | globalsCrash hb => exact ⟨_, .globalsCrash (h.base ▸ hb), .crash⟩
    | ok b w hb hh =>
      obtain ⟨_, hh', he⟩ := (halts (h.alike _) (h.vm b _)).1 _ hh
      cases he with | ok hw => exact ⟨_, .ok b _ (h.base ▸ hb) hh', by rw [hw.out]; exact .ok _⟩
    | err b e w hb hh =>
      obtain ⟨_, hh', he⟩ := (halts (h.alike _) (h.vm b _)).1 _ hh
      cases he with | err hn hw => exact ⟨_, .err b _ _ (h.base ▸ hb) hh', .err hn⟩
    | crash b hb hh =>
      obtain ⟨_, hh', he⟩ := (halts (h.alike _) (h.vm b _)).1 _ hh
      cases he with | crash => exact ⟨_, .crash b (h.base ▸ hb) hh', .crash⟩
  · intro res hr
    cases hr with
    | globalsErr e hb => exact ⟨_, .globalsErr e (h.base.trans hb), .err (.inl rfl)⟩
    | globalsCrash hb => exact ⟨_, .globalsCrash (h.base.trans hb), .crash⟩
    | ok b w hb hh =>
      obtain ⟨_, hh', he⟩ := (halts (h.alike _) (h.vm b _)).2 _ hh
      cases he with | ok hw => exact ⟨_, .ok b _ (h.base.trans hb) hh', by rw [hw.out]; exact .ok _⟩
    | err b e w hb hh =>
      obtain ⟨_, hh', he⟩ := (halts (h.alike _) (h.vm b _)).2 _ hh
      cases he with | err hn hw => exact ⟨_, .err b _ _ (h.base.trans hb) hh', .err hn⟩
    | crash b hb hh =>
      obtain ⟨_, hh', he⟩ := (halts (h.alike _) (h.vm b _)).2 _ hh
      cases he with | crash => exact ⟨_, .crash b (h.base.trans hb) hh', .crash⟩

theorem named_io (o : Option Nat) {e e' : Err} (h : NamedAs n e e') : NamedAs n ((o.map Err.ofIo).getD e) ((o.map Err.ofIo).getD e') := by
  cases o with
  | none => exact h
  | some x => exact .inl rfl

theorem to_writer (h : Rs (env := env) R n r r') (io : IoWriter ω) (w₀ : ω) :
    (∀ res w, r.ToWriter env io w₀ res w → ∃ res', r'.ToWriter env io w₀ res' w ∧ SameBut n res res') ∧
    (∀ res' w, r'.ToWriter env io w₀ res' w → ∃ res, r.ToWriter env io w₀ res w ∧ SameBut n res res') := by
  constructor
  · intro res w hr
    cases hr with
    | globalsErr e hb => exact ⟨_, .globalsErr e (h.base ▸ hb), .err (.inl rfl)⟩
    | globalsCrash hb => exact ⟨_, .globalsCrash (h.base ▸ hb), .crash⟩
    | ok b w hb hh =>
      obtain ⟨_, hh', he⟩ := (halts (h.alike _) (h.vm b _)).1 _ hh
      cases he with | ok hw => exact ⟨_, by rw [hw.out]; exact .ok b _ (h.base ▸ hb) hh', .ok _⟩
    | err b e w hb hh =>
      obtain ⟨_, hh', he⟩ := (halts (h.alike _) (h.vm b _)).1 _ hh
      cases he with | err hn hw => exact ⟨_, by rw [hw.out]; exact .err b _ _ (h.base ▸ hb) hh', by rw [hw.out]; exact .err (named_io _ hn)⟩
    | crash b w hb hh =>
      obtain ⟨_, hh', he⟩ := (halts (h.alike _) (h.vm b _)).1 _ hh
      cases he with | crash => exact ⟨_, .crash b _ (h.base ▸ hb) hh', .crash⟩
  · intro res w hr
    cases hr with
    | globalsErr e hb => exact ⟨_, .globalsErr e (h.base.trans hb), .err (.inl rfl)⟩
    | globalsCrash hb => exact ⟨_, .globalsCrash (h.base.trans hb), .crash⟩
    | ok b w hb hh =>
      obtain ⟨_, hh', he⟩ := (halts (h.alike _) (h.vm b _)).2 _ hh
      cases he with | ok hw => exact ⟨_, by rw [← hw.out]; exact .ok b _ (h.base.trans hb) hh', .ok _⟩
    | err b e w hb hh =>
      obtain ⟨_, hh', he⟩ := (halts (h.alike _) (h.vm b _)).2 _ hh
      cases he with | err hn hw => exact ⟨_, by rw [← hw.out]; exact .err b _ _ (h.base.trans hb) hh', by rw [← hw.out]; exact .err (named_io _ hn)⟩
    | crash b w hb hh =>
      obtain ⟨_, hh', he⟩ := (halts (h.alike _) (h.vm b _)).2 _ hh
      cases he with | crash => exact ⟨_, .crash b _ (h.base.trans hb) hh', .crash⟩

/-- The same renderer with a name for its template. -/
theorem rs_named (r : Renderer) (n : Str) (h : r.name = none) : Rs (env := env) Eq n r { r with name := some n } := by
  obtain ⟨g, e, t, nm, d, f⟩ := r
  cases h
  exact ⟨rfl, fun s => ⟨rfl, fun src m w w' h1 h2 => by obtain ⟨o, a⟩ := w; obtain ⟨o', a'⟩ := w'; cases h1; cases h2; exact ⟨rfl, rfl, rfl⟩⟩,
    fun b o => ⟨.named _ _ _, rfl, rfl, ⟨rfl, rfl⟩⟩⟩

/-- The same renderer with a function for the engine's templates. -/
theorem rs_fn (r : Renderer) (n : Str) (h : r.templateFn = none) {f : TemplateFn}
    (hf : ∀ asked m, f asked m = match r.engine.getTemplate m with
      | some t => .ok t
      | none => .error "unknown template") : Rs (env := env) (fun _ _ => True) n r (r.withTemplateFn f) := by
  obtain ⟨g, e, t, nm, d, f'⟩ := r
  cases h
  refine ⟨rfl, fun s => ⟨rfl, fun src m w w' h1 h2 => ?_⟩, fun b o => ⟨.same _, rfl, rfl, ⟨rfl, trivial⟩⟩⟩
  refine ⟨?_, h1, trivial⟩
  simp only [getTemplate, Renderer.cfg, Renderer.withTemplateFn, hf, Engine.getTemplate]
  cases BMap.get e.templates m.name <;> rfl

end Ways

/-- **C55** The name under which a template is registered only shows in errors: the outcome of a render is the same with
it and without it, up to the name in an error that has no other name. -/
theorem C55_named (r : Renderer) (n : Str) (h : r.name = none) :
    (∀ res, r.ToString env res → ∃ res', { r with name := some n }.ToString env res' ∧ SameBut n res res') ∧
    (∀ res', { r with name := some n }.ToString env res' → ∃ res, r.ToString env res ∧ SameBut n res res') :=
  Ways.to_string (Ways.rs_named r n h)

/-- **C55** The same for a writer, which is left in the same state. -/
theorem C55_named_writer (r : Renderer) (n : Str) (h : r.name = none) (io : IoWriter ω) (w₀ : ω) :
    (∀ res w, r.ToWriter env io w₀ res w → ∃ res', { r with name := some n }.ToWriter env io w₀ res' w ∧ SameBut n res res') ∧
    (∀ res' w, { r with name := some n }.ToWriter env io w₀ res' w → ∃ res, r.ToWriter env io w₀ res w ∧ SameBut n res res') :=
  Ways.to_writer (Ways.rs_named r n h) io w₀

/-- **C55** `add_template` and then `template(name).render_from(ctx)` is `compile` and then `render_from(ctx)`. -/
theorem C55_registered {e : Engine} {n src : Str} {t : Template} (hc : e.compile env src = .ok t) :
    (e.addTemplate env n src).2 = .ok () ∧ ∃ t', (e.addTemplate env n src).1.templateRef n = some t' ∧ t'.source = t.source ∧
      ∀ v, (∀ res, (t.renderFrom (e.addTemplate env n src).1 v).ToString env res → ∃ res', (t'.renderFrom v).ToString env res' ∧ SameBut n res res') ∧
        (∀ res', (t'.renderFrom v).ToString env res' → ∃ res, (t.renderFrom (e.addTemplate env n src).1 v).ToString env res ∧ SameBut n res res') := by
  have ha : e.addTemplate env n src = ({ e with templates := BMap.insert e.templates n t }, .ok ()) := by rw [Engine.addTemplate, hc]
  refine ⟨by rw [ha], ⟨(e.addTemplate env n src).1, n, t⟩, ?_, rfl, fun v => C55_named _ n rfl⟩
  rw [Engine.templateRef, ha, Engine.getTemplate, get_insert, if_pos rfl]
  rfl

/-- **C55** The same for a writer, and for data and functions. -/
theorem C55_registered_all {e : Engine} {n src : Str} {t : Template} (hc : e.compile env src = .ok t) :
    ∃ t', (e.addTemplate env n src).1.templateRef n = some t' ∧
      ∀ (r r' : Renderer), (∃ d, r = t.render env (e.addTemplate env n src).1 d ∧ r' = t'.render env d) ∨
          (∃ v, r = t.renderFrom (e.addTemplate env n src).1 v ∧ r' = t'.renderFrom v) ∨
          (∃ f, r = t.renderFromFn (e.addTemplate env n src).1 f ∧ r' = t'.renderFromFn f) →
        ((∀ res, r.ToString env res → ∃ res', r'.ToString env res' ∧ SameBut n res res') ∧
          ∀ res', r'.ToString env res' → ∃ res, r.ToString env res ∧ SameBut n res res') ∧
        ∀ (io : IoWriter ω) (w₀ : ω),
          (∀ res w, r.ToWriter env io w₀ res w → ∃ res', r'.ToWriter env io w₀ res' w ∧ SameBut n res res') ∧
          ∀ res' w, r'.ToWriter env io w₀ res' w → ∃ res, r.ToWriter env io w₀ res w ∧ SameBut n res res' := by
  have ha : e.addTemplate env n src = ({ e with templates := BMap.insert e.templates n t }, .ok ()) := by rw [Engine.addTemplate, hc]
  refine ⟨⟨(e.addTemplate env n src).1, n, t⟩, ?_, ?_⟩
  · rw [Engine.templateRef, ha, Engine.getTemplate, get_insert, if_pos rfl]
    rfl
  · rintro r r' (⟨d, rfl, rfl⟩ | ⟨d, rfl, rfl⟩ | ⟨d, rfl, rfl⟩) <;>
      exact ⟨C55_named _ n rfl, C55_named_writer _ n rfl⟩

/-- **C55** A compiled template's source is the text it was compiled from. -/
theorem C55_source {e : Engine} {src : Str} {t : Template} (hc : e.compile env src = .ok t) : t.source = src := by
  rw [Engine.compile, compileSource] at hc
  obtain ⟨a, _, h⟩ := bind_ok' hc
  have := ofOption_ok h
  rw [Compiler.compileTemplate_eq] at this
  grind

theorem to_string_unique {r : Renderer} {a b : Res Str} (h : r.ToString env a) (h' : r.ToString env b) : a = b := by
  cases h <;> cases h' <;> grind [Halts.unique]

theorem to_writer_unique {r : Renderer} {io : IoWriter ω} {w₀ : ω} {a b : Res Unit} {w w' : ω} (h : r.ToWriter env io w₀ a w)
    (h' : r.ToWriter env io w₀ b w') (he : a ≠ .crash) : a = b ∧ w = w' := by
  cases h <;> cases h' <;> grind [Halts.unique]

theorem Ways.same_all {α : Type} {a b : Res α} (h : ∀ n, SameBut n a b) : a = b := by
  have h1 := h []
  have h2 := h ['x']
  cases h1 with
  | ok => rfl
  | crash => rfl
  | err n1 =>
    cases h2 with
    | err n2 =>
      rcases n1 with rfl | ⟨_, rfl⟩
      · rfl
      · rcases n2 with h | ⟨_, h⟩
        · rw [h]
        · injection h with _ h; cases h

/-- **C55** A function that gives the engine's own templates makes no difference… -/
theorem C55_template_fn (r : Renderer) (h : r.templateFn = none) {f : TemplateFn}
    (hf : ∀ asked m, f asked m = match r.engine.getTemplate m with
      | some t => .ok t
      | none => .error "unknown template") (res : Res Str) :
    (r.withTemplateFn f).ToString env res ↔ r.ToString env res := by
  constructor
  · intro hr
    obtain ⟨a, ha, h1⟩ := (Ways.to_string (Ways.rs_fn r [] h hf)).2 _ hr
    have : a = res := Ways.same_all fun n => by
      obtain ⟨b, hb, h1⟩ := (Ways.to_string (Ways.rs_fn r n h hf)).2 _ hr
      rw [to_string_unique ha hb]; exact h1
    exact this ▸ ha
  · intro hr
    obtain ⟨a, ha, h1⟩ := (Ways.to_string (Ways.rs_fn r [] h hf)).1 _ hr
    have : res = a := Ways.same_all fun n => by
      obtain ⟨b, hb, h1⟩ := (Ways.to_string (Ways.rs_fn r n h hf)).1 _ hr
      rw [to_string_unique ha hb]; exact h1
    exact this ▸ ha

/-- **C55** … to a writer either. -/
theorem C55_template_fn_writer (r : Renderer) (h : r.templateFn = none) {f : TemplateFn}
    (hf : ∀ asked m, f asked m = match r.engine.getTemplate m with
      | some t => .ok t
      | none => .error "unknown template") (io : IoWriter ω) (w₀ : ω) (res : Res Unit) (w : ω) :
    (r.withTemplateFn f).ToWriter env io w₀ res w ↔ r.ToWriter env io w₀ res w := by
  constructor
  · intro hr
    obtain ⟨a, ha, h1⟩ := (Ways.to_writer (Ways.rs_fn r [] h hf) io w₀).2 _ _ hr
    by_cases hc : a = .crash
    · subst hc; cases h1; exact ha
    · have : a = res := Ways.same_all fun n => by
        obtain ⟨b, hb, h1⟩ := (Ways.to_writer (Ways.rs_fn r n h hf) io w₀).2 _ _ hr
        rw [(to_writer_unique ha hb hc).1]; exact h1
      exact this ▸ ha
  · intro hr
    obtain ⟨a, ha, h1⟩ := (Ways.to_writer (Ways.rs_fn r [] h hf) io w₀).1 _ _ hr
    by_cases hc : a = .crash
    · subst hc; cases h1; exact ha
    · have : res = a := Ways.same_all fun n => by
        obtain ⟨b, hb, h1⟩ := (Ways.to_writer (Ways.rs_fn r n h hf) io w₀).1 _ _ hr
        rw [(to_writer_unique ha hb hc).1]; exact h1
      exact this ▸ ha

/-- **C55** A depth for one render is as good as a depth for the engine. -/
theorem C55_depth (r : Renderer) (d : Nat) (res : Res Str) :
    (r.withMaxIncludeDepth d).ToString env res ↔ { r with engine := r.engine.setMaxIncludeDepth d, maxIncludeDepth := none }.ToString env res := by
  constructor
  · intro h
    cases h with
    | globalsErr e h => exact .globalsErr e h
    | globalsCrash h => exact .globalsCrash h
    | ok b w h hh => exact .ok b w h hh
    | err b e w h hh => exact .err b e w h hh
    | crash b h hh => exact .crash b h hh
  · intro h
    cases h with
    | globalsErr e h => exact .globalsErr e h
    | globalsCrash h => exact .globalsCrash h
    | ok b w h hh => exact .ok b w h hh
    | err b e w h hh => exact .err b e w h hh
    | crash b h hh => exact .crash b h hh

/-- **C55** … to a writer too. -/
theorem C55_depth_writer (r : Renderer) (d : Nat) (io : IoWriter ω) (w₀ : ω) (res : Res Unit) (w : ω) :
    (r.withMaxIncludeDepth d).ToWriter env io w₀ res w ↔
      { r with engine := r.engine.setMaxIncludeDepth d, maxIncludeDepth := none }.ToWriter env io w₀ res w := by
  constructor
  · intro h
    cases h with
    | globalsErr e h => exact .globalsErr e h
    | globalsCrash h => exact .globalsCrash h
    | ok b w h hh => exact .ok b w h hh
    | err b e w h hh => exact .err b e w h hh
    | crash b w h hh => exact .crash b w h hh
  · intro h
    cases h with
    | globalsErr e h => exact .globalsErr e h
    | globalsCrash h => exact .globalsCrash h
    | ok b w h hh => exact .ok b w h hh
    | err b e w h hh => exact .err b e w h hh
    | crash b w h hh => exact .crash b w h hh

end Upon
