import Verif.Proofs.FromFn
/-
C78: a template function that answers from the engine's templates changes nothing.
-/
namespace Upon
open FromFn

section
variable {env : Env} {r : Renderer} {f : TemplateFn}

/-- **C78** A render with a template function that gives the templates of the engine, and says that it does not know others, returns exactly what the render
without it returns. -/
theorem C78_to_string (hn : r.templateFn = none)
    (hf : ∀ asked n, f asked n = match BMap.get r.engine.templates n with
      | some t => .ok t
      | none => .error "unknown template") (res : Res Str) :
    (r.withTemplateFn f).ToString env res ↔ r.ToString env res := by
  have hb : (r.withTemplateFn f).base = r.base := rfl
  have hc : (r.withTemplateFn f).cfg env stringSink = asking (r.cfg env stringSink) f := rfl
  have hs : ∀ b, SameVM (initVM r.template r.name b ([] : Str)) (initVM (r.withTemplateFn f).template (r.withTemplateFn f).name b []) := fun b => ⟨rfl, rfl, rfl, rfl⟩
  constructor
  · intro h
    cases h with
    | globalsErr e h => exact .globalsErr e h
    | globalsCrash h => exact .globalsCrash h
    | ok b w h h' =>
      obtain ⟨x, hx, hs⟩ := halts_same' (cfg := r.cfg env stringSink) (f := f) hn hf (hs b) h'
      cases hs
      have := Renderer.ToString.ok (r := r) b _ h hx; exact this
    | err b e w h h' =>
      obtain ⟨x, hx, hs⟩ := halts_same' (cfg := r.cfg env stringSink) (f := f) hn hf (hs b) h'
      cases hs
      have := Renderer.ToString.err (r := r) b _ _ h hx; exact this
    | crash b h h' =>
      obtain ⟨x, hx, hs⟩ := halts_same' (cfg := r.cfg env stringSink) (f := f) hn hf (hs b) h'
      cases hs
      exact .crash b h hx
  · intro h
    cases h with
    | globalsErr e h => exact .globalsErr e h
    | globalsCrash h => exact .globalsCrash h
    | ok b w h h' =>
      obtain ⟨x, hx, hs⟩ := halts_same (cfg := r.cfg env stringSink) (f := f) hn hf (hs b) h'
      cases hs
      have := Renderer.ToString.ok (r := (r.withTemplateFn f)) b _ h hx; exact this
    | err b e w h h' =>
      obtain ⟨x, hx, hs⟩ := halts_same (cfg := r.cfg env stringSink) (f := f) hn hf (hs b) h'
      cases hs
      have := Renderer.ToString.err (r := (r.withTemplateFn f)) b _ _ h hx; exact this
    | crash b h h' =>
      obtain ⟨x, hx, hs⟩ := halts_same (cfg := r.cfg env stringSink) (f := f) hn hf (hs b) h'
      cases hs
      exact .crash b h hx

/-- **C78** The same on every writer: the same result, and the writer is left in the same state. -/
theorem C78_to_writer {ω : Type} {io : IoWriter ω} {w₀ : ω} (hn : r.templateFn = none)
    (hf : ∀ asked n, f asked n = match BMap.get r.engine.templates n with
      | some t => .ok t
      | none => .error "unknown template") (res : Res Unit) (w : ω) :
    (r.withTemplateFn f).ToWriter env io w₀ res w ↔ r.ToWriter env io w₀ res w := by
  have hs : ∀ b, SameVM (initVM r.template r.name b (w₀, (none : Option Nat))) (initVM (r.withTemplateFn f).template (r.withTemplateFn f).name b (w₀, none)) :=
    fun b => ⟨rfl, rfl, rfl, rfl⟩
  constructor
  · intro h
    cases h with
    | globalsErr e h => exact .globalsErr e h
    | globalsCrash h => exact .globalsCrash h
    | ok b w h h' =>
      obtain ⟨x, hx, hs⟩ := halts_same' (cfg := r.cfg env (writerSink io)) (f := f) hn hf (hs b) h'
      cases hs
      have := Renderer.ToWriter.ok (r := r) b _ h hx; exact this
    | err b e w h h' =>
      obtain ⟨x, hx, hs⟩ := halts_same' (cfg := r.cfg env (writerSink io)) (f := f) hn hf (hs b) h'
      cases hs
      have := Renderer.ToWriter.err (r := r) b _ _ h hx; exact this
    | crash b _ h h' =>
      obtain ⟨x, hx, hs⟩ := halts_same' (cfg := r.cfg env (writerSink io)) (f := f) hn hf (hs b) h'
      cases hs
      exact .crash b _ h hx
  · intro h
    cases h with
    | globalsErr e h => exact .globalsErr e h
    | globalsCrash h => exact .globalsCrash h
    | ok b w h h' =>
      obtain ⟨x, hx, hs⟩ := halts_same (cfg := r.cfg env (writerSink io)) (f := f) hn hf (hs b) h'
      cases hs
      have := Renderer.ToWriter.ok (r := (r.withTemplateFn f)) b _ h hx; exact this
    | err b e w h h' =>
      obtain ⟨x, hx, hs⟩ := halts_same (cfg := r.cfg env (writerSink io)) (f := f) hn hf (hs b) h'
      cases hs
      have := Renderer.ToWriter.err (r := (r.withTemplateFn f)) b _ _ h hx; exact this
    | crash b _ h h' =>
      obtain ⟨x, hx, hs⟩ := halts_same (cfg := r.cfg env (writerSink io)) (f := f) hn hf (hs b) h'
      cases hs
      exact .crash b _ h hx

end
end Upon
