import Verif.Props.Ways
import Verif.Proofs.Demo
/-
Concrete cases for C55.
-/
namespace Upon.Demo
open Spec

/-- A struct with a list and an optional field. -/
def record : SV := .struct [("m".toList, .map [(.char 'p', .int .u8 3), (.str ['q'], .some (.int .i64 4))])]

/-- The struct and the value. -/
example (a : AC.Auto) (res : Res Str) : ((code j).render asciiEnv (engine a 64) record).ToString asciiEnv res ↔
    ((code j).renderFrom (engine a 64) (globals [("m", globals [("p", .integer 3), ("q", .integer 4)])])).ToString asciiEnv res :=
  C55_render (by decide +kernel) res

/-- It is rendered as `7q`. -/
example (a : AC.Auto) : ((code j).render asciiEnv (engine a 64) record).ToString asciiEnv (.ok "7q".toList) :=
  (C55_render (v := globals [("m", globals [("p", .integer 3), ("q", .integer 4)])]) (by decide +kernel) _).mpr
    (.ok _ ⟨"7q".toList, []⟩ rfl ⟨50, show Demo.run 64 j none (globals [("m", globals [("p", .integer 3), ("q", .integer 4)])]) 50 = _ by decide +kernel⟩)

/-- Bytes are no text: a map with such a key cannot be rendered. -/
example (a : AC.Auto) (res : Res Str) :
    ((code j).render asciiEnv (engine a 64) (.map [(.unit, .unit)])).ToString asciiEnv res ↔ res = .err (Err.custom "map key must be a string") :=
  (C55_serialize_error (ω := Unit) (r := .new (engine a 64) (code j) none (.borrowed .none)) (d := .map [(.unit, .unit)]) rfl).1 res

/-- A variable is missing: with the name of the template the error has that name, without it it has none. -/
example (a : AC.Auto) : ∃ e e', e.name = none ∧ e'.name = some ['j'] ∧ (renderer a 64 j none (globals [])).ToString asciiEnv (.err e) ∧
    (renderer a 64 j (some ['j']) (globals [])).ToString asciiEnv (.err e') ∧ NamedAs ['j'] e e' := by
  have h : (renderer a 64 j none (globals [])).ToString asciiEnv (.err ⟨.render, none, some "not found in this scope", some ⟨0, 15, 1, j.source⟩⟩) :=
    .err _ _ ⟨[], []⟩ rfl ⟨50, show Demo.run 64 j none (globals []) 50 = _ by decide +kernel⟩
  have h2 : (renderer a 64 j (some ['j']) (globals [])).ToString asciiEnv (.err ⟨.render, some ['j'], some "not found in this scope", some ⟨0, 15, 1, j.source⟩⟩) :=
    .err _ _ ⟨[], []⟩ rfl ⟨50, show Demo.run 64 j (some ['j']) (globals []) 50 = _ by decide +kernel⟩
  exact ⟨_, _, rfl, rfl, h, h2, .inr ⟨rfl, rfl⟩⟩

/-- An engine with the template `j`. -/
example (v : Value) : ∃ (e : Engine) (t : Template), e.compile asciiEnv j.source = .ok t ∧ t.source = j.source ∧
    ∃ t', (e.addTemplate asciiEnv "n".toList j.source).1.templateRef "n".toList = some t' ∧
      ∀ res, (t.renderFrom (e.addTemplate asciiEnv "n".toList j.source).1 v).ToString asciiEnv res →
        ∃ res', (t'.renderFrom v).ToString asciiEnv res' ∧ SameBut "n".toList res res' := by
  obtain ⟨bb, a, ts, s, hw, hc, _⟩ := parsed (T := j) (by simp [all])
  have hc : (engine a 64).compile asciiEnv j.source = .ok (code j) := hc
  obtain ⟨_, t', h1, _, h2⟩ := C55_registered (n := "n".toList) hc
  exact ⟨_, _, hc, C55_source hc, t', h1, (h2 v).1⟩

/-- A function that gives the engine's templates. -/
example (a : AC.Auto) (v : Value) (res : Res Str) : ((renderer a 64 main none v).withTemplateFn fun _ m =>
      match (engine a 64).getTemplate m with | some t => .ok t | none => .error "unknown template").ToString asciiEnv res ↔
    (renderer a 64 main none v).ToString asciiEnv res :=
  C55_template_fn _ rfl (fun _ _ => rfl) res

/-- To a writer. -/
example {ω : Type} (a : AC.Auto) (v : Value) (io : IoWriter ω) (w₀ : ω) (res : Res Unit) (w : ω) :
    ((renderer a 64 main none v).withTemplateFn fun _ m =>
      match (engine a 64).getTemplate m with | some t => .ok t | none => .error "unknown template").ToWriter asciiEnv io w₀ res w ↔
    (renderer a 64 main none v).ToWriter asciiEnv io w₀ res w :=
  C55_template_fn_writer _ rfl (fun _ _ => rfl) io w₀ res w

/-- A depth for this render only, and for the engine. -/
example {ω : Type} (a : AC.Auto) (v : Value) (io : IoWriter ω) (w₀ : ω) (res : Res Unit) (w : ω) :
    ((renderer a 64 main none v).withMaxIncludeDepth 3).ToWriter asciiEnv io w₀ res w ↔ (renderer a 3 main none v).ToWriter asciiEnv io w₀ res w :=
  C55_depth_writer _ 3 io w₀ res w

/-- The template `j` in an engine, rendered with a struct to a writer. -/
example {ω : Type} (io : IoWriter ω) (w₀ : ω) : ∃ (e : Engine) (t : Template), e.compile asciiEnv j.source = .ok t ∧
    ∃ t', (e.addTemplate asciiEnv "n".toList j.source).1.templateRef "n".toList = some t' ∧
      ∀ res w, (t.render asciiEnv (e.addTemplate asciiEnv "n".toList j.source).1 record).ToWriter asciiEnv io w₀ res w →
        ∃ res', (t'.render asciiEnv record).ToWriter asciiEnv io w₀ res' w ∧ SameBut "n".toList res res' := by
  obtain ⟨bb, a, ts, s, hw, hc, _⟩ := parsed (T := j) (by simp [all])
  have hc : (engine a 64).compile asciiEnv j.source = .ok (code j) := hc
  obtain ⟨t', h1, h2⟩ := C55_registered_all (ω := ω) (n := "n".toList) hc
  exact ⟨_, _, hc, t', h1, ((h2 _ _ (.inl ⟨record, rfl, rfl⟩)).2 io w₀).1⟩

end Upon.Demo
