import Verif.Spec.History
import Verif.Proofs.Maps
import Verif.Props.Render
/-
C28, C29, C40: the registries of an engine.
-/
namespace Upon
open Spec

theorem Spec.Fresh.init {env : Env} {b : SyntaxBuilder} {e : Engine} (h : Fresh env b e) :
    AC.new b.build = some e.searcher ∧ e.templates = [] ∧ e.functions = [] := by
  have h := h.made
  rw [Engine.withSyntax] at h
  cases ha : AC.new b.build with
  | none => rw [ha] at h; cases h
  | some a =>
    rw [ha] at h
    have h : (⟨a, fmtDefault env, [], [], 64⟩ : Engine) = e := Option.some.inj h
    exact ⟨by rw [← congrArg Engine.searcher h], (congrArg Engine.templates h).symm, (congrArg Engine.functions h).symm⟩

theorem after_searcher (env : Env) (e : Engine) (ops : List Op) : (after env e ops).searcher = e.searcher := by
  induction ops with
  | nil => rfl
  | cons op ops ih =>
    rw [← ih, after]
    cases op <;> try rfl
    rename_i n s
    simp only [Op.apply, Engine.addTemplate]
    split <;> rfl

/-- **C28** What a text compiles to does not depend on what was done to the engine before. -/
theorem C28_compile (env : Env) (e : Engine) (ops : List Op) (src : Str) :
    (after env e ops).compile env src = e.compile env src := by
  rw [Engine.compile, Engine.compile, after_searcher]

theorem apply_ascending {env : Env} {e : Engine} (op : Op) (h : Ascending e.templates ∧ Ascending e.functions) :
    Ascending (op.apply env e).templates ∧ Ascending (op.apply env e).functions := by
  cases op with
  | addTemplate n s =>
    simp only [Op.apply, Engine.addTemplate]
    split
    · exact ⟨insert_ascending h.1 _ _, h.2⟩
    · exact h
    · exact h
  | removeTemplate n => exact ⟨remove_ascending h.1 _, h.2⟩
  | addFilter n f => exact ⟨h.1, insert_ascending h.2 _ _⟩
  | addFormatter n f => exact ⟨h.1, insert_ascending h.2 _ _⟩
  | removeFunction n => exact ⟨h.1, remove_ascending h.2 _⟩
  | setDefaultFormatter f => exact h
  | setMaxIncludeDepth d => exact h

theorem after_ascending {env : Env} {b : SyntaxBuilder} {e : Engine} (he : Fresh env b e) (ops : List Op) :
    Ascending (after env e ops).templates ∧ Ascending (after env e ops).functions := by
  induction ops with
  | nil => rw [after, he.init.2.1, he.init.2.2]; exact ⟨List.Pairwise.nil, List.Pairwise.nil⟩
  | cons op ops ih => exact apply_ascending op ih

/-- The call changes what the name stands for as a template: a removal, or an addition whose text
compiles. -/
def Spec.Op.Retemplates (env : Env) (e : Engine) (n : Str) : Op → Prop
  | .addTemplate m src => m = n ∧ ∃ t, e.compile env src = .ok t
  | .removeTemplate m => m = n
  | _ => False

/-- **C28** After any history, a name stands for the template that was last added under it, by a call
whose text compiled, and that was neither replaced nor removed since. -/
theorem C28_registry {env : Env} {b : SyntaxBuilder} {e : Engine} (he : Fresh env b e) (ops : List Op) (n : Str)
    (t : Template) :
    (after env e ops).getTemplate n = some t ↔
      ∃ newer src older, ops = newer ++ .addTemplate n src :: older ∧ e.compile env src = .ok t ∧
        ∀ op ∈ newer, ¬ op.Retemplates env e n := by
  induction ops with
  | nil =>
    rw [after, Engine.getTemplate, he.init.2.1]
    constructor
    · intro h; cases h
    · rintro ⟨a, b, c, h, _⟩; cases a <;> cases h
  | cons op ops ih =>
    have asc := (after_ascending he ops).1
    -- what the newest call does to the name
    have other : ¬ op.Retemplates env e n →
        (after env e (op :: ops)).getTemplate n = (after env e ops).getTemplate n := by
      intro hn
      rw [after]
      cases op with
      | addTemplate m src =>
        simp only [Op.apply, Engine.addTemplate, C28_compile]
        cases hc : e.compile env src with
        | ok t =>
          dsimp only [Engine.getTemplate]
          rw [get_insert, if_neg]
          intro e'; exact hn ⟨e'.symm, t, hc⟩
        | err => rfl
        | crash => rfl
      | removeTemplate m =>
        dsimp only [Op.apply, Engine.removeTemplate, Engine.getTemplate]
        rw [get_remove asc, if_neg]
        intro e'; exact hn e'.symm
      | addFilter => rfl
      | addFormatter => rfl
      | removeFunction => rfl
      | setDefaultFormatter => rfl
      | setMaxIncludeDepth => rfl
    by_cases hr : op.Retemplates env e n
    · constructor
      · intro h
        cases op with
        | addTemplate m src =>
          obtain ⟨rfl, t', hc⟩ := hr
          rw [after, Op.apply, Engine.addTemplate, C28_compile, hc] at h
          dsimp only [Engine.getTemplate] at h
          rw [get_insert, if_pos rfl] at h
          cases h
          exact ⟨[], src, ops, rfl, hc, fun op h => by cases h⟩
        | removeTemplate m =>
          cases hr
          rw [after, Op.apply, Engine.removeTemplate] at h
          dsimp only [Engine.getTemplate] at h
          rw [get_remove asc, if_pos rfl] at h; cases h
        | _ => exact absurd hr id
      · rintro ⟨newer, src, older, e1, hc, hno⟩
        cases newer with
        | cons op' newer =>
          cases e1
          exact absurd hr (hno _ List.mem_cons_self)
        | nil =>
          cases e1
          rw [after, Op.apply, Engine.addTemplate, C28_compile, hc]
          dsimp only [Engine.getTemplate]
          rw [get_insert, if_pos rfl]
    · rw [other hr, ih]
      constructor
      · rintro ⟨newer, src, older, rfl, hc, hno⟩
        refine ⟨op :: newer, src, older, rfl, hc, fun op' h => ?_⟩
        rcases List.mem_cons.mp h with rfl | h
        · exact hr
        · exact hno op' h
      · rintro ⟨newer, src, older, e1, hc, hno⟩
        cases newer with
        | nil => cases e1; exact absurd ⟨rfl, t, hc⟩ hr
        | cons op' newer =>
          cases e1
          exact ⟨newer, src, older, rfl, hc, fun op' h => hno op' (List.mem_cons_of_mem _ h)⟩

/-- **C28** An addition succeeds exactly when the text compiles; if it fails, the engine is as before,
and the error is the compile error with the template's name on it. -/
theorem C28_add (env : Env) (e : Engine) (n src : Str) :
    ((e.addTemplate env n src).2 = .ok () ↔ ∃ t, e.compile env src = .ok t) ∧
    ((e.addTemplate env n src).2 ≠ .ok () → (e.addTemplate env n src).1 = e) ∧
    ∀ err, (e.addTemplate env n src).2 = .err err ↔
      ∃ err', e.compile env src = .err err' ∧ err = err'.withTemplateName n := by
  rw [Engine.addTemplate]
  cases h : e.compile env src with
  | ok t => simp
  | err x =>
    refine ⟨by simp, fun _ => rfl, fun err => ?_⟩
    constructor
    · intro e; cases e; exact ⟨x, rfl, rfl⟩
    · rintro ⟨y, e1, rfl⟩; cases e1; rfl
  | crash => simp

/-- **C28** A removal reports whether the name stood for a template. -/
theorem C28_remove (e : Engine) (n : Str) : (e.removeTemplate n).2 = true ↔ ∃ t, e.getTemplate n = some t := by
  rw [Engine.removeTemplate, Engine.getTemplate, Option.isSome_iff_exists]

/-- **C28** `template` gives what `get_template` gives, and panics exactly when there is no such template. -/
theorem C28_template (e : Engine) (n : Str) (t : Template) :
    (e.template n = .ok t ↔ e.getTemplate n = some t) ∧ (e.template n = .crash ↔ e.getTemplate n = none) := by
  rw [Engine.template]
  cases e.getTemplate n <;> simp [Res.ofOption]

/-! Functions -/

/-- The call changes what the name stands for as a function. -/
def Spec.Op.Refunctions (n : Str) : Op → Prop
  | .addFilter m _ => m = n
  | .addFormatter m _ => m = n
  | .removeFunction m => m = n
  | _ => False

/-- The call that adds the function under the name. -/
def Spec.adding (n : Str) : EngFn → Op
  | .filter f => .addFilter n f
  | .formatter f => .addFormatter n f

/-- **C29** After any history, a name stands for the filter or formatter that was last added under it and
not replaced (by either kind) or removed since. -/
theorem C29_functions {env : Env} {b : SyntaxBuilder} {e : Engine} (he : Fresh env b e) (ops : List Op) (n : Str)
    (f : EngFn) :
    BMap.get (after env e ops).functions n = some f ↔
      ∃ newer older, ops = newer ++ adding n f :: older ∧ ∀ op ∈ newer, ¬ op.Refunctions n := by
  induction ops with
  | nil =>
    rw [after, he.init.2.2]
    constructor
    · intro h; cases h
    · rintro ⟨a, b, h, _⟩; cases a <;> cases h
  | cons op ops ih =>
    have asc := (after_ascending he ops).2
    have other : ¬ op.Refunctions n →
        BMap.get (after env e (op :: ops)).functions n = BMap.get (after env e ops).functions n := by
      intro hn
      rw [after]
      cases op with
      | addTemplate m src =>
        simp only [Op.apply, Engine.addTemplate]
        split <;> rfl
      | removeTemplate m => rfl
      | addFilter m g =>
        dsimp only [Op.apply, Engine.addFilter]
        rw [get_insert, if_neg]
        intro e'; exact hn e'.symm
      | addFormatter m g =>
        dsimp only [Op.apply, Engine.addFormatter]
        rw [get_insert, if_neg]
        intro e'; exact hn e'.symm
      | removeFunction m =>
        dsimp only [Op.apply, Engine.removeFunction]
        rw [get_remove asc, if_neg]
        intro e'; exact hn e'.symm
      | setDefaultFormatter => rfl
      | setMaxIncludeDepth => rfl
    have adds : (adding n f).Refunctions n := by cases f <;> rfl
    by_cases hr : op.Refunctions n
    · constructor
      · intro h
        cases op with
        | addFilter m g =>
          cases hr
          rw [after, Op.apply, Engine.addFilter] at h
          dsimp only at h
          rw [get_insert, if_pos rfl] at h
          cases h
          exact ⟨[], ops, rfl, fun op h => by cases h⟩
        | addFormatter m g =>
          cases hr
          rw [after, Op.apply, Engine.addFormatter] at h
          dsimp only at h
          rw [get_insert, if_pos rfl] at h
          cases h
          exact ⟨[], ops, rfl, fun op h => by cases h⟩
        | removeFunction m =>
          cases hr
          rw [after, Op.apply, Engine.removeFunction] at h
          dsimp only at h
          rw [get_remove asc, if_pos rfl] at h; cases h
        | _ => exact absurd hr id
      · rintro ⟨newer, older, e1, hno⟩
        cases newer with
        | cons op' newer =>
          cases e1
          exact absurd hr (hno _ List.mem_cons_self)
        | nil =>
          cases e1
          rw [after]
          cases f with
          | filter g => dsimp only [adding, Op.apply, Engine.addFilter]; rw [get_insert, if_pos rfl]
          | formatter g => dsimp only [adding, Op.apply, Engine.addFormatter]; rw [get_insert, if_pos rfl]
    · rw [other hr, ih]
      constructor
      · rintro ⟨newer, older, rfl, hno⟩
        refine ⟨op :: newer, older, rfl, fun op' h => ?_⟩
        rcases List.mem_cons.mp h with rfl | h
        · exact hr
        · exact hno op' h
      · rintro ⟨newer, older, e1, hno⟩
        cases newer with
        | nil => cases e1; exact absurd adds hr
        | cons op' newer =>
          cases e1
          exact ⟨newer, older, rfl, fun op' h => hno op' (List.mem_cons_of_mem _ h)⟩

/-- The kind of a function. -/
def Spec.kindOf : EngFn → EngineFn
  | .filter _ => .filter
  | .formatter _ => .formatter

/-- **C29** Every call that adds or removes a function returns the kind of function that the name stood
for before, if any. -/
theorem C29_reports (e : Engine) (n : Str) (f : Filter) (g : Formatter) :
    (e.addFilter n f).2 = (BMap.get e.functions n).map kindOf ∧
    (e.addFormatter n g).2 = (BMap.get e.functions n).map kindOf ∧
    (e.removeFunction n).2 = (BMap.get e.functions n).map kindOf := by
  simp only [Engine.addFilter, Engine.addFormatter, Engine.removeFunction]
  cases BMap.get e.functions n with
  | none => simp
  | some f => cases f <;> simp [EngFn.discriminant, kindOf]

/-- **C28**, **C29** The two registries do not influence each other, and the other settings influence
neither. -/
theorem C29_separate (env : Env) (e : Engine) (n src : Str) (f : Filter) (g : Formatter) (d : Nat) :
    (e.addTemplate env n src).1.functions = e.functions ∧ (e.removeTemplate n).1.functions = e.functions ∧
    (e.addFilter n f).1.templates = e.templates ∧ (e.addFormatter n g).1.templates = e.templates ∧
    (e.removeFunction n).1.templates = e.templates ∧
    (e.setDefaultFormatter g).functions = e.functions ∧ (e.setDefaultFormatter g).templates = e.templates ∧
    (e.setMaxIncludeDepth d).functions = e.functions ∧ (e.setMaxIncludeDepth d).templates = e.templates := by
  refine ⟨?_, rfl, rfl, rfl, rfl, rfl, rfl, rfl, rfl⟩
  rw [Engine.addTemplate]; split <;> rfl

/-! What histories give -/

theorem fresh_compiled {env : Env} {b : SyntaxBuilder} {e : Engine} (he : Fresh env b e)
    {src : Str} (hw : Tidy b.build src) {t : Template} (h : e.compile env src = .ok t) : Compiled env t :=
  ⟨b, e.searcher, src, ⟨he.built, he.init.1⟩, hw, h⟩

/-- Every renderer made from an engine after any history is healthy. -/
theorem after_healthy {env : Env} {b : SyntaxBuilder} {e : Engine} (he : Fresh env b e) (ops : List Op)
    (hw : ∀ n src, Op.addTemplate n src ∈ ops → Tidy b.build src) {t : Template} (ht : Compiled env t) (name : Option Str) (g : Globals) (d : Option Nat) :
    Healthy env ⟨g, after env e ops, t, name, d, none⟩ :=
  ⟨ht, fun n t h => by
    obtain ⟨_, src, _, e, hc, _⟩ := (C28_registry he ops n t).mp h
    exact fresh_compiled he (hw n src (by rw [e]; simp)) hc⟩

/-- **C15**, **C40** After any history of an engine, rendering a template looked up by its name, with
any globals and any depth limit, returns, and returns only one thing. -/
theorem C40_history {env : Env} {b : SyntaxBuilder} {e : Engine} (he : Fresh env b e) {ops : List Op}
    (hw : ∀ n src, Op.addTemplate n src ∈ ops → Tidy b.build src) {n : Str} {t : Template} (ht : (after env e ops).getTemplate n = some t) (g : Globals)
    (d : Option Nat) :
    ∃ res, Renderer.ToString env ⟨g, after env e ops, t, some n, d, none⟩ res ∧
      ∀ res', Renderer.ToString env ⟨g, after env e ops, t, some n, d, none⟩ res' → res' = res := by
  obtain ⟨_, src, _, e, hc, _⟩ := (C28_registry he ops n t).mp ht
  exact C40_to_string (after_healthy he ops hw (fresh_compiled he (hw n src (by rw [e]; simp)) hc) _ _ _)

end Upon
