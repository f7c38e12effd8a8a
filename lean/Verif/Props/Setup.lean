import Verif.Spec.Setup
import Verif.Props.Registry
/-
C80: the order in which an engine is set up does not matter.
-/
namespace Upon
open Spec
variable {env : Env} {b : SyntaxBuilder} {e : Engine}

namespace Setup

theorem template_iff (he : Fresh env b e) (ops : List Op) (n : Str) (t : Template) :
    (after env e ops).getTemplate n = some t ↔ ∃ src, e.compile env src = .ok t ∧ LastAbout env e ops (.template n) (.addTemplate n src) := by
  rw [C28_registry he]
  have key : ∀ o : Op, (o.topic = .template n → ¬ o.Succeeds env e) ↔ ¬ o.Retemplates env e n := by
    intro o
    cases o <;> simp [Op.topic, Op.Succeeds, Op.Retemplates]
  constructor
  · rintro ⟨newer, src, older, rfl, hc, h⟩
    exact ⟨src, hc, newer, older, rfl, rfl, ⟨t, hc⟩, fun o ho => (key o).mpr (h o ho)⟩
  · rintro ⟨src, hc, newer, older, rfl, _, _, h⟩
    exact ⟨newer, src, older, rfl, hc, fun o ho => (key o).mp (h o ho)⟩

theorem function_iff (he : Fresh env b e) (ops : List Op) (n : Str) (f : EngFn) :
    BMap.get (after env e ops).functions n = some f ↔ LastAbout env e ops (.function n) (adding n f) := by
  rw [C29_functions he]
  have key : ∀ o : Op, (o.topic = .function n → ¬ o.Succeeds env e) ↔ ¬ o.Refunctions n := by
    intro o
    cases o <;> simp [Op.topic, Op.Succeeds, Op.Refunctions]
  constructor
  · rintro ⟨newer, older, rfl, h⟩
    exact ⟨newer, older, rfl, by cases f <;> rfl, by cases f <;> trivial, fun o ho => (key o).mpr (h o ho)⟩
  · rintro ⟨newer, older, rfl, _, _, h⟩
    exact ⟨newer, older, rfl, fun o ho => (key o).mp (h o ho)⟩

theorem last_cons {op : Op} {ops : List Op} {t : Topic} {o : Op} : LastAbout env e (op :: ops) t o ↔
    (o = op ∧ op.topic = t ∧ op.Succeeds env e) ∨ ((op.topic = t → ¬ op.Succeeds env e) ∧ LastAbout env e ops t o) := by
  constructor
  · rintro ⟨newer, older, h, h1, h2, h3⟩
    cases newer with
    | nil => cases h; exact .inl ⟨rfl, h1, h2⟩
    | cons x newer =>
      cases h
      exact .inr ⟨h3 _ List.mem_cons_self, newer, older, rfl, h1, h2, fun o ho => h3 o (List.mem_cons_of_mem _ ho)⟩
  · rintro (⟨rfl, h1, h2⟩ | ⟨h, newer, older, rfl, h1, h2, h3⟩)
    · exact ⟨[], ops, rfl, h1, h2, by simp⟩
    · refine ⟨op :: newer, older, rfl, h1, h2, fun o ho => ?_⟩
      rcases List.mem_cons.mp ho with rfl | ho
      · exact h
      · exact h3 o ho

theorem last_nil {t : Topic} {o : Op} : ¬ LastAbout env e [] t o := by
  rintro ⟨newer, older, h, _⟩
  cases newer <;> cases h

theorem formatter_last (ops : List Op) :
    (∃ f, LastAbout env e ops .formatter (.setDefaultFormatter f) ∧ (after env e ops).defaultFormatter = f) ∨
    (∀ op, ¬ LastAbout env e ops .formatter op) ∧ (after env e ops).defaultFormatter = e.defaultFormatter := by
  induction ops with
  | nil => exact .inr ⟨fun _ => last_nil, rfl⟩
  | cons op ops ih =>
    by_cases h : op.topic = .formatter
    · cases op <;> cases h
      exact .inl ⟨_, last_cons.mpr (.inl ⟨rfl, rfl, trivial⟩), rfl⟩
    · have hf : (after env e (op :: ops)).defaultFormatter = (after env e ops).defaultFormatter := by
        rw [after]
        cases op with
        | addTemplate n src => rw [Op.apply, Engine.addTemplate]; split <;> rfl
        | setDefaultFormatter f => exact absurd rfl h
        | _ => rfl
      rw [hf]
      rcases ih with ⟨f, h1, h2⟩ | ⟨h1, h2⟩
      · exact .inl ⟨f, last_cons.mpr (.inr ⟨fun k => absurd k h, h1⟩), h2⟩
      · refine .inr ⟨fun o ho => ?_, h2⟩
        rcases last_cons.mp ho with ⟨_, k, _⟩ | ⟨_, k⟩
        · exact h k
        · exact h1 o k

theorem limit_last (ops : List Op) :
    (∃ d, LastAbout env e ops .limit (.setMaxIncludeDepth d) ∧ (after env e ops).maxIncludeDepth = d) ∨
    (∀ op, ¬ LastAbout env e ops .limit op) ∧ (after env e ops).maxIncludeDepth = e.maxIncludeDepth := by
  induction ops with
  | nil => exact .inr ⟨fun _ => last_nil, rfl⟩
  | cons op ops ih =>
    by_cases h : op.topic = .limit
    · cases op <;> cases h
      exact .inl ⟨_, last_cons.mpr (.inl ⟨rfl, rfl, trivial⟩), rfl⟩
    · have hf : (after env e (op :: ops)).maxIncludeDepth = (after env e ops).maxIncludeDepth := by
        rw [after]
        cases op with
        | addTemplate n src => rw [Op.apply, Engine.addTemplate]; split <;> rfl
        | setMaxIncludeDepth f => exact absurd rfl h
        | _ => rfl
      rw [hf]
      rcases ih with ⟨f, h1, h2⟩ | ⟨h1, h2⟩
      · exact .inl ⟨f, last_cons.mpr (.inr ⟨fun k => absurd k h, h1⟩), h2⟩
      · refine .inr ⟨fun o ho => ?_, h2⟩
        rcases last_cons.mp ho with ⟨_, k, _⟩ | ⟨_, k⟩
        · exact h k
        · exact h1 o k

theorem last_unique {ops : List Op} {t : Topic} {o o' : Op} (h : LastAbout env e ops t o) (h' : LastAbout env e ops t o') : o = o' := by
  induction ops with
  | nil => exact absurd h last_nil
  | cons op ops ih =>
    rcases last_cons.mp h with ⟨h1, h2, h3⟩ | ⟨h1, h2⟩ <;> rcases last_cons.mp h' with ⟨k1, k2, k3⟩ | ⟨k1, k2⟩
    · exact h1.trans k1.symm
    · exact absurd h3 (k1 h2)
    · exact absurd k3 (h1 k2)
    · exact ih h2 k2

theorem last_filter {ops : List Op} {t : Topic} {o : Op} :
    LastAbout env e ops t o ↔ LastAbout env e (ops.filter fun o => decide (o.topic = t)) t o := by
  induction ops with
  | nil => exact Iff.rfl
  | cons op ops ih =>
    by_cases h : op.topic = t
    · rw [List.filter_cons_of_pos (by simp [h]), last_cons, last_cons, ih]
    · rw [List.filter_cons_of_neg (by simp [h]), last_cons, ← ih]
      simp [h]

theorem last_other {ops : List Op} {t t' : Topic} {o : Op} (hn : t ≠ t') :
    LastAbout env e (ops.filter fun o => decide (o.topic ≠ t')) t o ↔ LastAbout env e ops t o := by
  induction ops with
  | nil => exact Iff.rfl
  | cons op ops ih =>
    by_cases h : op.topic = t'
    · rw [List.filter_cons_of_neg (by simp [h]), last_cons, ih]
      simp [h, Ne.symm hn]
    · rw [List.filter_cons_of_pos (by simp [h]), last_cons, last_cons, ih]

theorem last_none {ops : List Op} {t : Topic} {o : Op} : ¬ LastAbout env e (ops.filter fun o => decide (o.topic ≠ t)) t o := by
  rintro ⟨newer, older, h, h1, _⟩
  have : o ∈ ops.filter fun o => decide (o.topic ≠ t) := by rw [h]; simp
  simp [h1] at this

end Setup

/-- **C80** What an engine is after a history of calls is decided by the last call about each template name, function name, the default formatter and the limit
that did not fail (a removal counts as no call): two histories that agree on these lead to the same engine, so that everything done with it afterwards has the
same result. -/
theorem C80_last (he : Fresh env b e) {ops ops' : List Op} (h : SameLast env e ops ops') : after env e ops = after env e ops' := by
  have ha := after_ascending he ops
  have ha' := after_ascending he ops'
  have h1 : (after env e ops).templates = (after env e ops').templates := by
    refine ascending_ext ha.1 ha'.1 fun n => Option.ext fun t => ?_
    change (after env e ops).getTemplate n = some t ↔ (after env e ops').getTemplate n = some t
    rw [Setup.template_iff he, Setup.template_iff he]
    exact exists_congr fun src => and_congr_right fun _ => h _ _ id
  have h2 : (after env e ops).functions = (after env e ops').functions := by
    refine ascending_ext ha.2 ha'.2 fun n => Option.ext fun f => ?_
    rw [Setup.function_iff he, Setup.function_iff he]
    exact h _ _ (by cases f <;> exact id)
  have h3 : (after env e ops).defaultFormatter = (after env e ops').defaultFormatter := by
    rcases Setup.formatter_last (env := env) (e := e) ops with ⟨f, k1, k2⟩ | ⟨k1, k2⟩ <;>
      rcases Setup.formatter_last (env := env) (e := e) ops' with ⟨f', k3, k4⟩ | ⟨k3, k4⟩
    · have := Setup.last_unique ((h _ _ id).mp k1) k3
      cases this; rw [k2, k4]
    · exact absurd ((h _ _ id).mp k1) (k3 _)
    · exact absurd ((h _ _ id).mpr k3) (k1 _)
    · rw [k2, k4]
  have h4 : (after env e ops).maxIncludeDepth = (after env e ops').maxIncludeDepth := by
    rcases Setup.limit_last (env := env) (e := e) ops with ⟨f, k1, k2⟩ | ⟨k1, k2⟩ <;>
      rcases Setup.limit_last (env := env) (e := e) ops' with ⟨f', k3, k4⟩ | ⟨k3, k4⟩
    · have := Setup.last_unique ((h _ _ id).mp k1) k3
      cases this; rw [k2, k4]
    · exact absurd ((h _ _ id).mp k1) (k3 _)
    · exact absurd ((h _ _ id).mpr k3) (k1 _)
    · rw [k2, k4]
  have h5 : (after env e ops).searcher = (after env e ops').searcher := by rw [after_searcher, after_searcher]
  revert h1 h2 h3 h4 h5
  generalize after env e ops = x
  generalize after env e ops' = y
  intro h1 h2 h3 h4 h5
  cases x; cases y
  dsimp only at h1 h2 h3 h4 h5
  rw [h1, h2, h3, h4, h5]

/-- **C80** In particular, calls about different things can be made in any order. -/
theorem C80_order (he : Fresh env b e) {ops ops' : List Op} (h : SameByTopic ops ops') : after env e ops = after env e ops' :=
  C80_last he fun t op _ => by rw [Setup.last_filter, h t, ← Setup.last_filter]

/-- **C80** … for example two calls that follow each other. -/
theorem C80_swap (he : Fresh env b e) (newer older : List Op) {op op' : Op} (h : op.topic ≠ op'.topic) :
    after env e (newer ++ op :: op' :: older) = after env e (newer ++ op' :: op :: older) := by
  refine C80_order he fun t => ?_
  rw [List.filter_append, List.filter_append]
  congr 1
  by_cases h1 : op.topic = t
  · have h2 : ¬ op'.topic = t := fun h2 => h (h1.trans h2.symm)
    rw [List.filter_cons_of_pos (by simp [h1]), List.filter_cons_of_neg (by simp [h2]), List.filter_cons_of_neg (by simp [h2]),
      List.filter_cons_of_pos (by simp [h1])]
  · by_cases h2 : op'.topic = t
    · rw [List.filter_cons_of_neg (by simp [h1]), List.filter_cons_of_pos (by simp [h2]), List.filter_cons_of_pos (by simp [h2]),
        List.filter_cons_of_neg (by simp [h1])]
    · rw [List.filter_cons_of_neg (by simp [h1]), List.filter_cons_of_neg (by simp [h2]), List.filter_cons_of_neg (by simp [h2]),
        List.filter_cons_of_neg (by simp [h1])]

/-- **C80** A call that does not fail makes all earlier calls about the same thing irrelevant. -/
theorem C80_replace (he : Fresh env b e) {op : Op} (ops : List Op) (hs : op.Succeeds env e) :
    after env e (op :: ops) = after env e (op :: ops.filter fun o => decide (o.topic ≠ op.topic)) := by
  refine C80_last he fun t o _ => ?_
  rw [Setup.last_cons, Setup.last_cons]
  by_cases h : op.topic = t
  · simp [h, hs]
  · rw [Setup.last_other fun e => h e.symm]

/-- **C80** After a removal the engine is as if nothing had ever been added under the name. -/
theorem C80_remove (he : Fresh env b e) {op : Op} (ops : List Op) (hr : op.Removes) :
    after env e (op :: ops) = after env e (ops.filter fun o => decide (o.topic ≠ op.topic)) := by
  have hs : op.Succeeds env e := by cases op <;> trivial
  rw [C80_replace he ops hs]
  refine C80_last he fun t o ho => ?_
  rw [Setup.last_cons]
  by_cases h : op.topic = t
  · subst h
    simp only [hs, forall_const, not_true_eq_false, false_and, and_true, or_false, iff_false_intro (Setup.last_none (env := env) (e := e) (ops := ops) (t := op.topic) (o := o)), iff_false]
    rintro rfl
    exact ho hr
  · simp [h]

/-! The syntax -/

/-- **C80** A builder is decided by the last call for each of expressions, blocks and comments: there is one unless a delimiter in some call was empty, and it has the
delimiters of those calls, whatever the order. -/
theorem C80_syntax (ops : List SetOp) (b : SyntaxBuilder) : builder ops = some b ↔
    (∀ op ∈ ops, op.Allowed) ∧ b.expr = ops.findSome? SetOp.exprs ∧ b.block = ops.findSome? SetOp.blocks ∧ b.comment = ops.findSome? SetOp.comments := by
  induction ops generalizing b with
  | nil =>
    obtain ⟨x, y, z⟩ := b
    simp only [builder, SyntaxBuilder.new, Option.some.injEq, SyntaxBuilder.mk.injEq, List.not_mem_nil, false_implies, implies_true, true_and, List.findSome?_nil]
    exact ⟨fun ⟨a, b, c⟩ => ⟨a.symm, b.symm, c.symm⟩, fun ⟨a, b, c⟩ => ⟨a.symm, b.symm, c.symm⟩⟩
  | cons op ops ih =>
    rw [builder, Option.bind_eq_some_iff]
    obtain ⟨x, y, z⟩ := b
    constructor
    · rintro ⟨c, hc, ho⟩
      obtain ⟨h1, h2, h3, h4⟩ := (ih c).mp hc
      cases op <;> simp only [SetOp.apply, SyntaxBuilder.setExpr, SyntaxBuilder.setBlock, SyntaxBuilder.setComment, Option.ite_none_right_eq_some, Option.some.injEq] at ho <;>
        obtain ⟨k1, k2⟩ := ho <;> cases k2 <;>
        simp only [List.mem_cons, forall_eq_or_imp, SetOp.Allowed, List.findSome?_cons, SetOp.exprs, SetOp.blocks, SetOp.comments] <;>
        exact ⟨⟨k1, h1⟩, by trivial, by trivial, by trivial⟩
    · rintro ⟨h1, h2, h3, h4⟩
      have ho := h1 op List.mem_cons_self
      refine ⟨⟨_, _, _⟩, (ih ⟨_, _, _⟩).mpr ⟨fun o k => h1 o (List.mem_cons_of_mem _ k), rfl, rfl, rfl⟩, ?_⟩
      cases op <;> simp only [SetOp.Allowed] at ho <;> simp only [List.findSome?_cons, SetOp.exprs, SetOp.blocks, SetOp.comments] at h2 h3 h4 <;>
        simp only [SetOp.apply, SyntaxBuilder.setExpr, SyntaxBuilder.setBlock, SyntaxBuilder.setComment, if_pos ho, h2, h3, h4]

/-- **C80** A call on a builder panics exactly if a delimiter is empty. -/
theorem C80_syntax_panics (ops : List SetOp) : builder ops = none ↔ ∃ op ∈ ops, ¬ op.Allowed := by
  constructor
  · intro h
    refine Classical.byContradiction fun hn => ?_
    have := (C80_syntax ops ⟨_, _, _⟩).mpr ⟨fun op ho => Classical.byContradiction fun k => hn ⟨op, ho, k⟩, rfl, rfl, rfl⟩
    rw [h] at this
    cases this
  · rintro ⟨op, ho, hn⟩
    cases h : builder ops with
    | none => rfl
    | some b => exact absurd (((C80_syntax ops b).mp h).1 op ho) hn

/-- These are the builders that there are. -/
theorem Setup.built_iff (b : SyntaxBuilder) : Built b ↔ ∃ ops, builder ops = some b := by
  constructor
  · intro h
    induction h with
    | new => exact ⟨[], rfl⟩
    | @expr b b' x y _ h ih => obtain ⟨ops, ho⟩ := ih; exact ⟨.expr x y :: ops, by rw [builder, ho]; exact h⟩
    | @block b b' x y _ h ih => obtain ⟨ops, ho⟩ := ih; exact ⟨.block x y :: ops, by rw [builder, ho]; exact h⟩
    | @comment b b' x y _ h ih => obtain ⟨ops, ho⟩ := ih; exact ⟨.comment x y :: ops, by rw [builder, ho]; exact h⟩
  · rintro ⟨ops, h⟩
    induction ops generalizing b with
    | nil => cases h; exact .new
    | cons op ops ih =>
      rw [builder, Option.bind_eq_some_iff] at h
      obtain ⟨c, hc, ho⟩ := h
      cases op with
      | expr => exact .expr (ih c hc) ho
      | block => exact .block (ih c hc) ho
      | comment => exact .comment (ih c hc) ho

end Upon
