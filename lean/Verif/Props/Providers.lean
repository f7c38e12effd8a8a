import Verif.Proofs.Steps
import Verif.Props.Blame
import Verif.Props.Depth
/-
Functions that provide templates and values (C27).
-/
namespace Upon
open Spec Compiler
variable {σ : Type} {cfg : RenderCfg σ} {k : Nat} {st : Stack} {name : Option Str} {src : Str} {env : Env}

/-! Values -/

theorem pathIs_iff (ms : List Member) (p : List ValueMember) : toValueMembers src ms = .ok p ↔ PathIs src ms p := by
  induction ms generalizing p with
  | nil =>
    constructor
    · intro h; cases h; exact .nil
    · intro h; cases h; rfl
  | cons m ms ih =>
    obtain ⟨op, acc, sp⟩ := m
    rw [toValueMembers]
    constructor
    · intro h
      obtain ⟨x, hx, h⟩ := bind_ok' h
      obtain ⟨xs, hxs, h⟩ := bind_ok' h
      cases h
      have hxs := (ih xs).mp hxs
      cases acc with
      | index i => cases hx; exact .index hxs
      | key n =>
        obtain ⟨s, hs, hx⟩ := bind_ok' hx
        cases hx
        exact .key (ofOption_ok hs) hxs
    · intro h
      cases h with
      | key hs h => simp [toValueMember, hs, Res.ofOption, (ih _).mpr h]
      | index h => simp [toValueMember, (ih _).mpr h]

/-- Every variable in a template has a path, and only one. -/
theorem C27_path {v : Var} (h : VarIn src v) : ∃ p, PathIs src v.path p ∧ ∀ p', PathIs src v.path p' → p' = p := by
  have hm : ∀ m ∈ v.path, SpanIn src m.access.span := by
    intro m hm
    rcases List.mem_cons.mp hm with rfl | hm
    · exact h.1.2
    · exact (h.2 m hm).2
  have : ∀ ms : List Member, (∀ m ∈ ms, SpanIn src m.access.span) → ∃ p, PathIs src ms p := by
    intro ms
    induction ms with
    | nil => intro _; exact ⟨[], .nil⟩
    | cons m ms ih =>
      intro hm
      obtain ⟨p, hp⟩ := ih fun m h => hm m (List.mem_cons_of_mem _ h)
      have h0 := hm m List.mem_cons_self
      obtain ⟨op, acc, sp⟩ := m
      cases acc with
      | index i => exact ⟨_, .index hp⟩
      | key n =>
        obtain ⟨t, ht⟩ := h0
        exact ⟨_, .key ht hp⟩
  obtain ⟨p, hp⟩ := this _ hm
  refine ⟨p, hp, fun p' hp' => ?_⟩
  have h1 := (pathIs_iff v.path p).mpr hp
  rw [(pathIs_iff v.path p').mpr hp'] at h1
  cases h1; rfl

/-- **C27** A variable that is not bound in the template is what the value function returns for its whole
path; an error of the function is an error of the render, with its message, at the variable. -/
theorem C27_value {f : ValueFn} {v : Var} (hv : VarIn src v) (hne : src ≠ []) {p : List ValueMember} (hp : PathIs src v.path p) (st : Stack) :
    (∀ x, f p = .ok x → lookupVar env src (.valueFn f :: st) v = .ok (.owned x)) ∧
    (∀ m, f p = .error m → ∃ pr, Pretty.build env src v.span = some pr ∧
      lookupVar env src (.valueFn f :: st) v = .err ⟨.render, none, some m, some pr⟩) := by
  have h := (pathIs_iff v.path p).mpr hp
  refine ⟨fun x hx => ?_, fun m hm => ?_⟩
  · rw [lookupVar, h, Res.ok_bind, hx]
  · obtain ⟨t, ht⟩ := var_span_in hv
    obtain ⟨pr, hpr⟩ := pretty_isSome env hne ht
    refine ⟨pr, hpr, ?_⟩
    rw [lookupVar, h, Res.ok_bind, hm]
    simp only [errRender, throwAt, hpr]

/-- Bindings made inside the template, by `with` and by loops, of names other than `n`. -/
inductive Spec.Elsewhere (src : Str) (n : Str) : Stack → Prop
  | nil : Elsewhere src n []
  | with_ {i c m st} : i.span.of src = some m → n ≠ m → Elsewhere src n st → Elsewhere src n (.var i c :: st)
  | list {x owned l j st} : j < l.length → n ≠ "loop".toList → n ≠ x → Elsewhere src n st →
      Elsewhere src n (.loop (listRound x owned l j) :: st)
  | map {kn vn owned m j st} : j < m.length → n ≠ "loop".toList → n ≠ kn → n ≠ vn → Elsewhere src n st →
      Elsewhere src n (.loop (mapRound kn vn owned m j) :: st)

/-- **C27** Whatever else is bound in the template, a variable whose name is not is looked up in the globals or
asked from the value function. -/
theorem C27_unbound {n : Str} (h : Elsewhere src n st) {v : Var} (hn : Named src v n) (base : Stack) :
    lookupVar env src (st ++ base) v = lookupVar env src base v := by
  have hn' := hn
  obtain ⟨ki, hk, hs⟩ := hn
  have h1 : v.first.access.span.of src = some n := by rw [hk]; exact hs
  induction h with
  | nil => rfl
  | with_ hm hne _ ih => rw [List.cons_append, C20_through h1 hm hne, ih]
  | list hj a b _ ih => rw [List.cons_append, C20_loop_through hj hn' a b, ih]
  | map hj a b c _ ih => rw [List.cons_append, C20_map_through hj hn' a b c, ih]

/-- **C27** Only the answer to this path matters: two value functions which agree on it are the same to the
variable, whatever is bound above them. -/
theorem C27_only {f g : ValueFn} {v : Var} {p : List ValueMember} (hp : PathIs src v.path p) (h : f p = g p) (st : Stack) :
    lookupVar env src (st ++ [.valueFn f]) v = lookupVar env src (st ++ [.valueFn g]) v := by
  have hp := (pathIs_iff v.path p).mpr hp
  induction st with
  | nil => simp only [List.nil_append, lookupVar, hp, Res.ok_bind, h]
  | cons s st ih =>
    cases s with
    | valueFn f' => rfl
    | scope c => simp only [List.cons_append, lookupVar, ih]
    | var n c => simp only [List.cons_append, lookupVar, ih]
    | loop ls => simp only [List.cons_append, lookupVar, ih]
    | boundary => rfl

/-! Templates -/

/-- **C27** An `include` asks the template function for its name, once, before anything else; if the function
fails, that is the error of the render, with its message, at the name. -/
theorem C27_template_error (hl : Live cfg k st) {f : TemplateFn} (hf : cfg.templateFn = some f) {n : AstString}
    (hsp : SpanIn src n.span) (hne : src ≠ []) {w : World σ} {m : String} (h : f w.asked n.name = .error m) :
    ∃ p, Pretty.build cfg.env src n.span = some p ∧ ∀ res, Piece cfg k name src [.include_ n none] st w res ↔
      res = .err (Err.attachName ⟨.render, none, some m, some p⟩ name) ⟨w.out, n.name :: w.asked⟩ := by
  obtain ⟨t, ht⟩ := hsp
  obtain ⟨p, hp⟩ := pretty_isSome cfg.env hne ht
  refine ⟨p, hp, fun res => C21_unknown hl ?_ res⟩
  simp only [getTemplate, hf, h, errRender, throwAt, hp]

/-- **C27** … and if it returns a template, that one is rendered, as it is. -/
theorem C27_template (hl : Live cfg k st) {f : TemplateFn} (hf : cfg.templateFn = some f) {n : AstString}
    {w : World σ} {t : Template} (h : f w.asked n.name = .ok t) {T : Tree} (hT : Parsed cfg.env t T)
    (hk : k + 2 ≤ cfg.maxIncludeDepth) (res : RunRes σ) :
    Piece cfg k name src [.include_ n none] st w res ↔
      Piece cfg (k + 1) (some n.name) T.source T.body st ⟨w.out, n.name :: w.asked⟩ res :=
  C21_include hl (by simp only [getTemplate, hf, h]) hT.code hk res

/-- **C27** The same with a value. -/
theorem C27_template_with (hl : Live cfg k st) {f : TemplateFn} (hf : cfg.templateFn = some f) {n : AstString} {e : Expr} {v : Cow}
    (hv : valueOf cfg src st e = .ok v) {w : World σ} {t : Template} (h : f w.asked n.name = .ok t) {T : Tree}
    (hT : Parsed cfg.env t T) (hk : k + 2 ≤ cfg.maxIncludeDepth) (res : RunRes σ) :
    Piece cfg k name src [.include_ n (some e)] st w res ↔
      Piece cfg (k + 1) (some n.name) T.source T.body [.scope v] ⟨w.out, n.name :: w.asked⟩ res :=
  C22_include_with hl hv (by simp only [getTemplate, hf, h]) hT.code hk res

/-- **C27** Without a template function the templates of the engine are used, by their exact names. -/
theorem C27_registry (hl : Live cfg k st) (hf : cfg.templateFn = none) {n : AstString} (hsp : SpanIn src n.span) (hne : src ≠ []) (w : World σ) :
    (∀ t T, BMap.get cfg.templates n.name = some t → Parsed cfg.env t T → k + 2 ≤ cfg.maxIncludeDepth → ∀ res,
      (Piece cfg k name src [.include_ n none] st w res ↔ Piece cfg (k + 1) (some n.name) T.source T.body st w res)) ∧
    (BMap.get cfg.templates n.name = none → ∃ p, Pretty.build cfg.env src n.span = some p ∧ ∀ res,
      (Piece cfg k name src [.include_ n none] st w res ↔
        res = .err (Err.attachName ⟨.render, none, some "unknown template", some p⟩ name) w)) := by
  refine ⟨fun t T h hT hk res => C21_include hl (by simp only [getTemplate, hf, h]) hT.code hk res, fun h => ?_⟩
  obtain ⟨t, ht⟩ := hsp
  obtain ⟨p, hp⟩ := pretty_isSome cfg.env hne ht
  refine ⟨p, hp, fun res => C21_unknown hl ?_ res⟩
  simp only [getTemplate, hf, h, errRender, throwAt, hp]

/-- The same, but with other templates in the engine. -/
def Spec.withTemplates (cfg : RenderCfg σ) (ts : BMap Template) : RenderCfg σ := { cfg with templates := ts }

/-- **C27** With a template function the templates of the engine have no influence. -/
theorem C27_no_registry {f : TemplateFn} (hf : cfg.templateFn = some f) (ts : BMap Template) (vm : VM σ) (res : RunRes σ) :
    Halts (withTemplates cfg ts) vm res ↔ Halts cfg vm res := by
  have hs : ∀ vm, step (withTemplates cfg ts) vm = step cfg vm := by
    intro vm
    have hg : ∀ src n w, getTemplate (withTemplates cfg ts) src n w = getTemplate cfg src n w := by
      intro src n w
      have hf' : (withTemplates cfg ts).templateFn = some f := hf
      simp only [getTemplate, hf, hf']; rfl
    have he : ∀ src pc st ex w i, execInstr (withTemplates cfg ts) src pc st ex w i = execInstr cfg src pc st ex w i := by
      intro src pc st ex w i
      cases i <;> rfl
    rw [step, step]
    simp only [hg, he]
    rfl
  have hr : ∀ n vm, run (withTemplates cfg ts) n vm = run cfg n vm := by
    intro n
    induction n with
    | zero => intro vm; rfl
    | succ n ih =>
      intro vm
      rw [run, run, hs]
      cases step cfg vm with
      | halt r => rfl
      | next vm' => exact ih vm'
  exact ⟨fun ⟨n, h⟩ => ⟨n, by rw [← hr]; exact h⟩, fun ⟨n, h⟩ => ⟨n, by rw [hr]; exact h⟩⟩

/-- **C27** The template function is asked once for each `include` that is executed, in this order, with the
name in the `include`, and never else. -/
theorem C27_once {f : TemplateFn} (hf : cfg.templateFn = some f) {vm : VM σ} (hl : vm.frames.length ≤ max 1 cfg.maxIncludeDepth)
    {n : Nat} {res : RunRes σ} (h : run cfg n vm = some res) {names : List Str} (hn : askedBy res = some names) :
    names = (included cfg n vm).reverse ++ vm.w.asked := by
  induction n generalizing vm with
  | zero => cases h
  | succ n ih =>
    rw [run] at h
    rw [included]
    have hg : ∀ src nm w, (getTemplate cfg src nm w).1 = ⟨w.out, nm.name :: w.asked⟩ := by
      intro src nm w
      simp only [getTemplate, hf]
    cases hi : including vm with
    | none =>
      have hp := plain_step hl hi
      cases hs : step cfg vm with
      | halt r =>
        rw [hs] at h hp
        cases h
        cases hp with
        | ok hw => cases hn; simpa using hw
        | err hw _ => cases hn; simpa using hw
        | crash => cases hn
      | next vm' =>
        rw [hs] at h hp
        cases hp with
        | next hw _ =>
          rw [ih (bound_step hl hs) h, hw]
          rfl
    | some p =>
      obtain ⟨nm, s⟩ := p
      obtain ⟨h1, h2, h3⟩ := include_step hi cfg
      rcases hgt : getTemplate cfg s nm vm.w with ⟨w, r⟩
      have hw : w = ⟨vm.w.out, nm.name :: vm.w.asked⟩ := by rw [← hg s nm vm.w, hgt]
      cases r with
      | ok t =>
        have hs := h1 w t hgt
        rw [checkDepth] at hs
        split at hs
        · rw [hs] at h ⊢
          cases h
          cases hn
          rw [(entered_length hi t w).2, hw]; simp
        · rw [hs] at h ⊢
          rw [ih (bound_step hl hs) h]
          rw [(entered_length hi t w).2, hw]; simp
      | err e =>
        rw [h2 w e hgt] at h ⊢
        cases h; cases hn
        simp [hw]
      | crash =>
        rw [h3 w hgt] at h
        cases h; cases hn

/-- **C27** Without a template function nothing is asked. -/
theorem C27_silent (hf : cfg.templateFn = none) {vm : VM σ} (hl : vm.frames.length ≤ max 1 cfg.maxIncludeDepth)
    {res : RunRes σ} (h : Halts cfg vm res) {names : List Str} (hn : askedBy res = some names) : names = vm.w.asked := by
  obtain ⟨n, h⟩ := h
  induction n generalizing vm with
  | zero => cases h
  | succ n ih =>
    rw [run] at h
    have hg : ∀ src nm w, (getTemplate cfg src nm w).1 = w := by
      intro src nm w
      simp only [getTemplate, hf]
    cases hi : including vm with
    | none =>
      have hp := plain_step hl hi
      cases hs : step cfg vm with
      | halt r =>
        rw [hs] at h hp
        cases h
        cases hp with
        | ok hw => cases hn; exact hw
        | err hw _ => cases hn; exact hw
        | crash => cases hn
      | next vm' =>
        rw [hs] at h hp
        cases hp with
        | next hw _ => rw [ih (bound_step hl hs) h, hw]
    | some p =>
      obtain ⟨nm, s⟩ := p
      obtain ⟨h1, h2, h3⟩ := include_step hi cfg
      rcases hgt : getTemplate cfg s nm vm.w with ⟨w, r⟩
      have hw : w = vm.w := by rw [← hg s nm vm.w, hgt]
      cases r with
      | ok t =>
        have hs := h1 w t hgt
        rw [checkDepth] at hs
        split at hs
        · rw [hs] at h
          cases h
          cases hn
          rw [(entered_length hi t w).2, hw]
        · rw [hs] at h
          rw [ih (bound_step hl hs) h, (entered_length hi t w).2, hw]
      | err e =>
        rw [h2 w e hgt] at h
        cases h; cases hn
        rw [hw]
      | crash =>
        rw [h3 w hgt] at h
        cases h; cases hn

/-! Statements without includes -/

/-- The world that is left has the same questions as `w`. -/
structure Still (w : World σ) (res : RunRes σ) : Prop where
  of : ∀ names, askedBy res = some names → names = w.asked

theorem Still.ok (w : World σ) : Still w (.ok w) := ⟨fun _ h => by cases h; rfl⟩
theorem Still.andThen {α : Type} {w : World σ} {r : Res α} {K : α → RunRes σ} (h : ∀ a, Still w (K a)) :
    Still w (Spec.andThen name w r K) := by
  cases r with
  | ok a => exact h a
  | err e => exact ⟨fun _ h => by cases h; rfl⟩
  | crash => exact ⟨fun _ h => by cases h⟩
theorem Still.seq {w : World σ} {r : RunRes σ} {K : World σ → RunRes σ} (h : Still w r) (hk : ∀ w', Still w' (K w')) :
    Still w (Spec.seq r K) := by
  cases r with
  | ok w' =>
    have h := h.of _ rfl
    exact ⟨fun n hn => by rw [(hk w').of n hn, h]⟩
  | err e w' => exact h
  | crash => exact h
theorem Still.write (f : Formatter) (v : Value) (sp : Span) (w : World σ) : Still w (Spec.write cfg name f v src sp w) := by
  rw [Spec.write.eq_def]
  split
  · exact ⟨fun _ h => by cases h; rfl⟩
  · refine ⟨fun n h => ?_⟩
    rename_i out reason _
    have := Still.andThen (name := name) (w := (⟨out, w.asked⟩ : World σ)) (r := (throwAt cfg.env .format reason src sp : Res Unit))
      (K := fun _ => .crash) (fun _ => ⟨fun _ h => by cases h⟩)
    exact this.of n h

mutual
theorem still_stmt {inc : Include σ} (s : Stmt) (h : ∀ n x, ¬ Contains s n x) {q : Quirks} (ρ : Scope) (w : World σ) :
    Still w (evalStmt q cfg inc name src ρ s w) := by
  match s with
  | .raw sp =>
    rw [evalStmt]
    refine .andThen fun t => ?_
    split
    · exact ⟨fun _ h => by cases h; rfl⟩
    · exact ⟨fun _ h => by cases h; rfl⟩
  | .inlineExpr e sp =>
    rw [evalStmt, emitExpr.eq_def]
    split
    · refine .andThen fun v => .andThen fun n => ?_
      split
      · exact .write _ _ _ _
      · exact .andThen fun r => .write _ _ _ _
      · exact .andThen fun _ => ⟨fun _ h => by cases h⟩
    · exact .andThen fun v => .write _ _ _ _
  | .include_ n x => exact absurd .here (h n x)
  | .ifElse neg c t none =>
    rw [evalStmt]
    refine .andThen fun v => ?_
    split
    · exact still_stmts t (fun n x hc => h n x (.thn hc)) ρ w
    · exact .ok w
  | .ifElse neg c t (some e) =>
    rw [evalStmt]
    refine .andThen fun v => ?_
    split
    · exact still_stmts t (fun n x hc => h n x (.thn hc)) ρ w
    · exact still_stmts e (fun n x hc => h n x (.els hc)) ρ w
  | .forLoop vars e body =>
    rw [evalStmt]
    refine .andThen fun v => .andThen fun bs => ?_
    have hb := fun (b : Binding) w => still_stmts (inc := inc) body (fun n x hc => h n x (.for_ hc)) (q := q) (b :: ρ) w
    induction bs generalizing w with
    | nil => exact .ok w
    | cons b bs ih => exact .seq (hb b w) fun w' => ih w'
  | .with_ e n body =>
    rw [evalStmt]
    exact .andThen fun v => still_stmts body (fun n x hc => h n x (.with_ hc)) _ w

theorem still_stmts {inc : Include σ} (ss : List Stmt) (h : ∀ n x, ¬ ContainsAny ss n x) {q : Quirks} (ρ : Scope) (w : World σ) :
    Still w (evalStmts q cfg inc name src ρ ss w) := by
  match ss with
  | [] => rw [evalStmts]; exact .ok w
  | s :: ss =>
    rw [evalStmts]
    exact .seq (still_stmt s (fun n x hc => h n x (.head hc)) ρ w)
      fun w' => still_stmts ss (fun n x hc => h n x (.tail hc)) ρ w'
end

/-- **C27** Statements that contain no `include` ask for no template. -/
theorem C27_no_include (hl : Live cfg k st) {ss : List Stmt} (h : ∀ n x, ¬ ContainsAny ss n x) {w : World σ} {res : RunRes σ}
    (hp : Piece cfg k name src ss st w res) {names : List Str} (hn : askedBy res = some names) : names = w.asked := by
  obtain ⟨tree, ρ, _, _, hx, hpi⟩ := live_piece (src := src) (name := name) hl
  rw [(hpi ss w res).mp hp] at hn
  exact (still_stmts ss h ρ w).of names hn

/-- A template function that gives out a template which includes itself, twice: it is asked three times, and its
error ends the render. -/
example : (run ⟨asciiEnv, fmtDefault asciiEnv, [], [], some fun asked n =>
      if n = ['h'] then if asked.length < 2 then .ok (Demo.code Demo.h) else .error "enough" else .error "no", 64, stringSink⟩ 50
      (initVM (Demo.code Demo.h) none (.scope (.borrowed .none)) [])).map (fun
        | .err e w => (e.reason, w)
        | .ok w => (none, w)
        | .crash => (none, ⟨[], []⟩)) =
    some (some "enough", ⟨"xxx".toList, ["h".toList, "h".toList, "h".toList]⟩) := by decide +kernel

/-- A value function that says how long the paths are: `[{{ a?.k }}]`. -/
example : run ⟨asciiEnv, fmtDefault asciiEnv, [], [], none, 64, stringSink⟩ 50
      (initVM (Demo.code Demo.b) none (.valueFn fun p => .ok (.integer p.length)) []) =
    some (.ok ⟨"[2]".toList, []⟩) := by decide +kernel

end Upon
