import Verif.Proofs.Sim
/-
Statements and whole renders: the machine follows the meaning of the syntax tree.
-/
namespace Upon
open Spec Compiler
variable {σ : Type}

section
variable {cfg : RenderCfg σ} {t : Template} {name : Option Str} {hs : Bool} {fs : List Frame} {st : Stack}
  {ρ : Scope} {w : World σ} {pc : Nat}

theorem expr_does (hr : Rel st ρ) (e : Expr) (h : At t pc (codeExpr e)) :
    Does cfg name w (mach t name hs fs pc st none w) (evalExpr asBuilt cfg t.source ρ e)
      (fun c => mach t name hs fs (pc + (codeExpr e).length) st (some c) w) := by
  induction e generalizing pc with
  | base b =>
    cases b with
    | var v =>
      rw [evalExpr, evalBase, ← lookupVar_eq cfg.env t.source hr]
      exact step_does (i := .exprStart v) (st' := fun _ => st) (ex' := some) h.head rfl
    | lit l =>
      exact step_next h.head (i := .exprStartLit l.value) rfl
  | call fn args recv span ih =>
    rw [codeExpr] at h
    rw [evalExpr]
    refine Does.bind (ih h.left) fun v => ?_
    have hi := h.right.head
    simp only [codeExpr, List.length_append, List.length_singleton, ← Nat.add_assoc]
    generalize pc + (codeExpr recv).length = pc' at hi
    have ex : execInstr cfg t.source pc' st (some v) w (.apply fn span args) =
        OneStep.ofRes w (do
          let n ← Res.ofOption (fn.span.of t.source)
          match BMap.get cfg.functions n with
          | some (.filter f) => do
            let r ← applyFilter asBuilt cfg.env t.source ρ f fn v ((args.map Args.values).getD [])
            .ok (.owned r)
          | some (.formatter _) => errRender cfg.env "expected filter, found formatter" t.source fn.span
          | none => errRender cfg.env "unknown filter" t.source fn.span)
        (fun c => .next (pc' + 1) st (some c) w) := by
      rw [execInstr]
      cases Res.ofOption (fn.span.of t.source) with
      | err e => rfl
      | crash => rfl
      | ok n =>
        simp only [OneStep.ofRes, Res.ok_bind]
        cases BMap.get cfg.functions n with
        | none => simp only [errRender, throwAt]; cases Pretty.build cfg.env t.source fn.span <;> rfl
        | some f =>
          cases f with
          | formatter f => simp only [errRender, throwAt]; cases Pretty.build cfg.env t.source fn.span <;> rfl
          | filter f =>
            simp only [callFilter_eq cfg.env f t.source hr]
            cases applyFilter asBuilt cfg.env t.source ρ f fn v ((args.map Args.values).getD []) <;> rfl
    exact step_does (st' := fun _ => st) (ex' := some) hi ex

/-- Writing a value. -/
theorem write_does {i : Instr} (hi : t.instrs[pc]? = some i) {ex : Option Cow} {f : Formatter} {v : Value} {sp : Span}
    (h : execInstr cfg t.source pc st ex w i = emit cfg f v t.source sp w (fun w => .next (pc + 1) st none w)) :
    DoesR cfg (mach t name hs fs pc st ex w) (write cfg name f v t.source sp w)
      (fun w' => mach t name hs fs (pc + 1) st none w') := by
  rw [emit] at h
  rw [write]
  cases hf : (f v).run cfg.sink w.out with
  | mk out r =>
    rw [hf] at h
    cases r with
    | ok u => exact step_next hi h
    | error m =>
      simp only [throwFormat_eq] at h ⊢
      revert h
      cases (formatFault cfg.env m t.source sp : Res Unit) with
      | ok u => exact fun h => step_crash hi h
      | err e => exact fun h => step_err hi h
      | crash => exact fun h => step_crash hi h

theorem emit_does (hr : Rel st ρ) (e : Expr) (h : At t pc (codeEmit e)) :
    DoesR cfg (mach t name hs fs pc st none w) (emitExpr asBuilt cfg name t.source ρ e w)
      (fun w' => mach t name hs fs (pc + (codeEmit e).length) st none w') := by
  have gen : ∀ e : Expr, At t pc (codeExpr e ++ [Instr.emit e.span]) →
      DoesR cfg (mach t name hs fs pc st none w)
        (andThen name w (evalExpr asBuilt cfg t.source ρ e) fun v =>
          write cfg name cfg.defaultFormatter v.val t.source e.span w)
        (fun w' => mach t name hs fs (pc + (codeExpr e ++ [Instr.emit e.span]).length) st none w') := by
    intro e h
    refine Does.andThen (expr_does hr e h.left) fun v => ?_
    rw [List.length_append, List.length_singleton, ← Nat.add_assoc]
    exact write_does h.right.head rfl
  match e with
  | .base b => exact gen _ h
  | .call fn (some args) recv span => exact gen _ h
  | .call fn none recv span =>
    rw [codeEmit] at h ⊢
    rw [emitExpr]
    refine Does.andThen (expr_does hr recv h.left) fun v => ?_
    have hi := h.right.head
    rw [List.length_append, List.length_singleton, ← Nat.add_assoc]
    generalize pc + (codeExpr recv).length = pc' at hi ⊢
    obtain ⟨X, hX⟩ : ∃ X, execInstr cfg t.source pc' st (some v) w (.emitWith fn span) = X := ⟨_, rfl⟩
    have ex := hX
    simp only [execInstr] at ex
    revert ex
    cases Res.ofOption (fn.span.of t.source) with
    | err e => exact fun ex => step_err hi (hX.trans ex.symm)
    | crash => exact fun ex => step_crash hi (hX.trans ex.symm)
    | ok n =>
      simp only [OneStep.ofRes, andThen]
      cases BMap.get cfg.functions n with
      | none =>
        simp only [errRender_eq]
        cases (fault cfg.env "unknown filter or formatter" t.source fn.span : Res Unit) with
        | ok u => exact fun ex => step_crash hi (hX.trans ex.symm)
        | err e => exact fun ex => step_err hi (hX.trans ex.symm)
        | crash => exact fun ex => step_crash hi (hX.trans ex.symm)
      | some f =>
        cases f with
        | formatter f => exact fun ex => write_does hi (hX.trans ex.symm)
        | filter f =>
          simp only [callFilter_eq cfg.env f t.source hr]
          cases applyFilter asBuilt cfg.env t.source ρ f fn v [] with
          | ok r => exact fun ex => write_does hi (hX.trans ex.symm)
          | err e => exact fun ex => step_err hi (hX.trans ex.symm)
          | crash => exact fun ex => step_crash hi (hX.trans ex.symm)

/-- A loop, positioned at the instruction that advances it. -/
theorem listLoop_does (hr : Rel st ρ) {j : Nat} (hnext : t.instrs[pc]? = some (.loopNext j)) {body : Scope → World σ → RunRes σ}
    {pe : Nat} (hbody : ∀ b st' w, Rel (.loop b :: st) (st' :: ρ) →
      DoesR cfg (mach t name hs fs (pc + 1) (.loop b :: st) none w) (body (st' :: ρ) w)
        (fun w' => mach t name hs fs pe (.loop b :: st) none w'))
    (hjump : t.instrs[pe]? = some (.jump pc)) (o : Bool) (n : Str) (xs : List Value) :
    ∀ i val w, DoesR cfg (mach t name hs fs pc (.loop (.list o n i xs val) :: st) none w)
      (forEach (fun b => body (b :: ρ)) (listRounds n o i xs) w) (fun w' => mach t name hs fs j st none w') := by
  induction xs with
  | nil =>
    intro i val w
    exact step_next hnext rfl
  | cons x xs ih =>
    intro i val w
    rw [listRounds, forEach]
    refine DoesR.steps (step_next hnext (pc' := pc + 1) (st' := .loop (.list o n (i + 1) xs (some (i, x))) :: st)
      (ex' := none) (w' := w) rfl) ?_
    refine DoesR.seq (hbody _ _ w (Rel.list o n (i + 1) xs i x hr)) fun w' => ?_
    refine DoesR.steps (step_next hjump (pc' := pc) rfl) ?_
    exact ih _ _ _

theorem mapLoop_does (hr : Rel st ρ) {j : Nat} (hnext : t.instrs[pc]? = some (.loopNext j)) {body : Scope → World σ → RunRes σ}
    {pe : Nat} (hbody : ∀ b st' w, Rel (.loop b :: st) (st' :: ρ) →
      DoesR cfg (mach t name hs fs (pc + 1) (.loop b :: st) none w) (body (st' :: ρ) w)
        (fun w' => mach t name hs fs pe (.loop b :: st) none w'))
    (hjump : t.instrs[pe]? = some (.jump pc)) (o : Bool) (k v : Str) (xs : List (Str × Value)) :
    ∀ i val w, DoesR cfg (mach t name hs fs pc (.loop (.map o k v i xs val) :: st) none w)
      (forEach (fun b => body (b :: ρ)) (mapRounds k v o i xs) w) (fun w' => mach t name hs fs j st none w') := by
  induction xs with
  | nil =>
    intro i val w
    exact step_next hnext rfl
  | cons x xs ih =>
    intro i val w
    obtain ⟨key, x⟩ := x
    rw [mapRounds, forEach]
    refine DoesR.steps (step_next hnext (pc' := pc + 1) (st' := .loop (.map o k v (i + 1) xs (some (i, (key, x)))) :: st)
      (ex' := none) (w' := w) rfl) ?_
    refine DoesR.seq (hbody _ _ w (Rel.map o k v (i + 1) xs i key x hr)) fun w' => ?_
    refine DoesR.steps (step_next hjump (pc' := pc) rfl) ?_
    exact ih _ _ _

end

/-- What is known about including templates, above the given frames. -/
def IncOK (cfg : RenderCfg σ) (inc : Include σ) (fs : List Frame) : Prop :=
  ∀ t name hs pc st ρ w n, Rel st ρ →
    (t.instrs[pc]? = some (.include_ n) →
      DoesR cfg (mach t name hs fs pc st none w) (inc n t.source name ρ w)
        (fun w' => mach t name hs fs (pc + 1) st none w')) ∧
    (t.instrs[pc]? = some (.includeWith n) → ∀ v,
      DoesR cfg (mach t name hs fs pc st (some v) w) (inc n t.source name (.globals v :: .wall :: ρ) w)
        (fun w' => mach t name hs fs (pc + 1) st none w'))

theorem truthy_eq (v : Value) : v.asBool = truthy v := by
  cases v with
  | none => rfl
  | bool b => cases b <;> rfl
  | integer i =>
    by_cases h : i = 0
    · subst h; rfl
    · rw [truthy, Value.asBool]
      · simp [h]
      all_goals simp_all
  | float f =>
    have : (0x8000000000000000#64) = 1#64 <<< 63 := by decide
    rw [Value.asBool, truthy, f64IsZero, this]
    by_cases h : f = 0#64 <;> by_cases h' : f = 1#64 <<< 63 <;> simp only [h, h', beq_iff_eq, beq_eq_false_iff_ne.mpr, beq_self_eq_true, ne_eq, not_false_eq_true] <;> simp_all
  | string s => cases s <;> rfl
  | list l => cases l <;> rfl
  | map m => cases m <;> rfl

mutual
theorem stmt_does {cfg : RenderCfg σ} {inc : Include σ} {t : Template} {name : Option Str} {hs : Bool} {fs : List Frame}
    (hinc : IncOK cfg inc fs) (s : Stmt) {st : Stack} {ρ : Scope} (hr : Rel st ρ) {pc : Nat} (h : At t pc (codeStmt pc s))
    (w : World σ) :
    DoesR cfg (mach t name hs fs pc st none w) (evalStmt asBuilt cfg inc name t.source ρ s w)
      (fun w' => mach t name hs fs (pc + (codeStmt pc s).length) st none w') := by
  match s with
  | .raw sp =>
    rw [evalStmt]
    have hi := At.head (i := .emitRaw sp) h
    obtain ⟨X, hX⟩ : ∃ X, execInstr cfg t.source pc st none w (.emitRaw sp) = X := ⟨_, rfl⟩
    have ex := hX
    simp only [execInstr] at ex
    revert ex
    cases Res.ofOption (sp.of t.source) with
    | err e => exact fun ex => step_err hi (hX.trans ex.symm)
    | crash => exact fun ex => step_crash hi (hX.trans ex.symm)
    | ok raw =>
      simp only [OneStep.ofRes, andThen]
      rcases hw : cfg.sink.write w.out raw with ⟨out, _ | _⟩
      · exact fun ex => step_err hi (hX.trans ex.symm)
      · exact fun ex => step_next hi (hX.trans ex.symm)
  | .inlineExpr e sp => exact emit_does hr e h
  | .include_ n none => exact (hinc t name hs pc st ρ w n hr).1 h.head
  | .include_ n (some e) =>
    rw [codeStmt] at h ⊢
    rw [evalStmt]
    refine Does.andThen (expr_does hr e h.left) fun v => ?_
    rw [List.length_append, List.length_singleton, ← Nat.add_assoc]
    exact (hinc t name hs _ st ρ w n hr).2 h.right.head v
  | .ifElse neg cond th none =>
    rw [codeStmt] at h ⊢
    rw [evalStmt]
    refine Does.andThen (expr_does hr cond h.left) fun v => ?_
    have hi := h.right.head
    have hth := h.right.tail
    simp only [List.length_append, List.length_cons, Nat.add_assoc, Nat.add_comm 1] at hi hth ⊢
    by_cases hb : truthy v.val = neg
    · rw [if_neg (fun hn => hn hb)]
      refine step_next hi ?_
      cases neg <;> simp [execInstr, truthy_eq, hb]
    · rw [if_pos hb]
      refine DoesR.steps (step_next hi (pc' := pc + (codeExpr cond).length + 1) (st' := st) (ex' := none) (w' := w) ?_) ?_
      · cases neg <;> simp at hb <;> simp [execInstr, truthy_eq, hb]
      · have := stmts_does (name := name) (hs := hs) hinc th hr (pc := pc + ((codeExpr cond).length + 1)) hth w
        simpa only [Nat.add_assoc, Nat.add_comm 1] using this
  | .ifElse neg cond th (some el) =>
    rw [codeStmt] at h ⊢
    rw [evalStmt]
    refine Does.andThen (expr_does hr cond h.left) fun v => ?_
    have hi := h.right.head
    have hth := h.right.tail.left
    have hj := h.right.tail.right.head
    have hel := h.right.tail.right.tail
    have hlen : ∀ (c t e : List Instr) (i k : Instr), pc + (c ++ i :: (t ++ k :: e)).length =
        pc + c.length + 1 + t.length + 1 + e.length := by
      intro c t e i k
      simp only [List.length_append, List.length_cons]; omega
    rw [hlen]
    by_cases hb : truthy v.val = neg
    · rw [if_neg (fun hn => hn hb)]
      refine DoesR.steps (step_next hi (pc' := pc + (codeExpr cond).length + 1 +
        (codeStmts (pc + (codeExpr cond).length + 1) th).length + 1) (st' := st) (ex' := none) (w' := w) ?_) ?_
      · cases neg <;> simp [execInstr, truthy_eq, hb]
      · exact stmts_does (name := name) (hs := hs) hinc el hr hel w
    · rw [if_pos hb]
      refine DoesR.steps (step_next hi (pc' := pc + (codeExpr cond).length + 1) (st' := st) (ex' := none) (w' := w) ?_) ?_
      · cases neg <;> simp at hb <;> simp [execInstr, truthy_eq, hb]
      · have := (stmts_does (name := name) (hs := hs) hinc th hr hth w).seq (f := .ok)
          (k' := fun w' => mach t name hs fs (pc + (codeExpr cond).length + 1 +
            (codeStmts (pc + (codeExpr cond).length + 1) th).length + 1 +
            (codeStmts (pc + (codeExpr cond).length + 1 +
              (codeStmts (pc + (codeExpr cond).length + 1) th).length + 1) el).length) st none w')
          (fun w' => step_next hj rfl)
        revert this
        cases evalStmts asBuilt cfg inc name t.source ρ th w <;> exact id
  | .forLoop vars e body =>
    rw [codeStmt] at h ⊢
    rw [evalStmt]
    refine Does.andThen (expr_does hr e h.left) fun v => ?_
    have hi := h.right.head
    have hn := h.right.tail.head
    have hb := h.right.tail.tail.left
    have hj := h.right.tail.tail.right.head
    have hlen : pc + (codeExpr e ++ Instr.loopStart vars e.span ::
        Instr.loopNext (pc + (codeExpr e).length + 2 + (codeStmts (pc + (codeExpr e).length + 2) body).length + 1) ::
        (codeStmts (pc + (codeExpr e).length + 2) body ++ [Instr.jump (pc + (codeExpr e).length + 1)])).length =
        pc + (codeExpr e).length + 2 + (codeStmts (pc + (codeExpr e).length + 2) body).length + 1 := by
      simp only [List.length_append, List.length_cons, List.length_nil]; omega
    rw [hlen]
    have hbody : ∀ b st' w, Rel (.loop b :: st) (st' :: ρ) →
        DoesR cfg (mach t name hs fs (pc + (codeExpr e).length + 1 + 1) (.loop b :: st) none w)
          (evalStmts asBuilt cfg inc name t.source (st' :: ρ) body w)
          (fun w' => mach t name hs fs (pc + (codeExpr e).length + 1 + 1 +
            (codeStmts (pc + (codeExpr e).length + 2) body).length) (.loop b :: st) none w') :=
      fun b st' w hr' => stmts_does hinc body hr' hb w
    obtain ⟨X, hX⟩ : ∃ X, execInstr cfg t.source (pc + (codeExpr e).length) st (some v) w (.loopStart vars e.span) = X := ⟨_, rfl⟩
    have ex := hX
    simp only [execInstr, LoopState.new] at ex
    rw [rounds.eq_def]
    have lst : ∀ {n : Str} {l : List Value}, _ := fun {n l} =>
      listLoop_does (cfg := cfg) (name := name) (hs := hs) (fs := fs) hr hn
        (body := fun ρ' w => evalStmts asBuilt cfg inc name t.source ρ' body w) hbody hj (isOwned v) n l 0 none w
    have mp : ∀ {k v' : Str} {l : List (Str × Value)}, _ := fun {k v' l} =>
      mapLoop_does (cfg := cfg) (name := name) (hs := hs) (fs := fs) hr hn
        (body := fun ρ' w => evalStmts asBuilt cfg inc name t.source ρ' body w) hbody hj (isOwned v) k v' l 0 none w
    have fin : ∀ {m : String} {sp : Span} {k : LoopState → OneStep σ} {k' : List Binding → RunRes σ} {k''},
        OneStep.ofRes w (errRender cfg.env m t.source sp) k = X →
        DoesR cfg (mach t name hs fs (pc + (codeExpr e).length) st (some v) w)
          (andThen name w (errRender cfg.env m t.source sp) k') k'' := by
      intro m sp k k' k'' hx
      revert hx
      rw [errRender, errRender, throwAt, throwAt]
      cases Pretty.build cfg.env t.source sp with
      | none => exact fun hx => step_crash hi (hX.trans hx.symm)
      | some p => exact fun hx => step_err hi (hX.trans hx.symm)
    have own : (match v with | .owned _ => true | .borrowed _ => false) = isOwned v := by cases v <;> rfl
    cases hv : v.val with
    | list l =>
      simp only [hv] at ex
      cases vars with
      | item id =>
        dsimp only at ex ⊢
        revert ex
        cases Res.ofOption (id.span.of t.source) with
        | err e => exact fun ex => step_err hi (hX.trans ex.symm)
        | crash => exact fun ex => step_crash hi (hX.trans ex.symm)
        | ok n =>
          simp only [Res.ok_bind, OneStep.ofRes, andThen, own]
          intro ex
          exact DoesR.steps (step_next hi (hX.trans ex.symm)) lst
      | keyValue k v sp => exact fin ex
    | map m =>
      simp only [hv] at ex
      cases vars with
      | item id => exact fin ex
      | keyValue ki vi sp =>
        dsimp only at ex ⊢
        revert ex
        cases Res.ofOption (ki.span.of t.source) with
        | err e => exact fun ex => step_err hi (hX.trans ex.symm)
        | crash => exact fun ex => step_crash hi (hX.trans ex.symm)
        | ok kn =>
          simp only [Res.ok_bind]
          cases Res.ofOption (vi.span.of t.source) with
          | err e => exact fun ex => step_err hi (hX.trans ex.symm)
          | crash => exact fun ex => step_crash hi (hX.trans ex.symm)
          | ok vn =>
            simp only [Res.ok_bind, OneStep.ofRes, andThen, own]
            intro ex
            exact DoesR.steps (step_next hi (hX.trans ex.symm)) mp
    | none => simp only [hv] at ex; exact fin ex
    | bool b => simp only [hv] at ex; exact fin ex
    | integer i => simp only [hv] at ex; exact fin ex
    | float f => simp only [hv] at ex; exact fin ex
    | string s => simp only [hv] at ex; exact fin ex
  | .with_ e n body =>
    rw [codeStmt] at h ⊢
    rw [evalStmt]
    refine Does.andThen (expr_does hr e h.left) fun v => ?_
    have hi := h.right.head
    have hb := h.right.tail.left
    have hend := h.right.tail.right.head
    refine DoesR.steps (step_next hi (pc' := pc + (codeExpr e).length + 1) (st' := .var n v :: st) (ex' := none) (w' := w) rfl) ?_
    have hw : withName asBuilt t.source n = fun src => n.span.of src := rfl
    rw [hw]
    have := stmts_does (name := name) (hs := hs) hinc body (Rel.var n v hr) hb w
    have last : ∀ w', DoesR cfg (mach t name hs fs (pc + (codeExpr e).length + 1 +
        (codeStmts (pc + (codeExpr e).length + 1) body).length) (.var n v :: st) none w') (.ok w')
        (fun w' => mach t name hs fs (pc + (codeExpr e ++ Instr.withStart n :: (codeStmts (pc + (codeExpr e).length + 1) body ++ [Instr.withEnd])).length) st none w') := by
      intro w'
      refine step_next hend ?_
      simp only [execInstr]
      congr 1
      simp only [List.length_append, List.length_cons, List.length_nil]
      omega
    have := this.seq last
    revert this
    cases evalStmts asBuilt cfg inc name t.source (.name (fun src => n.span.of src) v :: ρ) body w <;> exact id

theorem stmts_does {cfg : RenderCfg σ} {inc : Include σ} {t : Template} {name : Option Str} {hs : Bool} {fs : List Frame}
    (hinc : IncOK cfg inc fs) (ss : List Stmt) {st : Stack} {ρ : Scope} (hr : Rel st ρ) {pc : Nat}
    (h : At t pc (codeStmts pc ss)) (w : World σ) :
    DoesR cfg (mach t name hs fs pc st none w) (evalStmts asBuilt cfg inc name t.source ρ ss w)
      (fun w' => mach t name hs fs (pc + (codeStmts pc ss).length) st none w') := by
  match ss with
  | [] => exact Steps.refl _ _
  | s :: ss =>
    rw [codeStmts] at h ⊢
    rw [evalStmts]
    refine DoesR.seq (stmt_does hinc s hr h.left w) fun w' => ?_
    have := stmts_does (name := name) (hs := hs) hinc ss hr h.right w'
    rw [List.length_append, ← Nat.add_assoc]
    exact this
end

/-- The trees belong to the templates: each template a render may include is what the compiler makes
of its tree. -/
def Trees (cfg : RenderCfg σ) (tree : Template → Tree) : Prop :=
  ∀ t, Includable cfg t → compileTemplate (tree t).source (tree t).body = some t

theorem find_eq (cfg : RenderCfg σ) (src : Str) (n : AstString) (w : World σ) :
    getTemplate cfg src n w = find cfg src n w := rfl

theorem find_includable {cfg : RenderCfg σ} {src : Str} {n : AstString} {w w' : World σ} {t : Template}
    (h : find cfg src n w = (w', .ok t)) : Includable cfg t := by
  rw [find] at h
  rw [Includable]
  cases hf : cfg.templateFn with
  | some f =>
    rw [hf] at h
    dsimp only at h ⊢
    have h2 := (Prod.mk.inj h).2
    cases hq : f w.asked n.name with
    | ok t' => rw [hq] at h2; cases h2; exact ⟨_, _, hq⟩
    | error e =>
      rw [hq] at h2
      simp only [fault] at h2
      split at h2 <;> cases h2
  | none =>
    rw [hf] at h
    dsimp only at h ⊢
    have h2 := (Prod.mk.inj h).2
    cases hq : BMap.get cfg.templates n.name with
    | some t' => rw [hq] at h2; cases h2; exact ⟨_, hq⟩
    | none =>
      rw [hq] at h2
      simp only [fault] at h2
      split at h2 <;> cases h2

theorem include_does {cfg : RenderCfg σ} {tree : Template → Tree} (ht : Trees cfg tree) (left : Nat) :
    ∀ fs : List Frame, fs.length + 1 + left = max 1 cfg.maxIncludeDepth →
      IncOK cfg (include_ asBuilt cfg tree left) fs := by
  induction left with
  | zero =>
    intro fs hl t name hs pc st ρ w n hr
    have deep : fs.length + 1 + 1 > cfg.maxIncludeDepth := by omega
    refine ⟨fun hi => ?_, fun hi v => ?_⟩
    · rw [include_]
      cases hf : find cfg t.source n w with
      | mk w' r => cases r with
        | ok t' => refine Halts.one ?_; (simp [step, hi, execInstr, find_eq, hf, checkDepth, deep, maxIncludeDepth_eq])
        | err e => refine Halts.one ?_; (simp [step, hi, execInstr, find_eq, hf])
        | crash => refine Halts.one ?_; (simp [step, hi, execInstr, find_eq, hf])
    · rw [include_]
      cases hf : find cfg t.source n w with
      | mk w' r => cases r with
        | ok t' => refine Halts.one ?_; (simp [step, hi, execInstr, find_eq, hf, checkDepth, deep, maxIncludeDepth_eq])
        | err e => refine Halts.one ?_; (simp [step, hi, execInstr, find_eq, hf])
        | crash => refine Halts.one ?_; (simp [step, hi, execInstr, find_eq, hf])
  | succ left ih =>
    intro fs hl t name hs pc st ρ w n hr
    have shallow : ¬ (fs.length + 1 + 1 > cfg.maxIncludeDepth) := by omega
    have shallow' : ¬ (fs.length + 1 > cfg.maxIncludeDepth) := by omega
    refine ⟨fun hi => ?_, fun hi v => ?_⟩
    · rw [include_]
      cases hf : find cfg t.source n w with
      | mk w' r => cases r with
        | err e => refine Halts.one ?_; (simp [step, hi, execInstr, find_eq, hf])
        | crash => refine Halts.one ?_; (simp [step, hi, execInstr, find_eq, hf])
        | ok t' =>
          dsimp only
          have hc := ht t' (find_includable hf)
          rw [compileTemplate_eq] at hc
          have hc := Option.some.inj hc
          have hsrc : (tree t').source = t'.source := congrArg Template.source hc
          have hins : t'.instrs = codeStmts 0 (tree t').body := (congrArg Template.instrs hc).symm
          refine DoesR.steps (vm' := mach t' (some n.name) false (⟨t, name, pc + 1, hs⟩ :: fs) 0 st none w')
            (Steps.one (by simp [step, hi, execInstr, find_eq, hf, checkDepth, shallow])) ?_
          have body := stmts_does (name := some n.name) (hs := false)
            (ih (⟨t, name, pc + 1, hs⟩ :: fs) (by simp only [List.length_cons]; omega))
            (tree t').body hr (t := t') (pc := 0) ⟨[], [], by simp [hins], rfl⟩ w'
          have last : ∀ w'', DoesR cfg (mach t' (some n.name) false (⟨t, name, pc + 1, hs⟩ :: fs)
              (0 + (codeStmts 0 (tree t').body).length) st none w'') (.ok w'')
              (fun w' => mach t name hs fs (pc + 1) st none w') := by
            intro w''
            exact Steps.one (by simp [step, hins, checkDepth, shallow'])
          have := body.seq last
          revert this
          rw [hsrc]
          cases evalStmts asBuilt cfg (include_ asBuilt cfg tree left) (some n.name) t'.source ρ (tree t').body w' <;> exact id
    · rw [include_]
      cases hf : find cfg t.source n w with
      | mk w' r => cases r with
        | err e => refine Halts.one ?_; (simp [step, hi, execInstr, find_eq, hf])
        | crash => refine Halts.one ?_; (simp [step, hi, execInstr, find_eq, hf])
        | ok t' =>
          dsimp only
          have hc := ht t' (find_includable hf)
          rw [compileTemplate_eq] at hc
          have hc := Option.some.inj hc
          have hsrc : (tree t').source = t'.source := congrArg Template.source hc
          have hins : t'.instrs = codeStmts 0 (tree t').body := (congrArg Template.instrs hc).symm
          refine DoesR.steps (vm' := mach t' (some n.name) true (⟨t, name, pc + 1, hs⟩ :: fs) 0
              (.scope v :: .boundary :: st) none w')
            (Steps.one (by simp [step, hi, execInstr, find_eq, hf, checkDepth, shallow])) ?_
          have body := stmts_does (name := some n.name) (hs := true)
            (ih (⟨t, name, pc + 1, hs⟩ :: fs) (by simp only [List.length_cons]; omega))
            (tree t').body (Rel.scope v (Rel.boundary hr)) (t := t') (pc := 0) ⟨[], [], by simp [hins], rfl⟩ w'
          have last : ∀ w'', DoesR cfg (mach t' (some n.name) true (⟨t, name, pc + 1, hs⟩ :: fs)
              (0 + (codeStmts 0 (tree t').body).length) (.scope v :: .boundary :: st) none w'') (.ok w'')
              (fun w' => mach t name hs fs (pc + 1) st none w') := by
            intro w''
            exact Steps.one (by simp [step, hins, checkDepth, shallow'])
          have := body.seq last
          revert this
          rw [hsrc]
          cases evalStmts asBuilt cfg (include_ asBuilt cfg tree left) (some n.name) t'.source (.globals v :: .wall :: ρ) (tree t').body w' <;> exact id

/-- The binding at the bottom of the scope. -/
def Spec.ofBase : SState → Binding
  | .valueFn f => .provider f
  | .scope c => .globals c
  | _ => .wall

/-- A render always ends, and ends as the meaning of the tree says. -/
theorem render_halts {cfg : RenderCfg σ} {tree : Template → Tree} (ht : Trees cfg tree) {t : Template} {body : List Stmt}
    (hc : compileTemplate t.source body = some t) {base : SState} {b : Binding}
    (hb : (∃ f, base = .valueFn f ∧ b = .provider f) ∨ (∃ c, base = .scope c ∧ b = .globals c))
    (name : Option Str) (out : σ) :
    Halts cfg (initVM t name base out) (Spec.render asBuilt cfg tree ⟨t.source, body⟩ name [b] ⟨out, []⟩) := by
  rw [compileTemplate_eq] at hc
  have hc := Option.some.inj hc
  have hins : t.instrs = codeStmts 0 body := by rw [← hc]
  have hr : Rel [base] [b] := by
    rcases hb with ⟨f, rfl, rfl⟩ | ⟨c, rfl, rfl⟩
    · exact Rel.valueFn f Rel.nil
    · exact Rel.scope c Rel.nil
  have := stmts_does (name := name) (hs := false) (fs := [])
    (include_does ht (cfg.maxIncludeDepth - 1) [] (by simp; omega)) body hr (t := t) (pc := 0)
    ⟨[], [], by simp [hins], rfl⟩ ⟨out, []⟩
  rw [render]
  dsimp only
  revert this
  cases evalStmts asBuilt cfg (include_ asBuilt cfg tree (cfg.maxIncludeDepth - 1)) name t.source [b] body ⟨out, []⟩ with
  | ok w =>
    intro h
    refine Steps.halts h ?_
    refine Steps.halts (Steps.one (b := ⟨[], [base], none, w⟩) ?_) (Halts.one rfl)
    simp [step, hins, checkDepth]
  | err e w => exact id
  | crash => exact id

end Upon
