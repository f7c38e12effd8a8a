import Verif.Spec.Cost
import Verif.Proofs.SimStmt
import Verif.Props.Depth
import Verif.Proofs.Values
/-
For C60: counting the steps of a render.
-/
namespace Upon
open Spec Compiler
variable {σ : Type} {cfg : RenderCfg σ} {vm₀ : VM σ}

namespace Cost

/-- From `vm`, in at most `m` steps, the machine halts or gets to a state with `Q`. -/
def Cost (cfg : RenderCfg σ) (vm₀ : VM σ) (m : Nat) (vm : VM σ) (Q : VM σ → Prop) : Prop :=
  Reachable cfg vm₀ vm → (∃ r, run cfg m vm = some r) ∨
    ∃ j vm', j ≤ m ∧ (∀ fuel, run cfg (fuel + j) vm = run cfg fuel vm') ∧ Reachable cfg vm₀ vm' ∧ Q vm'

theorem Cost.done {m : Nat} {vm : VM σ} {Q : VM σ → Prop} (h : Q vm) : Cost cfg vm₀ m vm Q :=
  fun hr => .inr ⟨0, vm, by omega, fun _ => rfl, hr, h⟩

theorem Cost.next {m : Nat} {vm vm' : VM σ} {Q : VM σ → Prop} (hs : step cfg vm = .next vm') (h : Cost cfg vm₀ m vm' Q) : Cost cfg vm₀ (m + 1) vm Q := by
  intro hr
  rcases h (.step hr hs) with ⟨r, h⟩ | ⟨j, v, hj, h, hr', hq⟩
  · exact .inl ⟨r, by rw [run, hs]; exact h⟩
  · exact .inr ⟨j + 1, v, by omega, fun fuel => by rw [← Nat.add_assoc, run, hs]; exact h fuel, hr', hq⟩

theorem Cost.halt {m : Nat} {vm : VM σ} {r : RunRes σ} {Q : VM σ → Prop} (hs : step cfg vm = .halt r) : Cost cfg vm₀ (m + 1) vm Q :=
  fun _ => .inl ⟨r, by rw [run, hs]⟩

theorem Cost.mono {m m' : Nat} {vm : VM σ} {Q : VM σ → Prop} (h : Cost cfg vm₀ m vm Q) (hm : m ≤ m') : Cost cfg vm₀ m' vm Q := by
  intro hr
  rcases h hr with ⟨r, h⟩ | ⟨j, v, hj, h⟩
  · refine .inl ⟨r, ?_⟩
    have := run_mono (m' - m) h
    rwa [show m + (m' - m) = m' by omega] at this
  · exact .inr ⟨j, v, by omega, h⟩

theorem Cost.bind {m m' : Nat} {vm : VM σ} {Q Q' : VM σ → Prop} (h : Cost cfg vm₀ m vm Q) (h' : ∀ vm', Q vm' → Cost cfg vm₀ m' vm' Q') :
    Cost cfg vm₀ (m + m') vm Q' := by
  intro hr
  rcases h hr with ⟨r, h⟩ | ⟨j, v, hj, h, hr', hq⟩
  · exact .inl ⟨r, run_mono m' h⟩
  · rcases h' v hq hr' with ⟨r, h2⟩ | ⟨j2, v2, hj2, h2, hr2, hq2⟩
    · refine .inl ⟨r, ?_⟩
      have := run_mono (m - j) (show run cfg (m' + j) vm = some r by rw [h]; exact h2)
      rwa [show m' + j + (m - j) = m + m' by omega] at this
    · exact .inr ⟨j2 + j, v2, by omega, fun fuel => by rw [← Nat.add_assoc, h, h2], hr2, hq2⟩

section
variable {t : Template} {name : Option Str} {hs : Bool} {fs : List Frame} {pc : Nat} {st : Stack} {ex : Option Cow} {w : World σ} {i : Instr}

/-- Instructions other than includes. -/
theorem instr {m : Nat} {Q : VM σ → Prop} (hi : t.instrs[pc]? = some i) (hn : ∀ n, i ≠ .include_ n) (hn' : ∀ n, i ≠ .includeWith n)
    (h : ∀ pc' st' ex' w', execInstr cfg t.source pc st ex w i = .next pc' st' ex' w' → Cost cfg vm₀ m (mach t name hs fs pc' st' ex' w') Q) :
    Cost cfg vm₀ (m + 1) (mach t name hs fs pc st ex w) Q := by
  have key : ∀ X, execInstr cfg t.source pc st ex w i = X →
      (∃ pc' st' ex' w', X = .next pc' st' ex' w') ∨ (∃ e w', X = .err e w') ∨ X = .crash := by
    intro X hX
    have hp := plain_exec (cfg := cfg) (src := t.source) (pc := pc) (st := st) (ex := ex) (w := w) (i := i) hn (fun n e => absurd e (hn' n))
    rw [hX] at hp
    cases hp with
    | next => exact .inl ⟨_, _, _, _, rfl⟩
    | err => exact .inr (.inl ⟨_, _, rfl⟩)
    | crash => exact .inr (.inr rfl)
  rcases key _ rfl with ⟨pc', st', ex', w', hX⟩ | ⟨e, w', hX⟩ | hX
  · exact Cost.next (vm' := mach t name hs fs pc' st' ex' w') (by simp [step, mach, hi, hX]) (h _ _ _ _ hX)
  · exact Cost.halt (r := .err (e.attachName name) w') (by simp [step, mach, hi, hX])
  · exact Cost.halt (r := .crash) (by simp [step, mach, hi, hX])

/-- The template goes on at a place. -/
def GoesOn (t : Template) (name : Option Str) (hs : Bool) (fs : List Frame) (pc : Nat) (st : Stack) (vm : VM σ) : Prop :=
  ∃ w, vm = mach t name hs fs pc st none w

/-- The same with the value of an expression. -/
def Gives (t : Template) (name : Option Str) (hs : Bool) (fs : List Frame) (pc : Nat) (st : Stack) (vm : VM σ) : Prop :=
  ∃ v w, vm = mach t name hs fs pc st (some v) w

theorem ofRes_next {α : Type} {w : World σ} {r : Res α} {k : α → OneStep σ} {pc st ex w'} (h : OneStep.ofRes w r k = .next pc st ex w') :
    ∃ a, r = .ok a ∧ k a = .next pc st ex w' := by
  cases r with
  | ok a => exact ⟨a, rfl, h⟩
  | err e => cases h
  | crash => cases h

theorem emit_next {f : Formatter} {v : Value} {src : Str} {sp : Span} {w : World σ} {pc st pc' st' ex' w'}
    (h : emit cfg f v src sp w (fun w => .next pc st none w) = .next pc' st' ex' w') : pc' = pc ∧ st' = st ∧ ex' = none := by
  rw [emit.eq_def] at h
  split at h
  · cases h; exact ⟨rfl, rfl, rfl⟩
  · obtain ⟨a, _, h⟩ := ofRes_next h
    cases h

theorem expr_cost (e : Expr) : ∀ {pc : Nat} {w : World σ}, At t pc (codeExpr e) →
    Cost cfg vm₀ (codeExpr e).length (mach t name hs fs pc st none w) (Gives t name hs fs (pc + (codeExpr e).length) st) := by
  induction e with
  | base b =>
    intro pc w h
    cases b with
    | var v =>
      refine instr (i := .exprStart v) h.head (by simp) (by simp) fun pc' st' ex' w' hx => ?_
      obtain ⟨a, _, hx⟩ := ofRes_next hx
      cases hx
      exact .done ⟨_, _, rfl⟩
    | lit l =>
      refine instr (i := .exprStartLit l.value) h.head (by simp) (by simp) fun pc' st' ex' w' hx => ?_
      cases hx
      exact .done ⟨_, _, rfl⟩
  | call n a r s ih =>
    intro pc w h
    rw [codeExpr] at h ⊢
    rw [List.length_append]
    refine (ih h.left).bind fun vm' hq => ?_
    obtain ⟨v, w', rfl⟩ := hq
    refine instr (i := .apply n s a) h.right.head (by simp) (by simp) fun pc' st' ex' w' hx => ?_
    obtain ⟨x, _, hx⟩ := ofRes_next hx
    cases hf : BMap.get cfg.functions x with
    | none =>
      simp only [hf] at hx
      obtain ⟨_, _, hx⟩ := ofRes_next hx
      cases hx
    | some g =>
      simp only [hf] at hx
      cases g with
      | filter f =>
        obtain ⟨_, _, hx⟩ := ofRes_next hx
        cases hx
        exact .done ⟨_, _, by rw [List.length_singleton, Nat.add_assoc]⟩
      | formatter f =>
        obtain ⟨_, _, hx⟩ := ofRes_next hx
        cases hx

theorem emit_cost (e : Expr) {pc : Nat} {w : World σ} (h : At t pc (codeEmit e)) :
    Cost cfg vm₀ (codeEmit e).length (mach t name hs fs pc st none w) (GoesOn t name hs fs (pc + (codeEmit e).length) st) := by
  have plain : ∀ (e : Expr) (sp : Span), At t pc (codeExpr e ++ [Instr.emit sp]) →
      Cost cfg vm₀ (codeExpr e ++ [Instr.emit sp]).length (mach t name hs fs pc st none w) (GoesOn t name hs fs (pc + (codeExpr e ++ [Instr.emit sp]).length) st) := by
    intro e sp h
    rw [List.length_append]
    refine (expr_cost e h.left).bind fun vm' hq => ?_
    obtain ⟨v, w', rfl⟩ := hq
    refine instr (i := .emit sp) h.right.head (by simp) (by simp) fun pc' st' ex' w' hx => ?_
    obtain ⟨rfl, rfl, rfl⟩ := emit_next hx
    exact .done ⟨_, by rw [List.length_singleton, Nat.add_assoc]⟩
  cases e with
  | base b => exact plain _ _ h
  | call n a r s =>
    cases a with
    | some a => exact plain _ _ h
    | none =>
      rw [codeEmit] at h ⊢
      rw [List.length_append]
      refine (expr_cost r h.left).bind fun vm' hq => ?_
      obtain ⟨v, w', rfl⟩ := hq
      refine instr (i := .emitWith n s) h.right.head (by simp) (by simp) fun pc' st' ex' w' hx => ?_
      obtain ⟨x, _, hx⟩ := ofRes_next hx
      cases hf : BMap.get cfg.functions x with
      | none =>
        simp only [hf] at hx
        obtain ⟨_, _, hx⟩ := ofRes_next hx
        cases hx
      | some g =>
        simp only [hf] at hx
        cases g with
        | filter f =>
          obtain ⟨_, _, hx⟩ := ofRes_next hx
          obtain ⟨rfl, rfl, rfl⟩ := emit_next hx
          exact .done ⟨_, by rw [List.length_singleton, Nat.add_assoc]⟩
        | formatter f =>
          obtain ⟨rfl, rfl, rfl⟩ := emit_next hx
          exact .done ⟨_, by rw [List.length_singleton, Nat.add_assoc]⟩

/-- How many rounds are left. -/
def left : LoopState → Nat
  | .list _ _ _ rem _ => rem.length
  | .map _ _ _ _ rem _ => rem.length

theorem loopNew_left {env : Env} {src : Str} {vars : LoopVars} {c : Cow} {sp : Span} {ls : LoopState} (h : LoopState.new env src vars c sp = .ok ls) :
    left ls = items c.val := by
  rw [LoopState.new.eq_def] at h
  dsimp only at h
  generalize c.val = v at h
  have er : ∀ {α : Type} {m sp} {a : α}, (errRender env m src sp : Res α) ≠ .ok a := by
    intro α m sp a h
    rw [errRender, throwAt] at h; split at h <;> cases h
  cases v with
  | list l =>
    cases vars with
    | item i => obtain ⟨n, _, h⟩ := bind_ok.mp h; cases h; rfl
    | keyValue _ _ _ => exact absurd h er
  | map m =>
    cases vars with
    | item i => exact absurd h er
    | keyValue _ _ _ =>
      obtain ⟨n, _, h⟩ := bind_ok.mp h
      obtain ⟨n', _, h⟩ := bind_ok.mp h
      cases h; rfl
  | _ => exact absurd h er

theorem iterate_left {ls : LoopState} : match ls.iterate with
    | some ls' => left ls = left ls' + 1
    | none => left ls = 0 := by
  cases ls with
  | list o i n rem v => cases rem <;> rfl
  | map o k v n rem x => cases rem <;> rfl

theorem loop_cost {j pe B : Nat} (hnext : t.instrs[pc]? = some (.loopNext j)) (hjump : t.instrs[pe]? = some (.jump pc))
    (hbody : ∀ ls w, Cost cfg vm₀ B (mach t name hs fs (pc + 1) (.loop ls :: st) none w) (GoesOn t name hs fs pe (.loop ls :: st))) :
    ∀ (k : Nat) (ls : LoopState) (w : World σ), left ls = k →
      Cost cfg vm₀ (k * (B + 2) + 1) (mach t name hs fs pc (.loop ls :: st) none w) (GoesOn t name hs fs j st) := by
  intro k
  induction k with
  | zero =>
    intro ls w hl
    rw [Nat.zero_mul]
    refine instr hnext (by simp) (by simp) fun pc' st' ex' w' hx => ?_
    simp only [execInstr] at hx
    have := iterate_left (ls := ls)
    cases hit : ls.iterate with
    | none => rw [hit] at hx; cases hx; exact .done ⟨_, rfl⟩
    | some ls' => rw [hit] at this; have : left ls = left ls' + 1 := this; omega
  | succ k ih =>
    intro ls w hl
    refine Cost.mono (m := (B + (k * (B + 2) + 1 + 1)) + 1) ?_ (by rw [Nat.add_mul]; omega)
    refine instr hnext (by simp) (by simp) fun pc' st' ex' w' hx => ?_
    simp only [execInstr] at hx
    have := iterate_left (ls := ls)
    cases hit : ls.iterate with
    | none => rw [hit] at this; have : left ls = 0 := this; omega
    | some ls' =>
      rw [hit] at hx this
      have : left ls = left ls' + 1 := this
      cases hx
      refine (hbody ls' w).bind fun vm' hq => ?_
      obtain ⟨w', rfl⟩ := hq
      refine instr hjump (by simp) (by simp) fun pc' st' ex' w'' hx => ?_
      cases hx
      exact ih ls' w' (by omega)

end

mutual
/-- The number of steps of a statement, if loops have at most `n` rounds and an included template takes at most `I` steps. -/
def workOne (n I : Nat) : Stmt → Nat
  | .raw _ => 1
  | .inlineExpr e _ => (codeEmit e).length
  | .include_ _ none => I + 1
  | .include_ _ (some e) => (codeExpr e).length + (I + 1)
  | .ifElse _ c t none => (codeExpr c).length + (work n I t + 1)
  | .ifElse _ c t (some e) => (codeExpr c).length + (work n I t + 1 + work n I e + 1)
  | .forLoop _ e b => (codeExpr e).length + (n * (work n I b + 2) + 1 + 1)
  | .with_ e _ b => (codeExpr e).length + (work n I b + 1 + 1)

def work (n I : Nat) : List Stmt → Nat
  | [] => 0
  | s :: ss => workOne n I s + work n I ss
end

/-- Including a template takes at most `I` steps more. -/
def IncCost (cfg : RenderCfg σ) (vm₀ : VM σ) (I : Nat) (fs : List Frame) : Prop :=
  ∀ t name hs pc st w n,
    (t.instrs[pc]? = some (.include_ n) → Cost cfg vm₀ (I + 1) (mach t name hs fs pc st none w) (GoesOn t name hs fs (pc + 1) st)) ∧
    (t.instrs[pc]? = some (.includeWith n) → ∀ v, Cost cfg vm₀ (I + 1) (mach t name hs fs pc st (some v) w) (GoesOn t name hs fs (pc + 1) st))

theorem GoesOn.at {t : Template} {name : Option Str} {hs : Bool} {fs : List Frame} {pc pc' : Nat} {st : Stack} {vm : VM σ}
    (h : GoesOn t name hs fs pc st vm) (e : pc = pc') : GoesOn t name hs fs pc' st vm := e ▸ h

theorem Cost.imp {m : Nat} {vm : VM σ} {Q Q' : VM σ → Prop} (h : Cost cfg vm₀ m vm Q) (h' : ∀ vm', Q vm' → Q' vm') : Cost cfg vm₀ m vm Q' := by
  intro hr
  rcases h hr with h | ⟨j, v, hj, h, hr', hq⟩
  · exact .inl h
  · exact .inr ⟨j, v, hj, h, hr', h' v hq⟩

variable {n I : Nat}

mutual
theorem stmt_cost {t : Template} {name : Option Str} {hs : Bool} {fs : List Frame} (hl : LoopsAtMost cfg vm₀ n) (hinc : IncCost cfg vm₀ I fs) (s : Stmt)
    {st : Stack} {pc : Nat} (h : At t pc (codeStmt pc s)) (w : World σ) :
    Cost cfg vm₀ (workOne n I s) (mach t name hs fs pc st none w) (GoesOn t name hs fs (pc + (codeStmt pc s).length) st) := by
  match s with
  | .raw sp =>
    refine instr (m := 0) (i := .emitRaw sp) h.head (by simp) (by simp) fun pc' st' ex' w' hx => ?_
    obtain ⟨raw, _, hx⟩ := ofRes_next hx
    rcases hw : cfg.sink.write w.out raw with ⟨out, _ | _⟩
    · rw [hw] at hx; cases hx
    · rw [hw] at hx; cases hx; exact .done ⟨_, rfl⟩
  | .inlineExpr e sp => exact emit_cost e h
  | .include_ nm none => exact (hinc t name hs pc st w nm).1 h.head
  | .include_ nm (some e) =>
    rw [codeStmt] at h ⊢
    refine (expr_cost e h.left).bind fun vm' hq => ?_
    obtain ⟨v, w', rfl⟩ := hq
    refine ((hinc t name hs _ st w' nm).2 h.right.head v).imp fun vm' hq => hq.at ?_
    rw [List.length_append, List.length_singleton, Nat.add_assoc]
  | .ifElse neg cond th none =>
    rw [codeStmt] at h ⊢
    refine (expr_cost cond h.left).bind fun vm' hq => ?_
    obtain ⟨v, w', rfl⟩ := hq
    have hi := h.right.head
    have hth := h.right.tail
    have hlen : pc + (codeExpr cond).length + 1 + (codeStmts (pc + (codeExpr cond).length + 1) th).length =
        pc + (codeExpr cond ++ (if neg then Instr.jumpIfTrue (pc + (codeExpr cond).length + 1 + (codeStmts (pc + (codeExpr cond).length + 1) th).length)
          else .jumpIfFalse (pc + (codeExpr cond).length + 1 + (codeStmts (pc + (codeExpr cond).length + 1) th).length)) ::
          codeStmts (pc + (codeExpr cond).length + 1) th).length := by
      simp only [List.length_append, List.length_cons]; omega
    refine instr hi (by cases neg <;> simp) (by cases neg <;> simp) fun pc' st' ex' w'' hx => ?_
    have hc : ∃ p, (p = pc + (codeExpr cond).length + 1 ∨ p = pc + (codeExpr cond).length + 1 + (codeStmts (pc + (codeExpr cond).length + 1) th).length) ∧
        pc' = p ∧ st' = st ∧ ex' = none := by
      cases neg
      · simp only [execInstr, Bool.false_eq_true, if_false] at hx
        split at hx <;> cases hx
        · exact ⟨_, .inr rfl, rfl, rfl, rfl⟩
        · exact ⟨_, .inl rfl, rfl, rfl, rfl⟩
      · simp only [execInstr, if_true] at hx
        split at hx <;> cases hx
        · exact ⟨_, .inr rfl, rfl, rfl, rfl⟩
        · exact ⟨_, .inl rfl, rfl, rfl, rfl⟩
    obtain ⟨p, hp, rfl, rfl, rfl⟩ := hc
    rcases hp with rfl | rfl
    · exact (stmts_cost hl hinc th hth w'').imp fun vm' hq => hq.at hlen
    · exact .done (GoesOn.at ⟨_, rfl⟩ hlen)
  | .ifElse neg cond th (some el) =>
    rw [codeStmt] at h ⊢
    refine (expr_cost cond h.left).bind fun vm' hq => ?_
    obtain ⟨v, w', rfl⟩ := hq
    have hi := h.right.head
    have hth := h.right.tail.left
    have hj := h.right.tail.right.head
    have hel := h.right.tail.right.tail
    have hlen : ∀ (c t e : List Instr) (i k : Instr), pc + c.length + 1 + t.length + 1 + e.length = pc + (c ++ i :: (t ++ k :: e)).length := by
      intro c t e i k
      simp only [List.length_append, List.length_cons]; omega
    refine instr hi (by cases neg <;> simp) (by cases neg <;> simp) fun pc' st' ex' w'' hx => ?_
    have hc : ∃ p, (p = pc + (codeExpr cond).length + 1 ∨ p = pc + (codeExpr cond).length + 1 + (codeStmts (pc + (codeExpr cond).length + 1) th).length + 1) ∧
        pc' = p ∧ st' = st ∧ ex' = none := by
      cases neg
      · simp only [execInstr, Bool.false_eq_true, if_false] at hx
        split at hx <;> cases hx
        · exact ⟨_, .inr rfl, rfl, rfl, rfl⟩
        · exact ⟨_, .inl rfl, rfl, rfl, rfl⟩
      · simp only [execInstr, if_true] at hx
        split at hx <;> cases hx
        · exact ⟨_, .inr rfl, rfl, rfl, rfl⟩
        · exact ⟨_, .inl rfl, rfl, rfl, rfl⟩
    obtain ⟨p, hp, rfl, rfl, rfl⟩ := hc
    rcases hp with rfl | rfl
    · refine Cost.mono (m := work n I th + 1) ?_ (by omega)
      refine (stmts_cost hl hinc th hth w'').bind fun vm' hq => ?_
      obtain ⟨w3, rfl⟩ := hq
      refine instr (m := 0) hj (by simp) (by simp) fun pc' st' ex' w4 hx => ?_
      cases hx
      exact .done (GoesOn.at ⟨_, rfl⟩ (hlen _ _ _ _ _))
    · refine Cost.mono (m := work n I el) ?_ (by omega)
      exact (stmts_cost hl hinc el hel w'').imp fun vm' hq => hq.at (hlen _ _ _ _ _)
  | .forLoop vars e body =>
    rw [codeStmt] at h ⊢
    refine (expr_cost e h.left).bind fun vm' hq => ?_
    obtain ⟨v, w', rfl⟩ := hq
    have hi := h.right.head
    have hn := h.right.tail.head
    have hb := h.right.tail.tail.left
    have hj := h.right.tail.tail.right.head
    have hlen : pc + (codeExpr e).length + 2 + (codeStmts (pc + (codeExpr e).length + 2) body).length + 1 =
        pc + (codeExpr e ++ Instr.loopStart vars e.span ::
        Instr.loopNext (pc + (codeExpr e).length + 2 + (codeStmts (pc + (codeExpr e).length + 2) body).length + 1) ::
        (codeStmts (pc + (codeExpr e).length + 2) body ++ [Instr.jump (pc + (codeExpr e).length + 1)])).length := by
      simp only [List.length_append, List.length_cons, List.length_nil]; omega
    intro hr
    have hv : items v.val ≤ n := hl _ _ hr (by simp [loopsOver, hi])
    revert hr
    refine instr hi (by simp) (by simp) fun pc' st' ex' w'' hx => ?_
    obtain ⟨ls, hls, hx⟩ := ofRes_next hx
    cases hx
    have hleft := loopNew_left hls
    refine Cost.mono (m := left ls * (work n I body + 2) + 1) ?_ (by have := Nat.mul_le_mul_right (work n I body + 2) (show left ls ≤ n by omega); omega)
    refine (loop_cost hn hj (fun ls w => ?_) (left ls) ls w' rfl).imp fun vm' hq => hq.at hlen
    exact stmts_cost hl hinc body hb w
  | .with_ e nm body =>
    rw [codeStmt] at h ⊢
    refine (expr_cost e h.left).bind fun vm' hq => ?_
    obtain ⟨v, w', rfl⟩ := hq
    have hi := h.right.head
    have hb := h.right.tail.left
    have hend := h.right.tail.right.head
    refine instr hi (by simp) (by simp) fun pc' st' ex' w'' hx => ?_
    cases hx
    refine (stmts_cost hl hinc body hb w').bind fun vm' hq => ?_
    obtain ⟨w3, rfl⟩ := hq
    refine instr (m := 0) hend (by simp) (by simp) fun pc' st' ex' w4 hx => ?_
    cases hx
    refine .done (GoesOn.at ⟨_, rfl⟩ ?_)
    simp only [List.length_append, List.length_cons, List.length_nil]; omega

theorem stmts_cost {t : Template} {name : Option Str} {hs : Bool} {fs : List Frame} (hl : LoopsAtMost cfg vm₀ n) (hinc : IncCost cfg vm₀ I fs) (ss : List Stmt)
    {st : Stack} {pc : Nat} (h : At t pc (codeStmts pc ss)) (w : World σ) :
    Cost cfg vm₀ (work n I ss) (mach t name hs fs pc st none w) (GoesOn t name hs fs (pc + (codeStmts pc ss).length) st) := by
  match ss with
  | [] => exact .done ⟨_, rfl⟩
  | s :: ss =>
    rw [codeStmts] at h ⊢
    refine (stmt_cost hl hinc s h.left w).bind fun vm' hq => ?_
    obtain ⟨w', rfl⟩ := hq
    refine (stmts_cost hl hinc ss h.right w').imp fun vm' hq => hq.at ?_
    rw [List.length_append, Nat.add_assoc]
end

/-! The bound -/

mutual
theorem workOne_le (p : Nat) : ∀ (s : Stmt) {N : Nat}, nestingOne s ≤ N → workOne n I s ≤ (codeStmt p s).length * ((n + 1) ^ N * (I + 1))
  | .raw _, N, _ => by
    have : 0 < (n + 1) ^ N * (I + 1) := Nat.mul_pos (Nat.pow_pos (by omega)) (by omega)
    simp only [workOne, codeStmt, List.length_singleton]; omega
  | .inlineExpr e _, N, _ => by
    have : 0 < (n + 1) ^ N * (I + 1) := Nat.mul_pos (Nat.pow_pos (by omega)) (by omega)
    exact Nat.le_mul_of_pos_right _ this
  | .include_ _ none, N, _ => by
    have : 0 < (n + 1) ^ N := Nat.pow_pos (by omega)
    simp only [workOne, codeStmt, List.length_singleton, Nat.one_mul]
    exact Nat.le_mul_of_pos_left _ this
  | .include_ _ (some e), N, _ => by
    have h1 : 0 < (n + 1) ^ N * (I + 1) := Nat.mul_pos (Nat.pow_pos (by omega)) (by omega)
    have h2 : I + 1 ≤ (n + 1) ^ N * (I + 1) := Nat.le_mul_of_pos_left _ (Nat.pow_pos (by omega))
    have h3 := Nat.le_mul_of_pos_right (codeExpr e).length h1
    simp only [workOne, codeStmt, List.length_append, List.length_singleton, Nat.add_mul (codeExpr e).length 1, Nat.one_mul]
    omega
  | .ifElse _ c t none, N, hN => by
    rw [nestingOne] at hN
    have h1 : 0 < (n + 1) ^ N * (I + 1) := Nat.mul_pos (Nat.pow_pos (by omega)) (by omega)
    have h3 := Nat.le_mul_of_pos_right (codeExpr c).length h1
    have h4 := work_le (p + (codeExpr c).length + 1) t hN
    simp only [workOne, codeStmt, List.length_append, List.length_cons]
    generalize (n + 1) ^ N * (I + 1) = G at *
    rw [Nat.add_mul, Nat.add_mul, Nat.one_mul]
    omega
  | .ifElse _ c t (some e), N, hN => by
    rw [nestingOne] at hN
    have h1 : 0 < (n + 1) ^ N * (I + 1) := Nat.mul_pos (Nat.pow_pos (by omega)) (by omega)
    have h3 := Nat.le_mul_of_pos_right (codeExpr c).length h1
    have h4 := work_le (p + (codeExpr c).length + 1) t (N := N) (by omega)
    have h5 := work_le (p + (codeExpr c).length + 1 + (codeStmts (p + (codeExpr c).length + 1) t).length + 1) e (N := N) (by omega)
    simp only [workOne, codeStmt, List.length_append, List.length_cons]
    generalize (n + 1) ^ N * (I + 1) = G at *
    simp only [Nat.add_mul, Nat.one_mul]
    omega
  | .forLoop _ e b, N, hN => by
    rw [nestingOne] at hN
    obtain ⟨N, rfl⟩ : ∃ M, N = M + 1 := ⟨N - 1, by omega⟩
    have h1 : 0 < (n + 1) ^ N * (I + 1) := Nat.mul_pos (Nat.pow_pos (by omega)) (by omega)
    have h4 := work_le (p + (codeExpr e).length + 2) b (N := N) (by omega)
    simp only [workOne, codeStmt, List.length_append, List.length_cons, List.length_nil]
    have hG : (n + 1) ^ (N + 1) * (I + 1) = n * ((n + 1) ^ N * (I + 1)) + (n + 1) ^ N * (I + 1) := by
      rw [Nat.pow_succ, Nat.mul_right_comm, Nat.mul_comm _ (n + 1), Nat.add_mul, Nat.one_mul]
    rw [hG]
    generalize (n + 1) ^ N * (I + 1) = G at *
    generalize (codeStmts (p + (codeExpr e).length + 2) b).length = lb at *
    have h5 : n ≤ n * G := Nat.le_mul_of_pos_right _ h1
    have h6 : n * work n I b ≤ lb * (n * G) := by
      rw [Nat.mul_left_comm]; exact Nat.mul_le_mul_left n h4
    have h7 : (codeExpr e).length ≤ (codeExpr e).length * G := Nat.le_mul_of_pos_right _ h1
    generalize (codeExpr e).length = lc at *
    rw [Nat.mul_add n]
    generalize n * work n I b = nw at *
    generalize hH : n * G = H at *
    have e1 : (lc + (lb + (0 + 1) + 1 + 1)) * (H + G) = lc * H + lc * G + lb * H + lb * G + 3 * H + 3 * G := by
      simp only [Nat.add_mul, Nat.mul_add]; omega
    rw [e1]
    omega
  | .with_ e _ b, N, hN => by
    rw [nestingOne] at hN
    have h1 : 0 < (n + 1) ^ N * (I + 1) := Nat.mul_pos (Nat.pow_pos (by omega)) (by omega)
    have h3 := Nat.le_mul_of_pos_right (codeExpr e).length h1
    have h4 := work_le (p + (codeExpr e).length + 1) b (N := N) (by omega)
    simp only [workOne, codeStmt, List.length_append, List.length_cons, List.length_nil]
    generalize (n + 1) ^ N * (I + 1) = G at *
    simp only [Nat.add_mul, Nat.one_mul]
    omega

theorem work_le (p : Nat) : ∀ (ss : List Stmt) {N : Nat}, nesting ss ≤ N → work n I ss ≤ (codeStmts p ss).length * ((n + 1) ^ N * (I + 1))
  | [], N, _ => by simp [work]
  | s :: ss, N, hN => by
    rw [nesting] at hN
    have h1 := workOne_le p s (N := N) (by omega)
    have h2 := work_le (p + (codeStmt p s).length) ss (N := N) (by omega)
    rw [work, codeStmts, List.length_append, Nat.add_mul]
    omega
end

/-- Steps of an included template, if `k` more may be nested. -/
def incWork (A : Nat) : Nat → Nat
  | 0 => 0
  | k + 1 => A * (incWork A k + 1) + 1

theorem incWork_le (A : Nat) : ∀ k, incWork A k + 1 ≤ (A + 2) ^ k
  | 0 => by simp [incWork]
  | k + 1 => by
    have h := incWork_le A k
    have h1 : A * (incWork A k + 1) ≤ A * (A + 2) ^ k := Nat.mul_le_mul_left A h
    have h2 : 0 < (A + 2) ^ k := Nat.pow_pos (by omega)
    have h3 : (A + 2) ^ (k + 1) = A * (A + 2) ^ k + 2 * (A + 2) ^ k := by rw [Nat.pow_succ, Nat.mul_comm, Nat.add_mul]
    rw [incWork, h3]
    omega

/-- Templates that are not too large. -/
def Small (M N : Nat) (t : Template) : Prop := ∃ ss, t.instrs = codeStmts 0 ss ∧ t.instrs.length ≤ M ∧ nesting ss ≤ N

theorem template_cost {M N : Nat} {t : Template} (h : Small M N t) {name : Option Str} {hs : Bool} {fs : List Frame} (hl : LoopsAtMost cfg vm₀ n)
    (hinc : IncCost cfg vm₀ I fs) (st : Stack) (w : World σ) :
    Cost cfg vm₀ (M * (n + 1) ^ N * (I + 1)) (mach t name hs fs 0 st none w) (GoesOn t name hs fs t.instrs.length st) := by
  obtain ⟨ss, h1, h2, h3⟩ := h
  have := stmts_cost (t := t) (name := name) (hs := hs) (st := st) hl hinc ss (pc := 0) ⟨[], [], by simp [h1], rfl⟩ w
  rw [Nat.zero_add, ← h1] at this
  refine this.mono ?_
  refine Nat.le_trans (work_le 0 ss h3) ?_
  rw [← h1, Nat.mul_assoc]
  exact Nat.mul_le_mul_right _ h2

theorem include_cost {M N : Nat} (hts : ∀ t, Includable cfg t → Small M N t) (hl : LoopsAtMost cfg vm₀ n) :
    ∀ (k : Nat) (fs : List Frame), cfg.maxIncludeDepth ≤ fs.length + 1 + k → IncCost cfg vm₀ (incWork (M * (n + 1) ^ N) k) fs := by
  intro k
  induction k with
  | zero =>
    intro fs hd t name hs pc st w nm
    have deep : ∀ v : VM σ, v.frames.length = fs.length + 2 → ∃ r, checkDepth cfg v = .halt r := by
      intro v hv
      rw [checkDepth, if_pos (by omega)]
      exact ⟨_, rfl⟩
    constructor
    · intro hi
      rcases hg : getTemplate cfg t.source nm w with ⟨w', r⟩
      cases r with
      | ok t' =>
        obtain ⟨r, hr⟩ := deep ⟨⟨t', some nm.name, 0, false⟩ :: ⟨t, name, pc + 1, hs⟩ :: fs, st, none, w'⟩ rfl
        exact Cost.halt (r := r) (by simp [step, mach, hi, execInstr, hg, hr])
      | err e => exact Cost.halt (r := .err (e.attachName name) w') (by simp [step, mach, hi, execInstr, hg])
      | crash => exact Cost.halt (r := .crash) (by simp [step, mach, hi, execInstr, hg])
    · intro hi v
      rcases hg : getTemplate cfg t.source nm w with ⟨w', r⟩
      cases r with
      | ok t' =>
        obtain ⟨r, hr⟩ := deep ⟨⟨t', some nm.name, 0, true⟩ :: ⟨t, name, pc + 1, hs⟩ :: fs, .scope v :: .boundary :: st, none, w'⟩ rfl
        exact Cost.halt (r := r) (by simp [step, mach, hi, execInstr, hg, hr])
      | err e => exact Cost.halt (r := .err (e.attachName name) w') (by simp [step, mach, hi, execInstr, hg])
      | crash => exact Cost.halt (r := .crash) (by simp [step, mach, hi, execInstr, hg])
  | succ k ih =>
    intro fs hd t name hs pc st w nm
    have check : ∀ {m : Nat} {vm v : VM σ} {Q : VM σ → Prop}, step cfg vm = checkDepth cfg v → Cost cfg vm₀ m v Q → Cost cfg vm₀ (m + 1) vm Q := by
      intro m vm v Q hs h
      rw [checkDepth] at hs
      split at hs
      · exact .halt hs
      · exact .next hs h
    have inner := ih (⟨t, name, pc + 1, hs⟩ :: fs) (by simp only [List.length_cons]; omega)
    constructor
    · intro hi
      rcases hg : getTemplate cfg t.source nm w with ⟨w', r⟩
      cases r with
      | ok t' =>
        have hsm := hts t' (find_includable (by rw [← find_eq]; exact hg))
        refine check (v := mach t' (some nm.name) false (⟨t, name, pc + 1, hs⟩ :: fs) 0 st none w') (by simp [step, mach, hi, execInstr, hg]) ?_
        rw [incWork]
        refine (template_cost hsm hl inner st w').bind fun vm' hq => ?_
        obtain ⟨w2, rfl⟩ := hq
        exact check (m := 0) (v := mach t name hs fs (pc + 1) st none w2) (by simp [step, mach]) (.done ⟨_, rfl⟩)
      | err e => exact Cost.halt (r := .err (e.attachName name) w') (by simp [step, mach, hi, execInstr, hg])
      | crash => exact Cost.halt (r := .crash) (by simp [step, mach, hi, execInstr, hg])
    · intro hi v
      rcases hg : getTemplate cfg t.source nm w with ⟨w', r⟩
      cases r with
      | ok t' =>
        have hsm := hts t' (find_includable (by rw [← find_eq]; exact hg))
        refine check (v := mach t' (some nm.name) true (⟨t, name, pc + 1, hs⟩ :: fs) 0 (.scope v :: .boundary :: st) none w')
          (by simp [step, mach, hi, execInstr, hg]) ?_
        rw [incWork]
        refine (template_cost hsm hl inner _ w').bind fun vm' hq => ?_
        obtain ⟨w2, rfl⟩ := hq
        exact check (m := 0) (v := mach t name hs fs (pc + 1) st none w2) (by simp [step, mach]) (.done ⟨_, rfl⟩)
      | err e => exact Cost.halt (r := .err (e.attachName name) w') (by simp [step, mach, hi, execInstr, hg])
      | crash => exact Cost.halt (r := .crash) (by simp [step, mach, hi, execInstr, hg])

/-- A render ends within the bound. -/
theorem render_cost {M N : Nat} {t : Template} (ht : Small M N t) (hts : ∀ t, Includable cfg t → Small M N t) {name : Option Str} {base : SState} {out : σ}
    (hl : LoopsAtMost cfg (initVM t name base out) n) :
    ∃ r, run cfg ((M * (n + 1) ^ N + 2) ^ max 1 cfg.maxIncludeDepth) (initVM t name base out) = some r := by
  obtain ⟨k, hk⟩ : ∃ k, max 1 cfg.maxIncludeDepth = k + 1 := ⟨max 1 cfg.maxIncludeDepth - 1, by omega⟩
  have hinc := include_cost (vm₀ := initVM t name base out) hts hl k [] (by simp only [List.length_nil]; omega)
  have h1 := template_cost ht (name := name) (hs := false) hl hinc [base] ⟨out, []⟩
  have h2 : Cost cfg (initVM t name base out) (incWork (M * (n + 1) ^ N) (k + 1) + 1) (initVM t name base out) (fun _ => False) := by
    rw [incWork, Nat.add_assoc]
    refine h1.bind fun vm' hq => ?_
    obtain ⟨w, rfl⟩ := hq
    have : step cfg (mach t name false [] t.instrs.length [base] none w) = checkDepth cfg ⟨[], [base], none, w⟩ := by simp [step, mach]
    rw [checkDepth] at this
    split at this
    · exact .halt this
    · exact .next this (.halt rfl)
  have h3 := (h2.mono (incWork_le _ _)) .refl
  rw [hk]
  rcases h3 with h | ⟨_, _, _, _, _, h⟩
  · exact h
  · exact h.elim

end Cost
end Upon
