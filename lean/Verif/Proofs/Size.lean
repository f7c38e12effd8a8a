import Verif.Spec.Size
import Verif.Proofs.Code
import Verif.Proofs.OrderedRun
/-
For C59: at every position of the code a certain number of blocks is open, and the stack is as high as that.
-/
namespace Upon
open Spec Compiler
variable {σ : Type} {cfg : RenderCfg σ}

namespace Size

/-- An instruction keeps to the heights `D`. -/
def okInstr (D : Nat → Nat) (pc : Nat) : Instr → Prop
  | .jump j => D j = D pc
  | .jumpIfTrue j => D j = D pc ∧ D (pc + 1) = D pc
  | .jumpIfFalse j => D j = D pc ∧ D (pc + 1) = D pc
  | .loopStart _ _ => D (pc + 1) = D pc + 1
  | .loopNext j => D (pc + 1) = D pc ∧ D j + 1 = D pc
  | .withStart _ => D (pc + 1) = D pc + 1
  | .withEnd => D (pc + 1) + 1 = D pc
  | _ => D (pc + 1) = D pc

/-- So does code at a position. -/
def Ok (D : Nat → Nat) (p : Nat) (code : List Instr) : Prop := ∀ k i, code[k]? = some i → okInstr D (p + k) i

theorem Ok.nil {D : Nat → Nat} {p : Nat} : Ok D p [] := fun k i h => by simp at h

theorem Ok.cons {D : Nat → Nat} {p : Nat} {i : Instr} {is : List Instr} (h : okInstr D p i) (h' : Ok D (p + 1) is) : Ok D p (i :: is) := by
  intro k j hj
  cases k with
  | zero => cases hj; exact h
  | succ k => rw [show p + (k + 1) = p + 1 + k by omega]; exact h' k j (by simpa using hj)

theorem Ok.append {D : Nat → Nat} {p : Nat} {a b : List Instr} (h : Ok D p a) (h' : Ok D (p + a.length) b) : Ok D p (a ++ b) := by
  intro k i hi
  by_cases hk : k < a.length
  · rw [List.getElem?_append_left hk] at hi; exact h k i hi
  · rw [List.getElem?_append_right (by omega)] at hi
    have := h' _ i hi
    rwa [show p + a.length + (k - a.length) = p + k by omega] at this

/-- The heights from a position on. -/
def Agree (D : Nat → Nat) (p : Nat) (ds : List Nat) : Prop := ∀ k x, ds[k]? = some x → D (p + k) = x

theorem Agree.left {D : Nat → Nat} {p : Nat} {a b : List Nat} (h : Agree D p (a ++ b)) : Agree D p a := by
  intro k x hx
  have := (List.getElem?_eq_some_iff.mp hx).1
  exact h k x (by rw [List.getElem?_append_left this]; exact hx)

theorem Agree.right {D : Nat → Nat} {p : Nat} {a b : List Nat} (h : Agree D p (a ++ b)) : Agree D (p + a.length) b := by
  intro k x hx
  have := h (a.length + k) x (by rw [List.getElem?_append_right (by omega), show a.length + k - a.length = k by omega]; exact hx)
  rwa [← Nat.add_assoc] at this

theorem Agree.head {D : Nat → Nat} {p x : Nat} {b : List Nat} (h : Agree D p (x :: b)) : D p = x := h 0 x rfl

theorem Agree.tail {D : Nat → Nat} {p x : Nat} {b : List Nat} (h : Agree D p (x :: b)) : Agree D (p + 1) b := by
  intro k y hy
  have := h (k + 1) y (by simpa using hy)
  rwa [show p + (k + 1) = p + 1 + k by omega] at this

mutual
/-- The heights in the code of a statement. -/
def depthsOne (d : Nat) : Stmt → List Nat
  | .raw _ => [d]
  | .inlineExpr e _ => List.replicate (codeEmit e).length d
  | .include_ _ (some g) => List.replicate (codeExpr g).length d ++ [d]
  | .include_ _ none => [d]
  | .ifElse _ c t none => List.replicate (codeExpr c).length d ++ d :: depths d t
  | .ifElse _ c t (some e) => List.replicate (codeExpr c).length d ++ d :: (depths d t ++ d :: depths d e)
  | .forLoop _ e b => List.replicate (codeExpr e).length d ++ d :: (d + 1) :: (depths (d + 1) b ++ [d + 1])
  | .with_ e _ b => List.replicate (codeExpr e).length d ++ d :: (depths (d + 1) b ++ [d + 1])

/-- The heights in the code of statements. -/
def depths (d : Nat) : List Stmt → List Nat
  | [] => []
  | s :: ss => depthsOne d s ++ depths d ss
end

mutual
theorem depthsOne_length (d p : Nat) : ∀ s, (depthsOne d s).length = (codeStmt p s).length
  | .raw _ => rfl
  | .inlineExpr e _ => by simp [depthsOne, codeStmt]
  | .include_ _ (some g) => by simp [depthsOne, codeStmt]
  | .include_ _ none => rfl
  | .ifElse _ c t none => by simp [depthsOne, codeStmt, depths_length d (p + (codeExpr c).length + 1) t]
  | .ifElse _ c t (some e) => by
    simp [depthsOne, codeStmt, depths_length d (p + (codeExpr c).length + 1) t,
      depths_length d (p + (codeExpr c).length + 1 + (codeStmts (p + (codeExpr c).length + 1) t).length + 1) e]
  | .forLoop _ e b => by simp [depthsOne, codeStmt, depths_length (d + 1) (p + (codeExpr e).length + 2) b]
  | .with_ e _ b => by simp [depthsOne, codeStmt, depths_length (d + 1) (p + (codeExpr e).length + 1) b]

theorem depths_length (d p : Nat) : ∀ ss, (depths d ss).length = (codeStmts p ss).length
  | [] => rfl
  | s :: ss => by
    simp [depths, codeStmts, depthsOne_length d p s, depths_length d (p + (codeStmt p s).length) ss]
end

mutual
theorem depthsOne_le (d : Nat) : ∀ s, ∀ x ∈ depthsOne d s, x ≤ d + nestingOne s
  | .raw _, x, h => by simp [depthsOne] at h; omega
  | .inlineExpr e _, x, h => by simp [depthsOne] at h; omega
  | .include_ _ (some g), x, h => by simp [depthsOne] at h; omega
  | .include_ _ none, x, h => by simp [depthsOne] at h; omega
  | .ifElse _ c t none, x, h => by
    simp [depthsOne] at h
    rcases h with h | h | h
    · omega
    · omega
    · exact depths_le d t x h
  | .ifElse _ c t (some e), x, h => by
    simp only [depthsOne, List.mem_append, List.mem_replicate, List.mem_cons] at h
    rw [nestingOne]
    rcases h with h | h | h | h | h
    · omega
    · omega
    · have := depths_le d t x h; omega
    · omega
    · have := depths_le d e x h; omega
  | .forLoop _ e b, x, h => by
    simp only [depthsOne, List.mem_append, List.mem_replicate, List.mem_cons, List.not_mem_nil, or_false] at h
    rw [nestingOne]
    rcases h with h | h | h | h | h
    · omega
    · omega
    · omega
    · have := depths_le (d + 1) b x h; omega
    · omega
  | .with_ e _ b, x, h => by
    simp only [depthsOne, List.mem_append, List.mem_replicate, List.mem_cons, List.not_mem_nil, or_false] at h
    rw [nestingOne]
    rcases h with h | h | h | h
    · omega
    · omega
    · have := depths_le (d + 1) b x h; omega
    · omega

theorem depths_le (d : Nat) : ∀ ss, ∀ x ∈ depths d ss, x ≤ d + nesting ss
  | [], x, h => by cases h
  | s :: ss, x, h => by
    rw [nesting]
    rcases List.mem_append.mp (show x ∈ depthsOne d s ++ depths d ss from h) with h | h
    · have := depthsOne_le d s x h; omega
    · have := depths_le d ss x h; omega
end

/-- Code at one height. -/
theorem ok_flat {D : Nat → Nat} {p d : Nat} {code : List Instr} (hc : ∀ i ∈ code, ∀ pc, D pc = d → D (pc + 1) = d → okInstr D pc i)
    (h : Agree D p (List.replicate code.length d)) (he : D (p + code.length) = d) : Ok D p code := by
  intro k i hi
  have hk := (List.getElem?_eq_some_iff.mp hi).1
  have hd : ∀ k, k ≤ code.length → D (p + k) = d := by
    intro k hk
    by_cases hk' : k < code.length
    · exact h k d (by simp [hk'])
    · rw [show k = code.length by omega]; exact he
  exact hc i (List.mem_of_getElem? hi) (p + k) (hd k (by omega)) (hd (k + 1) (by omega))

theorem codeExpr_flat {D : Nat → Nat} {d : Nat} (e : Expr) : ∀ i ∈ codeExpr e, ∀ pc, D pc = d → D (pc + 1) = d → okInstr D pc i := by
  induction e with
  | base b => intro i hi pc h1 h2; cases b <;> simp [codeExpr, codeBase] at hi <;> subst hi <;> exact h2.trans h1.symm
  | call n a r s ih =>
    intro i hi pc h1 h2
    rcases List.mem_append.mp (show i ∈ codeExpr r ++ [.apply n s a] from hi) with h | h
    · exact ih i h pc h1 h2
    · simp at h; subst h; exact h2.trans h1.symm

theorem codeEmit_flat {D : Nat → Nat} {d : Nat} (e : Expr) : ∀ i ∈ codeEmit e, ∀ pc, D pc = d → D (pc + 1) = d → okInstr D pc i := by
  intro i hi pc h1 h2
  have other : ∀ (l : List Instr) j, (∀ pc, D pc = d → D (pc + 1) = d → okInstr D pc j) → (∀ i ∈ l, ∀ pc, D pc = d → D (pc + 1) = d → okInstr D pc i) →
      i ∈ l ++ [j] → okInstr D pc i := by
    intro l j hj hl h
    rcases List.mem_append.mp h with h | h
    · exact hl i h pc h1 h2
    · simp at h; subst h; exact hj pc h1 h2
  cases e with
  | base b => exact other _ (.emit (Expr.base b).span) (fun pc h1 h2 => h2.trans h1.symm) (codeExpr_flat (.base b)) hi
  | call n a r s =>
    cases a with
    | none => exact other _ (.emitWith n s) (fun pc h1 h2 => h2.trans h1.symm) (codeExpr_flat r) hi
    | some a => exact other _ (.emit (Expr.call n (some a) r s).span) (fun pc h1 h2 => h2.trans h1.symm) (codeExpr_flat (.call n (some a) r s)) hi

/-- The height where statements start. -/
theorem depths_start {D : Nat → Nat} {p d : Nat} : ∀ ss, Agree D p (depths d ss) → D (p + (depths d ss).length) = d → D p = d := by
  have one : ∀ s, ∃ l, depthsOne d s = d :: l := by
    have rep : ∀ e l, ∃ l', List.replicate (codeExpr e).length d ++ d :: l = d :: l' := by
      intro e l
      cases h : (codeExpr e).length with
      | zero => exact ⟨l, rfl⟩
      | succ n => exact ⟨List.replicate n d ++ d :: l, by simp [List.replicate_succ]⟩
    intro s
    cases s with
    | raw _ => exact ⟨[], rfl⟩
    | inlineExpr e _ =>
      rw [depthsOne]
      cases h : (codeEmit e).length with
      | zero =>
        exfalso
        have : codeEmit e ≠ [] := by
          cases e with
          | base b => simp [codeEmit]
          | call n a r s => cases a <;> simp [codeEmit]
        exact this (List.length_eq_zero_iff.mp h)
      | succ n => exact ⟨_, List.replicate_succ⟩
    | include_ _ g =>
      cases g with
      | none => exact ⟨[], rfl⟩
      | some g => exact rep g []
    | ifElse _ c t e => cases e <;> (rw [depthsOne]; exact rep c _)
    | forLoop _ e b => rw [depthsOne]; exact rep e _
    | with_ e _ b => rw [depthsOne]; exact rep e _
  intro ss h he
  cases ss with
  | nil => exact he
  | cons s ss =>
    obtain ⟨l, hl⟩ := one s
    rw [depths, hl] at h
    exact h.head

theorem expr_part {D : Nat → Nat} {p d : Nat} {e : Expr} {l : List Nat} (h : Agree D p (List.replicate (codeExpr e).length d ++ d :: l)) :
    Ok D p (codeExpr e) ∧ D (p + (codeExpr e).length) = d ∧ Agree D (p + (codeExpr e).length + 1) l := by
  have hr := h.right
  rw [List.length_replicate] at hr
  exact ⟨ok_flat (codeExpr_flat e) h.left hr.head, hr.head, hr.tail⟩

theorem at_eq {D : Nat → Nat} {a b d : Nat} (h : D a = d) (e : a = b) : D b = d := e ▸ h

mutual
theorem ok_stmt {D : Nat → Nat} {d : Nat} : ∀ (s : Stmt) {p : Nat}, Agree D p (depthsOne d s) → D (p + (depthsOne d s).length) = d → Ok D p (codeStmt p s)
  | .raw _, p, h, he => .cons (by exact he.trans h.head.symm) .nil
  | .inlineExpr e _, p, h, he => by
    rw [depthsOne, List.length_replicate] at he
    exact ok_flat (codeEmit_flat e) h he
  | .include_ _ none, p, h, he => .cons (by exact he.trans h.head.symm) .nil
  | .include_ _ (some g), p, h, he => by
    rw [depthsOne] at h he
    obtain ⟨h1, h2, _⟩ := expr_part h
    simp only [List.length_append, List.length_replicate, List.length_singleton] at he
    exact h1.append (.cons (by exact he.trans h2.symm) .nil)
  | .ifElse n c t none, p, h, he => by
    rw [depthsOne] at h he
    obtain ⟨h1, h2, h3⟩ := expr_part h
    simp only [List.length_append, List.length_replicate, List.length_cons] at he
    have he' : D (p + (codeExpr c).length + 1 + (depths d t).length) = d := at_eq he (by omega)
    have h4 := ok_stmts t h3 he'
    have h5 := depths_start t h3 he'
    rw [depths_length d (p + (codeExpr c).length + 1)] at he'
    simp only [codeStmt]
    refine h1.append (.cons ?_ h4)
    cases n
    · exact ⟨he'.trans h2.symm, h5.trans h2.symm⟩
    · exact ⟨he'.trans h2.symm, h5.trans h2.symm⟩
  | .ifElse n c t (some e), p, h, he => by
    rw [depthsOne] at h he
    obtain ⟨h1, h2, h3⟩ := expr_part h
    simp only [List.length_append, List.length_replicate, List.length_cons] at he
    have h6 := h3.right
    have h4 := ok_stmts t h3.left h6.head
    have h5 := depths_start t h3.left h6.head
    have he' : D (p + (codeExpr c).length + 1 + (depths d t).length + 1 + (depths d e).length) = d := at_eq he (by omega)
    have h7 := ok_stmts e h6.tail he'
    have h8 := depths_start e h6.tail he'
    rw [depths_length d (p + (codeExpr c).length + 1 + (depths d t).length + 1) e] at he'
    have h9 := h6.head
    rw [depths_length d (p + (codeExpr c).length + 1) t] at h7 h8 h9 he'
    simp only [codeStmt]
    refine h1.append (.cons ?_ (h4.append (.cons (he'.trans h9.symm) h7)))
    cases n
    · exact ⟨h8.trans h2.symm, h5.trans h2.symm⟩
    · exact ⟨h8.trans h2.symm, h5.trans h2.symm⟩
  | .forLoop v e b, p, h, he => by
    rw [depthsOne] at h he
    obtain ⟨h1, h2, h3⟩ := expr_part h
    simp only [List.length_append, List.length_replicate, List.length_cons, List.length_nil] at he
    have h6 := h3.tail.right
    have h4 := ok_stmts b h3.tail.left h6.head
    have h5 := depths_start b h3.tail.left h6.head
    have h9 := h6.head
    have he' : D (p + (codeExpr e).length + 1 + 1 + (depths (d + 1) b).length + 1) = d := at_eq he (by omega)
    rw [depths_length (d + 1) (p + (codeExpr e).length + 2) b] at h9 he'
    have h0 := h3.head
    simp only [codeStmt]
    refine h1.append (.cons ?_ (.cons ⟨?_, ?_⟩ (h4.append (.cons ?_ .nil))))
    · show D _ = D _ + 1
      rw [h0, h2]
    · rw [h5, h0]
    · show D (p + (codeExpr e).length + 1 + 1 + _ + 1) + 1 = _
      rw [he', h0]
    · show D _ = D _
      rw [h0]; exact h9.symm
  | .with_ e n b, p, h, he => by
    rw [depthsOne] at h he
    obtain ⟨h1, h2, h3⟩ := expr_part h
    simp only [List.length_append, List.length_replicate, List.length_cons, List.length_nil] at he
    have h6 := h3.right
    have h4 := ok_stmts b h3.left h6.head
    have h5 := depths_start b h3.left h6.head
    have h9 := h6.head
    have he' : D (p + (codeExpr e).length + 1 + (depths (d + 1) b).length + 1) = d := at_eq he (by omega)
    rw [depths_length (d + 1) (p + (codeExpr e).length + 1) b] at h9 he'
    simp only [codeStmt]
    refine h1.append (.cons ?_ (h4.append (.cons ?_ .nil)))
    · show D _ = D _ + 1
      rw [h5, h2]
    · show D _ + 1 = D _
      rw [he', h9]

theorem ok_stmts {D : Nat → Nat} {d : Nat} : ∀ (ss : List Stmt) {p : Nat}, Agree D p (depths d ss) → D (p + (depths d ss).length) = d →
    Ok D p (codeStmts p ss)
  | [], p, _, _ => .nil
  | s :: ss, p, h, he => by
    rw [depths] at h he
    rw [List.length_append, ← Nat.add_assoc] at he
    have h1 := depths_start ss h.right he
    have h2 := ok_stmt s h.left h1
    have h3 := ok_stmts ss h.right he
    rw [depthsOne_length d p s] at h3
    exact h2.append h3
end

/-- The code of a template keeps to heights that are at most `N`. -/
structure Fits (t : Template) (D : Nat → Nat) (N : Nat) : Prop where
  first : D 0 = 0
  last : D t.instrs.length = 0
  most : ∀ p, D p ≤ N
  code : ∀ pc i, t.instrs[pc]? = some i → okInstr D pc i

theorem fits {src : Str} {ss : List Stmt} {t : Template} (h : compileTemplate src ss = some t) {N : Nat} (hN : nesting ss ≤ N) : ∃ D, Fits t D N := by
  rw [compileTemplate_eq] at h
  cases h
  obtain ⟨D, hD⟩ : ∃ D : Nat → Nat, ∀ p, D p = ((depths 0 ss)[p]?).getD 0 := ⟨_, fun _ => rfl⟩
  have ha : Agree D 0 (depths 0 ss) := by
    intro k x hx
    rw [hD]
    simp [hx]
  have he : D (0 + (depths 0 ss).length) = 0 := by rw [hD]; simp
  refine ⟨D, depths_start ss ha he, ?_, fun p => ?_, fun pc i hi => ?_⟩
  · show D (codeStmts 0 ss).length = 0
    rw [hD, ← depths_length 0 0 ss]; simp
  · rw [hD]
    cases hp : (depths 0 ss)[p]? with
    | none => simp
    | some x =>
      have := depths_le 0 ss x (List.mem_of_getElem? hp)
      simp only [Option.getD_some]; omega
  · have := ok_stmts ss ha he pc i hi
    rwa [Nat.zero_add] at this

/-- The height of the stack, given the templates that are active. -/
inductive Height (N : Nat) : List Frame → Nat → Prop
  | nil : Height N [] 1
  | cons {fr fs h D} : Fits fr.tmpl D N → (fs = [] → fr.hasScope = false) → Height N fs h → Height N (fr :: fs) (h + D fr.pc + if fr.hasScope then 2 else 0)

theorem Height.le {N : Nat} {fs : List Frame} {h : Nat} (hh : Height N fs h) : h ≤ 1 + N + (fs.length - 1) * (N + 2) := by
  induction hh with
  | nil => simp
  | @cons fr fs h D hf hs hr ih =>
    have := hf.most fr.pc
    cases fs with
    | nil =>
      cases hr
      rw [hs rfl]
      simp; omega
    | cons fr' fs =>
      simp only [List.length_cons, Nat.add_sub_cancel] at ih ⊢
      rw [Nat.add_mul]
      split <;> omega

/-- What one instruction does with the height. -/
def High (D : Nat → Nat) (base : Nat) (st : Stack) : OneStep σ → Prop
  | .next pc st _ _ => st.length = base + D pc
  | .include_ pc _ => st.length = base + D pc
  | .includeWith pc _ _ => st.length = base + D pc
  | _ => True

theorem high_ofRes {α : Type} {D : Nat → Nat} {base : Nat} {w : World σ} {r : Res α} {st0 : Stack} {k : α → OneStep σ} (h : ∀ a, High D base st0 (k a)) :
    High D base st0 (OneStep.ofRes w r k) := by
  cases r with
  | ok a => exact h a
  | err e => trivial
  | crash => trivial

theorem high_emit {D : Nat → Nat} {base : Nat} {f : Formatter} {v : Value} {src : Str} {sp : Span} {w : World σ} {pc : Nat} {st : Stack}
    {ex : Option Cow} {st0 : Stack} (h : st.length = base + D pc) : High D base st0 (emit cfg f v src sp w (fun w => .next pc st ex w)) := by
  unfold emit
  generalize (f v).run cfg.sink w.out = p
  obtain ⟨out, r⟩ := p
  cases r with
  | ok u => exact h
  | error e => exact high_ofRes fun _ => trivial

theorem high_exec {D : Nat → Nat} {base pc : Nat} {st : Stack} {src : Str} {ex : Option Cow} {w : World σ} {i : Instr} (ho : okInstr D pc i)
    (h : st.length = base + D pc) : High D base st (execInstr cfg src pc st ex w i) := by
  cases i with
  | jump j => show _ = _; rw [show D j = D pc from ho]; exact h
  | jumpIfTrue j =>
    obtain ⟨h1, h2⟩ := ho
    cases ex with
    | none => trivial
    | some v => simp only [execInstr]; split <;> show _ = _ <;> simp only [h1, h2, h]
  | jumpIfFalse j =>
    obtain ⟨h1, h2⟩ := ho
    cases ex with
    | none => trivial
    | some v => simp only [execInstr]; split <;> show _ = _ <;> simp only [h1, h2, h]
  | emit sp =>
    cases ex with
    | none => trivial
    | some v => exact high_emit (by rw [h, show D (pc + 1) = D pc from ho])
  | emitRaw sp =>
    refine high_ofRes fun raw => ?_
    generalize cfg.sink.write w.out raw = p
    obtain ⟨out, b⟩ := p
    cases b
    · trivial
    · show _ = _; rw [h, show D (pc + 1) = D pc from ho]
  | emitWith n sp =>
    refine high_ofRes fun raw => ?_
    cases BMap.get cfg.functions raw with
    | none => exact high_ofRes fun _ => trivial
    | some g =>
      cases g with
      | filter f =>
        cases ex with
        | none => trivial
        | some v => exact high_ofRes fun r => high_emit (by rw [h, show D (pc + 1) = D pc from ho])
      | formatter f =>
        cases ex with
        | none => trivial
        | some v => exact high_emit (by rw [h, show D (pc + 1) = D pc from ho])
  | loopStart vs sp =>
    cases ex with
    | none => trivial
    | some v => refine high_ofRes fun ls => ?_; show (_ :: st).length = _; rw [List.length_cons, h, show D (pc + 1) = D pc + 1 from ho]; rfl
  | loopNext j =>
    obtain ⟨h1, h2⟩ := ho
    simp only [execInstr]
    split
    · rename_i ls rest
      split
      · show _ = _; rw [h1, ← h]; rfl
      · show _ = _; rw [List.length_cons] at h; omega
    · trivial
  | withStart n =>
    cases ex with
    | none => trivial
    | some v => show (_ :: st).length = _; rw [List.length_cons, h, show D (pc + 1) = D pc + 1 from ho]; rfl
  | withEnd =>
    have ho : D (pc + 1) + 1 = D pc := ho
    simp only [execInstr]
    split
    · show _ = _; rw [List.length_cons] at h; omega
    · trivial
  | include_ n => show _ = _; rw [h, show D (pc + 1) = D pc from ho]
  | includeWith n =>
    cases ex with
    | none => trivial
    | some v => show _ = _; rw [h, show D (pc + 1) = D pc from ho]
  | exprStart v =>
    refine high_ofRes fun x => ?_
    cases ex with
    | none => show _ = _; rw [h, show D (pc + 1) = D pc from ho]
    | some _ => trivial
  | exprStartLit v =>
    cases ex with
    | none => show _ = _; rw [h, show D (pc + 1) = D pc from ho]
    | some _ => trivial
  | apply n sp args =>
    refine high_ofRes fun raw => ?_
    cases BMap.get cfg.functions raw with
    | none => exact high_ofRes fun _ => trivial
    | some g =>
      cases g with
      | filter f =>
        cases ex with
        | none => trivial
        | some v => refine high_ofRes fun r => ?_; show _ = _; rw [h, show D (pc + 1) = D pc from ho]
      | formatter f => exact high_ofRes fun _ => trivial

theorem found_includable {src : Str} {n : AstString} {w w' : World σ} {t : Template} (h : getTemplate cfg src n w = (w', .ok t)) : Includable cfg t :=
  find_includable h

/-- A step keeps the stack as high as the code says, and the number of active templates within the limit. -/
theorem height_step {N : Nat} (hts : ∀ t, Includable cfg t → ∃ D, Fits t D N) {vm vm' : VM σ} (hh : Height N vm.frames vm.stack.length)
    (h : step cfg vm = .next vm') : Height N vm'.frames vm'.stack.length ∧ (vm'.frames.length ≤ vm.frames.length ∨ vm'.frames.length ≤ cfg.maxIncludeDepth) := by
  have check : ∀ {v : VM σ}, checkDepth cfg v = .next vm' → Height N v.frames v.stack.length →
      Height N vm'.frames vm'.stack.length ∧ (vm'.frames.length ≤ vm.frames.length ∨ vm'.frames.length ≤ cfg.maxIncludeDepth) := by
    intro v hc hv
    have := checkDepth_next hc
    subst this
    refine ⟨hv, .inr ?_⟩
    unfold checkDepth at hc
    split at hc
    · cases hc
    · omega
  unfold step at h
  generalize hfr : vm.frames = frs at h hh
  cases frs with
  | nil => cases h
  | cons fr fs =>
    rw [hfr] at check
    generalize hsl : vm.stack.length = sl at hh
    cases hh with
    | @cons _ _ hgt D hf hsc0 hfs =>
      dsimp only at h
      cases hi : fr.tmpl.instrs[fr.pc]? with
      | none =>
        rw [hi] at h
        dsimp only at h
        split at h
        · rename_i hpc
          rw [hpc, hf.last] at hsl
          split at h
          · rename_i hsc
            rw [if_pos hsc] at hsl
            split at h
            · rename_i c st he
              rw [he] at hsl
              simp only [List.length_cons] at hsl
              exact check h (by show Height N fs st.length; rw [show st.length = hgt by omega]; exact hfs)
            · cases h
          · rename_i hsc
            rw [if_neg hsc] at hsl
            exact check h (by show Height N fs vm.stack.length; rw [show vm.stack.length = hgt by omega]; exact hfs)
        · cases h
      | some i =>
        rw [hi] at h
        dsimp only at h
        have ho := hf.code fr.pc i hi
        have hx := high_exec (cfg := cfg) (src := fr.tmpl.source) (ex := vm.expr) (w := vm.w) (base := hgt + if fr.hasScope then 2 else 0) ho
          (st := vm.stack) (by rw [hsl]; omega)
        have enter : ∀ {pc : Nat} {t : Template} {nm : Option Str} {b : Bool} {n : Nat}, vm.stack.length = hgt + (if fr.hasScope then 2 else 0) + D pc →
            Includable cfg t → n = vm.stack.length + (if b then 2 else 0) → Height N (⟨t, nm, 0, b⟩ :: { fr with pc } :: fs) n := by
          intro pc t nm b n hD hg hn
          obtain ⟨D', hf'⟩ := hts t hg
          have h1 : Height N ({ fr with pc } :: fs) vm.stack.length := by
            rw [hD, show hgt + (if fr.hasScope then 2 else 0) + D pc = hgt + D pc + if fr.hasScope then 2 else 0 by omega]
            exact .cons (fr := { fr with pc }) hf hsc0 hfs
          have h2 := Height.cons (fr := ⟨t, nm, 0, b⟩) hf' (by simp) h1
          rw [hf'.first, Nat.add_zero] at h2
          rw [hn]
          exact h2
        have keeps : ∀ pc st ex w, execInstr cfg fr.tmpl.source fr.pc vm.stack vm.expr vm.w i = .next pc st ex w →
            Height N ({ fr with pc } :: fs) st.length := by
          intro pc st ex w he
          rw [he] at hx
          rw [show st.length = hgt + D pc + if fr.hasScope then 2 else 0 by have : st.length = _ := hx; omega]
          exact .cons (fr := { fr with pc }) hf hsc0 hfs
        cases he : execInstr cfg fr.tmpl.source fr.pc vm.stack vm.expr vm.w i with
        | next pc st ex w =>
          rw [he] at h
          cases h
          exact ⟨keeps _ _ _ _ he, .inl (by simp)⟩
        | err e w => rw [he] at h; cases h
        | crash => rw [he] at h; cases h
        | include_ pc n =>
          rw [he] at h
          dsimp only at h
          rw [he] at hx
          generalize hg : getTemplate cfg fr.tmpl.source n vm.w = q at h
          obtain ⟨w, res⟩ := q
          cases res with
          | ok t => exact check h (enter hx (found_includable hg) (by simp))
          | err e => cases h
          | crash => cases h
        | includeWith pc n g =>
          rw [he] at h
          dsimp only at h
          rw [he] at hx
          generalize hg : getTemplate cfg fr.tmpl.source n vm.w = q at h
          obtain ⟨w, res⟩ := q
          cases res with
          | ok t => exact check h (enter hx (found_includable hg) (by simp))
          | err e => cases h
          | crash => cases h

end Size
end Upon
