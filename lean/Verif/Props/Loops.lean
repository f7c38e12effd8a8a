import Verif.Proofs.Loops
import Verif.Props.Partial
/-
C68: a loop over a list or map is a loop over its first part followed by a loop over the rest.
-/
namespace Upon
open Spec

/-- The renderer may find `t` under the name `n`. -/
def Spec.Finds (r : Renderer) (n : Str) (t : Template) : Prop :=
  match r.templateFn with
  | some f => ∃ asked, f asked n = .ok t
  | none => r.engine.getTemplate n = some t

/-- What `{% for … in xs %}` … `{% endfor %}` says. -/
def Spec.loopOver (vars : List Item) (xs : Str) (body : List Item) : List Item :=
  Plain.tag "for" (vars ++ [.word .keyword "in".toList, .word .ident xs]) ++ (body ++ Plain.tag "endfor" [])

/-- How a render ended, without its text. -/
def Partial.ended {α : Type} : Res α → Res Unit
  | .ok _ => .ok ()
  | .err e => .err e
  | .crash => .crash

theorem Partial.ended_ok {α : Type} {x : Res α} (k : Unplaced (ended x) = Unplaced (.ok ())) : ∃ a, x = .ok a := by
  cases x with
  | ok a => exact ⟨a, rfl⟩
  | err e => cases k
  | crash => cases k

theorem Partial.ended_err {α : Type} {x : Res α} {e : Err} (k : Unplaced (ended x) = Unplaced (.err e : Res Unit)) :
    Unplaced x = Unplaced (.err e : Res α) := by
  cases x with
  | ok a => cases k
  | err e' => unfold ended Unplaced at k; unfold Unplaced; injection k with k; dsimp only; rw [k]
  | crash => cases k

theorem Partial.ended_crash {α : Type} {x : Res α} (k : Unplaced (ended x) = Unplaced .crash) : x = .crash := by
  cases x with
  | ok a => cases k
  | err e => cases k
  | crash => rfl

section
variable {ω : Type} {env : Env} {io : IoWriter ω} {log : ω → List UInt8} {tree : Template → Tree} {r : Renderer}

theorem Plain.loop_closed {S : Str → Prop}
    (hS : ∀ n, S n → ∀ t, Finds r n t → Plain.AllAskNoLoop S (Plain.ofStmts (tree t).source (tree t).body)) :
    Plain.LoopClosed (Plain.ofCfg (r.cfg env stringSink) tree) S := by
  intro n hn a ss hf
  unfold Plain.ofCfg Renderer.cfg at hf
  dsimp only at hf
  cases ht : r.templateFn with
  | none =>
    rw [ht] at hf
    dsimp only at hf
    split at hf
    · rename_i t h
      cases hf
      exact hS n hn t (by unfold Finds; rw [ht]; exact h)
    · cases hf
  | some f =>
    rw [ht] at hf
    dsimp only at hf
    split at hf
    · rename_i t h
      cases hf
      exact hS n hn t (by unfold Finds; rw [ht]; exact ⟨a, h⟩)
    · cases hf

theorem Plain.eval_global (cfg : Plain.Cfg) {c : Cow} {m : BMap Value} (hc : c.val = .map m) {x : Str} {v : Value} (hx : BMap.get m x = some v) :
    Plain.evalExpr cfg [.globals c] (.base (.var x ⟨.direct, .key x⟩ [])) = .ok (like c v) := by
  rw [Plain.evalExpr, Plain.evalBase, Plain.resolve, Plain.get, hc]
  simp only [Plain.lookup, hx, Plain.followCow, Plain.follow]
  cases c <;> rfl

theorem Plain.tree_loop {vars body : List Item} {vs : Plain.Vars} {sb : List Plain.Stmt} (hv : Plain.WVars vars vs) (hb : Plain.WStmts env body sb) {x : Str}
    {t : Template} {T : Tree} (h : Says env t T (loopOver vars x body)) :
    Plain.ofStmts T.source T.body = [.forLoop vs (.base (.var x ⟨.direct, .key x⟩ [])) sb] := by
  have he : Plain.WExpr env [.word .ident x] (.base (.var x ⟨.direct, .key x⟩ [])) := ⟨[.word .ident x], _, [], rfl, .var .nil, .nil⟩
  have k := Plain.WStmts.for_ hv he hb (Plain.WStmts.nil (env := env))
  refine Plain.stmts_unique h.body ?_
  rw [loopOver]
  simpa using k

/-- **C68** If `c` has the items (or entries) of `a` and then those of `b`, then a loop over `c` is a loop over `a` and then, on the same writer and if that
succeeded, a loop over `b`; provided that the body, and the templates that it includes with all its variables, do not ask for `loop`. -/
theorem C68_to_writer (h : Steady env tree r) {m : BMap Value} (hg : r.globals = .borrowed (.map m) ∨ r.globals = .owned (.ok (.map m)))
    {vars body : List Item} {vs : Plain.Vars} {sb : List Plain.Stmt} (hv : Plain.WVars vars vs) (hbody : Plain.WStmts env body sb)
    {S : Str → Prop} (hn : Plain.AllAskNoLoop S sb)
    (hS : ∀ n, S n → ∀ t, Finds r n t → Plain.AllAskNoLoop S (Plain.ofStmts (tree t).source (tree t).body))
    {a b c : Str} {va vb vc : Value} (ga : BMap.get m a = some va) (gb : BMap.get m b = some vb) (gc : BMap.get m c = some vc) (hj : Plain.Joined vs va vb vc)
    {ta tb tc : Template} {A B C : Tree} (sa : Says env ta A (loopOver vars a body)) (sb' : Says env tb B (loopOver vars b body))
    (sc : Says env tc C (loopOver vars c body)) (na : Tame A.body)
    (hl : Accepts io log) {w₀ w₁ w₂ w : ω} {ra rb rc : Res Unit} (h1 : { r with template := ta }.ToWriter env io w₀ ra w₁)
    (h2 : { r with template := tb }.ToWriter env io w₁ rb w₂) (h3 : { r with template := tc }.ToWriter env io w₀ rc w) :
    (ra = .ok () → Unplaced rc = Unplaced rb ∧ (rc ≠ .crash → log w = log w₂)) ∧
      (ra ≠ .ok () → Unplaced rc = Unplaced ra ∧ (rc ≠ .crash → log w = log w₁)) := by
  have tame : ∀ {x y : Str} {t t' : Template} {T T' : Tree}, Says env t T (loopOver vars x body) → Says env t' T' (loopOver vars y body) → Tame T.body →
      Tame T'.body := by
    intro x y t t' T T' s1 s2 h
    rw [← Plain.tame_of (src := T.source), Plain.tree_loop hv hbody s1] at h
    rw [← Plain.tame_of (src := T'.source), Plain.tree_loop hv hbody s2]
    exact h
  refine Partial.in_turn h sa.parsed sb'.parsed sc.parsed na (tame sa sb' na) (tame sa sc na) (fun base hb => ?_) hl h1 h2 h3
  rw [Plain.tree_loop hv hbody sa, Plain.tree_loop hv hbody sb', Plain.tree_loop hv hbody sc]
  obtain ⟨cow, rfl, hc⟩ : ∃ cow, base = .scope cow ∧ cow.val = .map m := by
    unfold Renderer.base at hb
    rcases hg with hg | hg <;> rw [hg] at hb <;> cases hb <;> exact ⟨_, rfl, rfl⟩
  have ho : ∀ x y, isOwned (like cow x) = isOwned (like cow y) := by cases cow <;> exact fun _ _ => rfl
  have hv : ∀ x, (like cow x).val = x := by cases cow <;> exact fun _ => rfl
  exact Plain.render_joined (Plain.loop_closed hS) hn r.name (Plain.eval_global _ hc ga) (Plain.eval_global _ hc gb) (Plain.eval_global _ hc gc) (ho _ _) (ho _ _)
    (by rw [hv, hv, hv]; exact hj) _

/-- **C68** So the text of a loop over the whole is the text of the loop over the first part followed by that of the loop over the second. -/
theorem C68_to_string (h : Steady env tree r) {m : BMap Value} (hg : r.globals = .borrowed (.map m) ∨ r.globals = .owned (.ok (.map m)))
    {vars body : List Item} {vs : Plain.Vars} {sb : List Plain.Stmt} (hv : Plain.WVars vars vs) (hbody : Plain.WStmts env body sb)
    {S : Str → Prop} (hn : Plain.AllAskNoLoop S sb)
    (hS : ∀ n, S n → ∀ t, Finds r n t → Plain.AllAskNoLoop S (Plain.ofStmts (tree t).source (tree t).body))
    {a b c : Str} {va vb vc : Value} (ga : BMap.get m a = some va) (gb : BMap.get m b = some vb) (gc : BMap.get m c = some vc) (hj : Plain.Joined vs va vb vc)
    {ta tb tc : Template} {A B C : Tree} (sa : Says env ta A (loopOver vars a body)) (sb' : Says env tb B (loopOver vars b body))
    (sc : Says env tc C (loopOver vars c body)) (na : Tame A.body)
    {ra rb rc : Res Str} (h1 : { r with template := ta }.ToString env ra) (h2 : { r with template := tb }.ToString env rb)
    (h3 : { r with template := tc }.ToString env rc) : Unplaced rc = Unplaced (OneByOne ra rb) := by
  have key : ∀ (t : Template) (res : Res Str) (w₀ : List UInt8), { r with template := t }.ToString env res →
      ∃ w, { r with template := t }.ToWriter env vec w₀ (Partial.ended res) w ∧ ∀ s, res = .ok s → w = w₀ ++ utf8 s := by
    intro t res w₀ h
    rcases to_writer_of_string vec_accepts w₀ h with ⟨s, w, rfl, h1, h2⟩ | ⟨e, w, rfl, h1⟩ | ⟨w, rfl, h1⟩
    · exact ⟨w, h1, fun s' e => by cases e; exact h2⟩
    · exact ⟨w, h1, nofun⟩
    · exact ⟨w, h1, nofun⟩
  obtain ⟨w₁, k1, e1⟩ := key _ _ [] h1
  obtain ⟨w₂, k2, e2⟩ := key _ _ w₁ h2
  obtain ⟨w, k3, e3⟩ := key _ _ [] h3
  obtain ⟨l1, l2⟩ := C68_to_writer h hg hv hbody hn hS ga gb gc hj sa sb' sc na vec_accepts k1 k2 k3
  cases ra with
  | ok s =>
    obtain ⟨l1, l3⟩ := l1 rfl
    cases rb with
    | ok s' =>
      obtain ⟨s'', rfl⟩ := Partial.ended_ok l1
      have := l3 nofun
      have e1 := e1 s rfl
      have e2 := e2 s' rfl
      have e3 := e3 s'' rfl
      have this : w = w₂ := this
      rw [e3, e2, e1, List.nil_append, List.nil_append, ← utf8_append] at this
      rw [utf8_inj this]; rfl
    | err e => exact Partial.ended_err l1
    | crash => rw [show rc = .crash from Partial.ended_crash l1]; rfl
  | err e =>
    have := (l2 nofun).1
    exact Partial.ended_err this
  | crash =>
    have := (l2 nofun).1
    rw [show rc = .crash from Partial.ended_crash this]; rfl

end
end Upon
