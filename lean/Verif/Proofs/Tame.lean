import Verif.Spec.Plain
import Verif.Spec.Blame
import Verif.Proofs.Words
/-
Whether a plain include stands inside a `with` block can be told from what a template says (for C45, C66, C68, C69).
-/
namespace Upon
open Spec

namespace Plain

mutual
/-- The statement contains a plain `include`. -/
def Has : Stmt → Prop
  | .char _ => False
  | .expr _ => False
  | .include_ _ none => True
  | .include_ _ (some _) => False
  | .ifElse _ _ t none => HasAny t
  | .ifElse _ _ t (some e) => HasAny t ∨ HasAny e
  | .forLoop _ _ b => HasAny b
  | .with_ _ _ b => HasAny b
/-- One of the statements contains it. -/
def HasAny : List Stmt → Prop
  | [] => False
  | s :: ss => Has s ∨ HasAny ss
end

mutual
/-- No plain `include` stands inside a `with` block. -/
def Tame1 : Stmt → Prop
  | .char _ => True
  | .expr _ => True
  | .include_ _ _ => True
  | .ifElse _ _ t none => TameAll t
  | .ifElse _ _ t (some e) => TameAll t ∧ TameAll e
  | .forLoop _ _ b => TameAll b
  | .with_ _ _ b => TameAll b ∧ ¬ HasAny b
/-- … in any of the statements. -/
def TameAll : List Stmt → Prop
  | [] => True
  | s :: ss => Tame1 s ∧ TameAll ss
end

theorem hasAny_append (a b : List Stmt) : HasAny (a ++ b) ↔ HasAny a ∨ HasAny b := by
  induction a with
  | nil => simp [HasAny]
  | cons x xs ih => rw [List.cons_append, HasAny, HasAny, ih, or_assoc]

theorem tameAll_append (a b : List Stmt) : TameAll (a ++ b) ↔ TameAll a ∧ TameAll b := by
  induction a with
  | nil => simp [TameAll]
  | cons x xs ih => rw [List.cons_append, TameAll, TameAll, ih, and_assoc]

theorem hasAny_chars (s : Str) : ¬ HasAny (s.map .char) := by
  induction s with
  | nil => exact id
  | cons c s ih => rw [List.map_cons, HasAny, Has]; exact fun h => h.elim id ih

theorem tameAll_chars (s : Str) : TameAll (s.map .char) := by
  induction s with
  | nil => trivial
  | cons c s ih => exact ⟨trivial, ih⟩

section
variable {src : Str}

mutual
theorem has_of (s : Upon.Stmt) : HasAny (ofStmt src s) ↔ ∃ n, Contains s n none := by
  match s with
  | .raw sp => exact ⟨fun h => (hasAny_chars _ h).elim, fun ⟨_, h⟩ => nomatch h⟩
  | .inlineExpr e sp => simp only [ofStmt, HasAny, Has, or_false]; exact ⟨False.elim, fun ⟨_, h⟩ => nomatch h⟩
  | .include_ n none => simp only [ofStmt, HasAny, Has, or_false]; exact ⟨fun _ => ⟨n, .here⟩, fun _ => trivial⟩
  | .include_ n (some e) => simp only [ofStmt, HasAny, Has, or_false]; exact ⟨False.elim, fun ⟨_, h⟩ => nomatch h⟩
  | .ifElse neg c t none =>
    simp only [ofStmt, HasAny, Has, or_false]
    rw [hasAny_of t]
    exact ⟨fun ⟨n, h⟩ => ⟨n, .thn h⟩, fun ⟨n, h⟩ => by cases h with | thn h => exact ⟨n, h⟩⟩
  | .ifElse neg c t (some e) =>
    simp only [ofStmt, HasAny, Has, or_false]
    rw [hasAny_of t, hasAny_of e]
    constructor
    · rintro (⟨n, h⟩ | ⟨n, h⟩)
      · exact ⟨n, .thn h⟩
      · exact ⟨n, .els h⟩
    · rintro ⟨n, h⟩
      cases h with
      | thn h => exact .inl ⟨n, h⟩
      | els h => exact .inr ⟨n, h⟩
  | .forLoop vs e b =>
    simp only [ofStmt, HasAny, Has, or_false]
    rw [hasAny_of b]
    exact ⟨fun ⟨n, h⟩ => ⟨n, .for_ h⟩, fun ⟨n, h⟩ => by cases h with | for_ h => exact ⟨n, h⟩⟩
  | .with_ e i b =>
    simp only [ofStmt, HasAny, Has, or_false]
    rw [hasAny_of b]
    exact ⟨fun ⟨n, h⟩ => ⟨n, .with_ h⟩, fun ⟨n, h⟩ => by cases h with | with_ h => exact ⟨n, h⟩⟩
theorem hasAny_of (ss : List Upon.Stmt) : HasAny (ofStmts src ss) ↔ ∃ n, ContainsAny ss n none := by
  match ss with
  | [] => exact ⟨False.elim, fun ⟨_, h⟩ => nomatch h⟩
  | s :: ss =>
    rw [ofStmts, hasAny_append, has_of s, hasAny_of ss]
    constructor
    · rintro (⟨n, h⟩ | ⟨n, h⟩)
      · exact ⟨n, .head h⟩
      · exact ⟨n, .tail h⟩
    · rintro ⟨n, h⟩
      cases h with
      | head h => exact .inl ⟨n, h⟩
      | tail h => exact .inr ⟨n, h⟩
end

mutual
theorem tame_of1 (s : Upon.Stmt) : TameAll (ofStmt src s) ↔ TameStmt s := by
  match s with
  | .raw sp => exact ⟨fun _ => trivial, fun _ => tameAll_chars _⟩
  | .inlineExpr e sp => simp only [ofStmt, TameAll, Tame1, TameStmt, and_true]
  | .include_ n none => simp only [ofStmt, TameAll, Tame1, TameStmt, and_true]
  | .include_ n (some e) => simp only [ofStmt, TameAll, Tame1, TameStmt, and_true]
  | .ifElse neg c t none => simp only [ofStmt, TameAll, Tame1, TameStmt, and_true]; exact tame_of t
  | .ifElse neg c t (some e) => simp only [ofStmt, TameAll, Tame1, TameStmt, and_true]; rw [tame_of t, tame_of e]
  | .forLoop vs e b => simp only [ofStmt, TameAll, Tame1, TameStmt, and_true]; exact tame_of b
  | .with_ e i b => simp only [ofStmt, TameAll, Tame1, TameStmt, and_true]; rw [tame_of b, hasAny_of b, not_exists]
/-- Whether a plain include stands inside a `with` block does not depend on places. -/
theorem tame_of (ss : List Upon.Stmt) : TameAll (ofStmts src ss) ↔ Tame ss := by
  match ss with
  | [] => exact ⟨fun _ => trivial, fun _ => trivial⟩
  | s :: ss => rw [ofStmts, tameAll_append, tame_of1 s, tame_of ss, Tame]
end
end

/-- A template that says what two others say is as tame as they are. -/
theorem tame_append {env : Env} {srca srcb srcc : Str} {a b c : List Upon.Stmt} {wa wb : List Item} (ha : WStmts env wa (ofStmts srca a))
    (hb : WStmts env wb (ofStmts srcb b)) (hc : WStmts env (wa ++ wb) (ofStmts srcc c)) : Tame c ↔ Tame a ∧ Tame b := by
  rw [← tame_of (src := srcc), stmts_unique hc (wappend ha hb), tameAll_append, tame_of, tame_of]

/-- Two templates that say the same are equally tame. -/
theorem tame_same {env : Env} {src src' : Str} {a b : List Upon.Stmt} {ws : List Item} (ha : WStmts env ws (ofStmts src a))
    (hb : WStmts env ws (ofStmts src' b)) : Tame a ↔ Tame b := by
  rw [← tame_of (src := src), stmts_unique ha hb, tame_of]

end Plain
end Upon
