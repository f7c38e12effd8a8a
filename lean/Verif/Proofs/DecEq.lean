import Verif.Model.Engine
import Verif.Spec.Semantics
/-
Decidable equality of values, syntax trees and templates, so that concrete cases can be computed.
-/
namespace Upon

mutual
def Value.same : Value → Value → Bool
  | .none, .none => true
  | .bool a, .bool b => a == b
  | .integer a, .integer b => a == b
  | .float a, .float b => a == b
  | .string a, .string b => a == b
  | .list a, .list b => Value.sameList a b
  | .map a, .map b => Value.sameMap a b
  | _, _ => false

def Value.sameList : List Value → List Value → Bool
  | [], [] => true
  | a :: as, b :: bs => Value.same a b && Value.sameList as bs
  | _, _ => false

def Value.sameMap : List (Str × Value) → List (Str × Value) → Bool
  | [], [] => true
  | (k, a) :: as, (l, b) :: bs => k == l && Value.same a b && Value.sameMap as bs
  | _, _ => false
end

mutual
theorem Value.same_iff (a b : Value) : Value.same a b = true ↔ a = b := by
  match a, b with
  | .none, b => cases b <;> simp [Value.same]
  | .bool a, b => cases b <;> simp [Value.same]
  | .integer a, b => cases b <;> simp [Value.same]
  | .float a, b => cases b <;> simp [Value.same]
  | .string a, b => cases b <;> simp [Value.same]
  | .list a, b =>
    cases b <;> simp [Value.same]
    exact Value.sameList_iff a _
  | .map a, b =>
    cases b <;> simp [Value.same]
    exact Value.sameMap_iff a _

theorem Value.sameList_iff (a b : List Value) : Value.sameList a b = true ↔ a = b := by
  match a, b with
  | [], [] => simp [Value.sameList]
  | [], _ :: _ => simp [Value.sameList]
  | _ :: _, [] => simp [Value.sameList]
  | a :: as, b :: bs => simp [Value.sameList, Value.same_iff a b, Value.sameList_iff as bs]

theorem Value.sameMap_iff (a b : List (Str × Value)) : Value.sameMap a b = true ↔ a = b := by
  match a, b with
  | [], [] => simp [Value.sameMap]
  | [], _ :: _ => simp [Value.sameMap]
  | _ :: _, [] => simp [Value.sameMap]
  | (k, a) :: as, (l, b) :: bs =>
    simp [Value.sameMap, Value.same_iff a b, Value.sameMap_iff as bs]
end

instance : DecidableEq Value := fun a b => decidable_of_iff _ (Value.same_iff a b)

deriving instance DecidableEq for Cow
deriving instance DecidableEq for Literal
deriving instance DecidableEq for BaseExpr
deriving instance DecidableEq for Args
deriving instance DecidableEq for Expr

mutual
def Stmt.same : Stmt → Stmt → Bool
  | .raw a, .raw b => a == b
  | .inlineExpr a x, .inlineExpr b y => a == b && x == y
  | .include_ a x, .include_ b y => a == b && x == y
  | .ifElse n c t none, .ifElse n' c' t' none => n == n' && c == c' && Stmt.sameList t t'
  | .ifElse n c t (some e), .ifElse n' c' t' (some e') =>
    n == n' && c == c' && Stmt.sameList t t' && Stmt.sameList e e'
  | .forLoop v x b, .forLoop v' x' b' => v == v' && x == x' && Stmt.sameList b b'
  | .with_ x n b, .with_ x' n' b' => x == x' && n == n' && Stmt.sameList b b'
  | _, _ => false

def Stmt.sameList : List Stmt → List Stmt → Bool
  | [], [] => true
  | a :: as, b :: bs => Stmt.same a b && Stmt.sameList as bs
  | _, _ => false
end

mutual
theorem Stmt.same_iff (a b : Stmt) : Stmt.same a b = true ↔ a = b := by
  match a with
  | .raw a => cases b <;> simp [Stmt.same]
  | .inlineExpr a x => cases b <;> simp [Stmt.same]
  | .include_ a x => cases b <;> simp [Stmt.same]
  | .ifElse n c t none =>
    cases b with
    | ifElse n' c' t' e' =>
      cases e' <;> simp [Stmt.same, Stmt.sameList_iff t t', and_assoc]
    | _ => simp [Stmt.same]
  | .ifElse n c t (some e) =>
    cases b with
    | ifElse n' c' t' e' =>
      cases e' with
      | none => simp [Stmt.same]
      | some e' => simp [Stmt.same, Stmt.sameList_iff t t', Stmt.sameList_iff e e', and_assoc]
    | _ => simp [Stmt.same]
  | .forLoop v x bd =>
    cases b with
    | forLoop v' x' bd' => simp [Stmt.same, Stmt.sameList_iff bd bd', and_assoc]
    | _ => simp [Stmt.same]
  | .with_ x n bd =>
    cases b with
    | with_ v' x' bd' => simp [Stmt.same, Stmt.sameList_iff bd bd', and_assoc]
    | _ => simp [Stmt.same]

theorem Stmt.sameList_iff (a b : List Stmt) : Stmt.sameList a b = true ↔ a = b := by
  match a, b with
  | [], [] => simp [Stmt.sameList]
  | [], _ :: _ => simp [Stmt.sameList]
  | _ :: _, [] => simp [Stmt.sameList]
  | a :: as, b :: bs => simp [Stmt.sameList, Stmt.same_iff a b, Stmt.sameList_iff as bs]
end

instance : DecidableEq Stmt := fun a b => decidable_of_iff _ (Stmt.same_iff a b)

deriving instance DecidableEq for Instr
deriving instance DecidableEq for Template
deriving instance DecidableEq for Res
deriving instance DecidableEq for Spec.Tree

end Upon
