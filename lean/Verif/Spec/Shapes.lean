import Verif.Spec.Plain
import Verif.Spec.Filters
import Mathlib.Data.List.Forall2
/-
Vocabulary for C65: checking a template against the shape of its data. Trees are without byte ranges (Spec/Plain).
-/
namespace Upon.Plain
open Spec

/-! Shapes -/

/-- A shape is a property of values. -/
abbrev Shape := Value → Prop

/-- Lists of values of a shape. -/
def listOf (s : Shape) : Shape := fun v => ∃ l, v = .list l ∧ ∀ x ∈ l, s x

/-- Maps whose values have a shape. -/
def mapOf (s : Shape) : Shape := fun v => ∃ m, v = .map m ∧ ∀ k x, (k, x) ∈ m → s x

/-- Maps with at least these entries. -/
def record (fields : List (Str × Shape)) : Shape :=
  fun v => ∃ m, v = .map m ∧ ∀ k s, (k, s) ∈ fields → ∃ x, BMap.get m k = some x ∧ s x

/-- Strings. -/
def textual : Shape := fun v => ∃ s, v = .string s

/-! Paths -/

/-- Where a path leads: `.k` and `.i` to a member, `?.k` and `?.i` to none, and no further, if there is no such member. -/
def walk : Value → List ValueMember → Option Value
  | v, [] => some v
  | .map m, ⟨op, .key k⟩ :: ms =>
    match BMap.get m k with
    | some x => walk x ms
    | none => if op = .optional then some .none else none
  | .list l, ⟨op, .index i⟩ :: ms =>
    match l[i]? with
    | some x => walk x ms
    | none => if op = .optional then some .none else none
  | _, _ => none

/-- From values of the one shape, the path leads to values of the other. -/
def Along (s : Shape) (ms : List ValueMember) (u : Shape) : Prop := ∀ v, s v → ∃ w, walk v ms = some w ∧ u w

/-! What is known of the variables -/

/-- What is known of one scope. `lent` says that its value is borrowed, so that it and its parts may be passed to a filter by reference. -/
inductive Slot where
  /-- the data -/
  | globals (lent : Bool) (s : Shape)
  /-- a function that is known to answer some paths -/
  | answers (a : List ValueMember → Option Shape)
  /-- a variable of `with` -/
  | name (n : Str) (lent : Bool) (s : Shape)
  /-- the variables of `for n in …` -/
  | item (n : Str) (lent : Bool) (s : Shape)
  /-- the variables of `for k, v in …` -/
  | entry (k v : Str) (lent : Bool) (s : Shape)
  /-- nothing beyond this is visible -/
  | wall

/-- The scope says nothing about the name. -/
def Slot.Silent (a : Str) : Slot → Prop
  | .name n _ _ => a ≠ n
  | .item n _ _ => a ≠ "loop".toList ∧ a ≠ n
  | .entry k v _ _ => a ≠ "loop".toList ∧ a ≠ k ∧ a ≠ v
  | _ => False

/-- `a`, followed by the path, is a variable and has values of the shape. -/
inductive Sees : List Slot → Str → List ValueMember → Bool → Shape → Prop
  | globals {l s Γ a ms u} : Along s (⟨.direct, .key a⟩ :: ms) u → Sees (.globals l s :: Γ) a ms l u
  | answers {A Γ a ms u} : A (⟨.direct, .key a⟩ :: ms) = some u → Sees (.answers A :: Γ) a ms false u
  | name {l s Γ a ms u} : Along s ms u → Sees (.name a l s :: Γ) a ms l u
  /-- no `?.` on the item of a loop (defect 3) -/
  | item {l s Γ a ms u} : a ≠ "loop".toList → (∀ m ∈ ms, m.op = .direct) → Along s ms u → Sees (.item a l s :: Γ) a ms l u
  | key {l s Γ a v} : a ≠ "loop".toList → Sees (.entry a v l s :: Γ) a [] false textual
  | value {k l s Γ a ms u} : a ≠ "loop".toList → a ≠ k → (∀ m ∈ ms, m.op = .direct) → Along s ms u → Sees (.entry k a l s :: Γ) a ms l u
  /-- `loop`, `loop.index`, `loop.first`, `loop.last` -/
  | loopItem {n l s Γ ms u} : (ms = [] ∨ ∃ k, ms = [⟨.direct, .key k⟩]) → (∀ i r, ∃ w, walk (loopMap i r) ms = some w ∧ u w) →
      Sees (.item n l s :: Γ) "loop".toList ms false u
  | loopEntry {k v l s Γ ms u} : (ms = [] ∨ ∃ k, ms = [⟨.direct, .key k⟩]) → (∀ i r, ∃ w, walk (loopMap i r) ms = some w ∧ u w) →
      Sees (.entry k v l s :: Γ) "loop".toList ms false u
  | outer {x Γ a ms l u} : x.Silent a → Sees Γ a ms l u → Sees (x :: Γ) a ms l u

/-- What is known of a variable when it is known to count as true, or as false. -/
inductive Learns (b : Bool) : List Slot → Str → List ValueMember → List Slot → Prop
  | globals {l s Γ a ms} : Learns b (.globals l s :: Γ) a ms
      (.globals l (fun v => s v ∧ ∀ w, walk v (⟨.direct, .key a⟩ :: ms) = some w → truthy w = b) :: Γ)
  | name {l s Γ a ms} : Learns b (.name a l s :: Γ) a ms (.name a l (fun v => s v ∧ ∀ w, walk v ms = some w → truthy w = b) :: Γ)
  | item {l s Γ a ms} : a ≠ "loop".toList → (∀ m ∈ ms, m.op = .direct) →
      Learns b (.item a l s :: Γ) a ms (.item a l (fun v => s v ∧ ∀ w, walk v ms = some w → truthy w = b) :: Γ)
  | value {k l s Γ a ms} : a ≠ "loop".toList → a ≠ k → (∀ m ∈ ms, m.op = .direct) →
      Learns b (.entry k a l s :: Γ) a ms (.entry k a l (fun v => s v ∧ ∀ w, walk v ms = some w → truthy w = b) :: Γ)
  | outer {x Γ a ms Γ'} : x.Silent a → Learns b Γ a ms Γ' → Learns b (x :: Γ) a ms (x :: Γ')

/-! Expressions -/

/-- The filter can be called with values of these shapes, and then returns a value of the shape. -/
def Total (env : Env) (f : Filter) (s : Shape) (ss : List Shape) (t : Shape) : Prop :=
  ∀ v vs, s v → List.Forall₂ (fun s v => s v) ss vs →
    ∃ a as r, Converts env f.val v a ∧ List.Forall₂ (fun (p : ArgTy × Value) x => Converts env p.1 p.2 x) (f.args.zip vs) as ∧ f.call a as = .ok r ∧ t r

/-- The arguments have these shapes; what is taken by reference is a literal or borrowed. -/
inductive ArgShapes (Γ : List Slot) : List ArgTy → List Base → List Shape → Prop
  | nil : ArgShapes Γ [] [] []
  | var {t ts a ms l s bs ss} : Sees Γ a ms l s → (ByRef t → l = true) → ArgShapes Γ ts bs ss →
      ArgShapes Γ (t :: ts) (.var a ⟨.direct, .key a⟩ ms :: bs) (s :: ss)
  | lit {t ts v s bs ss} : s v → ArgShapes Γ ts bs ss → ArgShapes Γ (t :: ts) (.lit v :: bs) (s :: ss)

/-- What a template is rendered with: the functions by name, how values are written, and the templates by name. -/
structure Surroundings where
  env : Env
  function : Str → Option EngFn
  default : Formatter
  template : Str → List Stmt → Prop

/-- The expression has a value of the shape. -/
inductive HasShape (G : Surroundings) (Γ : List Slot) : Expr → Bool → Shape → Prop
  | var {a ms l s} : Sees Γ a ms l s → HasShape G Γ (.base (.var a ⟨.direct, .key a⟩ ms)) l s
  | lit {v s} : s v → HasShape G Γ (.base (.lit v)) false s
  | call {n args e l f s ss t} : HasShape G Γ e l s → G.function n = some (.filter f) → ArgShapes Γ f.args (args.getD []) ss → Total G.env f s ss t →
      HasShape G Γ (.call n args e) false t

/-! Statements -/

/-- The formatter writes the value without an error. -/
def Shows (f : Formatter) (v : Value) : Prop := ∀ out, ∃ out', (f v).run stringSink out = (out', .ok ())

/-- What is known where a condition holds, or does not. -/
inductive Knows (b : Bool) (Γ : List Slot) : Expr → List Slot → Prop
  | nothing {c} : Knows b Γ c Γ
  | var {a ms Γ'} : Learns b Γ a ms Γ' → Knows b Γ (.base (.var a ⟨.direct, .key a⟩ ms)) Γ'

/-- The statements fit what is known of the variables, with includes nested at most `k` deep. -/
inductive Works (G : Surroundings) : Nat → List Slot → List Stmt → Prop
  | nil {k Γ} : Works G k Γ []
  | char {k Γ c ss} : Works G k Γ ss → Works G k Γ (.char c :: ss)
  | expr {k Γ e l s ss} : HasShape G Γ e l s → (∀ v, s v → Shows G.default v) → Works G k Γ ss → Works G k Γ (.expr e :: ss)
  | formatted {k Γ n e l s f ss} : HasShape G Γ e l s → G.function n = some (.formatter f) → (∀ v, s v → Shows f v) → Works G k Γ ss →
      Works G k Γ (.expr (.call n none e) :: ss)
  | include_ {k Γ n body ss} : G.template n body → Works G k Γ body → Works G (k + 1) Γ ss → Works G (k + 1) Γ (.include_ n none :: ss)
  | includeWith {k Γ n e l s body ss} : HasShape G Γ e l s → G.template n body → Works G k (.globals l s :: .wall :: Γ) body → Works G (k + 1) Γ ss →
      Works G (k + 1) Γ (.include_ n (some e) :: ss)
  | if_ {k Γ Γ' neg c l s a ss} : HasShape G Γ c l s → Knows (!neg) Γ c Γ' → Works G k Γ' a → Works G k Γ ss → Works G k Γ (.ifElse neg c a none :: ss)
  | ifElse {k Γ Γ₁ Γ₂ neg c l s a b ss} : HasShape G Γ c l s → Knows (!neg) Γ c Γ₁ → Works G k Γ₁ a → Knows neg Γ c Γ₂ → Works G k Γ₂ b →
      Works G k Γ ss → Works G k Γ (.ifElse neg c a (some b) :: ss)
  | for_ {k Γ n e l s b ss} : HasShape G Γ e l (listOf s) → Works G k (.item n l s :: Γ) b → Works G k Γ ss → Works G k Γ (.forLoop (.item n) e b :: ss)
  | forMap {k Γ x y e l s b ss} : HasShape G Γ e l (mapOf s) → Works G k (.entry x y l s :: Γ) b → Works G k Γ ss →
      Works G k Γ (.forLoop (.keyValue x y) e b :: ss)
  | with_ {k Γ n e l s b ss} : HasShape G Γ e l s → Works G k (.name n l s :: Γ) b → Works G k Γ ss → Works G k Γ (.with_ e n b :: ss)

end Upon.Plain
