import Verif.Props.Related
import Verif.Examples.Whole
/-
Concrete cases for C61 and C62.
-/
namespace Upon.Demo
open Spec

/-- The filter `add` takes integers, so it does not see what is replaced or added. -/
theorem add_follows {R : Value → Value → Prop} (hR : ∀ v, R v v) (a : AC.Auto) (dp : Nat) : FiltersFollow R (engine a dp).functions := by
  intro n f hf x x' xs xs' v hx hxs hv
  have hf : (n, EngFn.filter f) ∈ [("add".toList, EngFn.filter add)] := get_some_mem hf
  simp only [List.mem_cons, Prod.mk.injEq, List.not_mem_nil, or_false] at hf
  obtain ⟨_, hf⟩ := hf
  cases hf
  cases hx with
  | same =>
    cases hxs with
    | nil => exact ⟨v, hv, hR v⟩
    | cons h1 h2 =>
      cases h2 with
      | nil =>
        cases h1 with
        | same => exact ⟨v, hv, hR v⟩
        | _ => cases x <;> cases hv
      | cons _ _ => exfalso; revert hv; cases x <;> simp [add]
  | _ => cases hv

theorem no_formatters (a : AC.Auto) (dp : Nat) : ∀ n f, BMap.get (engine a dp).functions n ≠ some (.formatter f) := by
  intro n f hf
  have hf : (n, EngFn.formatter f) ∈ [("add".toList, EngFn.filter add)] := get_some_mem hf
  simp at hf

/-- `people` with a string for `a.k`. -/
def tagged (s : Str) : Value := .map [(['a'], .map [(['k'], .string s)]), ("xs".toList, .list [globals [("n", .integer 1)], globals [("n", .integer 41)]])]

/-- Strings that are both empty or both not. -/
def BothEmpty (s s' : Str) : Prop := s = [] ↔ s' = []

theorem tagged_recoded {s s' : Str} (h : BothEmpty s s') : Recoded BothEmpty (tagged s) (tagged s') :=
  .map (.cons (.map (.cons (.string h) .nil)) (.cons (Rel.recoded_refl (fun _ => Iff.rfl) _) .nil))

theorem tagged_run : run 64 main none (tagged ['A']) 50 = some (.ok ⟨"2,42,[A]".toList, []⟩) := by decide +kernel

/-- The template renders with any string in the place of `A`, also with one that looks like a tag; what it writes consists of pieces that are the same or
strings that are not empty. -/
example (a : AC.Auto) (s : Str) (hs : s ≠ []) : ∃ o, (renderer a 64 main none (tagged s)).ToString asciiEnv (.ok o) ∧ Pieces BothEmpty "2,42,[A]".toList o :=
  C61_default (r := renderer a 64 main none (tagged ['A'])) (T := main) (fun _ => Iff.rfl) (fun _ _ => id) tree_parsed (parsed (by simp [all]))
    (add_follows (Rel.recoded_refl fun _ => Iff.rfl) a 64) rfl (no_formatters a 64) (.borrowed (tagged_recoded (by simp [BothEmpty, hs])))
    (.ok (.scope (.borrowed _)) _ rfl (halts tagged_run))

example : run 64 main none (tagged "{{ x }}".toList) 50 = some (.ok ⟨"2,42,[{{ x }}]".toList, []⟩) := by decide +kernel

example (a : AC.Auto) (s s' : Str) (hs : s ≠ []) (hs' : s' ≠ []) : (∃ o, (renderer a 64 main none (tagged s)).ToString asciiEnv (.ok o)) ↔
    ∃ o, (renderer a 64 main none (tagged s')).ToString asciiEnv (.ok o) :=
  C61_both (r := renderer a 64 main none (tagged s)) (T := main) (fun _ => Iff.rfl) (fun _ _ h => h.symm) (fun _ _ => id) tree_parsed (parsed (by simp [all]))
    (add_follows (Rel.recoded_refl fun _ => Iff.rfl) a 64) rfl (no_formatters a 64) (tagged_recoded (by simp [BothEmpty, hs, hs']))

/-- An example of `Pieces` that decides what the other text is: the strings of `S` are `A` and `B`. -/
example (a : AC.Auto) : ∃ o, (renderer a 64 main none (tagged "<B>".toList)).ToString asciiEnv (.ok o) ∧
    Pieces (fun s s' => s = s' ∨ s = ['A'] ∧ s' = "<B>".toList) "2,42,[A]".toList o :=
  C61_default (r := renderer a 64 main none (tagged ['A'])) (T := main) (fun _ => .inl rfl)
    (by rintro s s' (rfl | ⟨rfl, rfl⟩); exacts [Iff.rfl, by decide]) tree_parsed (parsed (by simp [all]))
    (add_follows (Rel.recoded_refl fun _ => .inl rfl) a 64) rfl (no_formatters a 64)
    (.borrowed (.map (.cons (.map (.cons (.string (.inr ⟨rfl, rfl⟩)) .nil)) (.cons (Rel.recoded_refl (fun _ => .inl rfl) _) .nil))))
    (.ok (.scope (.borrowed _)) _ rfl (halts tagged_run))

/-! C62 -/

/-- Keys other than `k`. -/
def NotK (k : Str) : Prop := k ≠ ['k']

/-- `people` with more entries: one more global, one more in `a` and one more in the first element of `xs`. -/
def morePeople : Value := .map [(['a'], .map [(['b'], .string ['c']), (['k'], .bool true)]), ("x".toList, .integer 5),
  ("xs".toList, .list [.map [(['m'], .none), (['n'], .integer 1)], globals [("n", .integer 41)]])]

theorem more_extends : GlobalsExtended NotK (.borrowed people) (.borrowed morePeople) :=
  .borrowed (.keep (.map (by decide) (.new (by simp [NotK]) rfl (.keep .bool .nil))) (.new (by simp [NotK]) (by decide)
    (.keep (.list (.cons (.map (by decide) (.new (by simp [NotK]) rfl (.keep .integer .nil))) (.cons (Rel.extends_refl _) .nil))) .nil)))

/-- A check that suffices. -/
def unawareOf (T : Tree) : Bool := (stmtsExprs T.body).all fun e => (exprVars e).all fun v => v.path.all fun m =>
  decide (m.op = .direct) || match m.access with
    | .key k => decide (k.span.of T.source = some ['k'])
    | .index _ => true

theorem unaware {T : Tree} (hp : stmtsNoPairs T.body) (h : unawareOf T = true) : Unaware NotK T := by
  refine ⟨hp, ?_⟩
  rintro v ⟨e, he, hv⟩ m hm ho k n hk hn
  have h := List.all_eq_true.mp (List.all_eq_true.mp (List.all_eq_true.mp h e he) v hv) m hm
  rw [ho, hk] at h
  have h : decide (k.span.of T.source = some ['k']) = true := by simpa using h
  rw [of_decide_eq_true h] at hn
  cases hn
  exact fun h => h rfl

theorem trees_unaware (t : Template) {a : AC.Auto} {dp : Nat} {T : Tree} {nm : Option Str} {v : Value}
    (ht : Includable ((renderer a dp T nm v).cfg asciiEnv stringSink) t) : Unaware NotK (tree t) := by
  rcases includable ht with ⟨_, h2⟩ | ⟨_, h2⟩ | ⟨_, h2⟩ | ⟨_, h2⟩ <;> rw [h2]
  · exact unaware ⟨trivial, trivial, trivial, trivial⟩ (by decide)
  · exact unaware ⟨trivial, trivial⟩ (by decide)
  · exact unaware ⟨trivial, trivial, trivial⟩ (by decide)
  · exact unaware ⟨trivial, trivial, trivial⟩ (by decide)

/-- The same text with the entries added. -/
example (a : AC.Auto) : (renderer a 64 main none morePeople).ToString asciiEnv (.ok "2,42,[true]".toList) :=
  C62_default (r := renderer a 64 main none people) (T := main) tree_parsed (parsed (by simp [all]))
    (unaware ⟨⟨trivial, trivial, trivial⟩, trivial, trivial⟩ (by decide)) (fun t ht => trees_unaware t ht)
    (add_follows Rel.extends_refl a 64) rfl (no_formatters a 64) more_extends (main_string a)

/-- Where the template asks for an entry with `?.`, it is seen: with `k` in `a`, `b` writes something else. -/
theorem asked : run 64 b none (globals [("a", globals [("j", .integer 1)])]) 50 = some (.ok ⟨"[]".toList, []⟩) ∧
    run 64 b none (globals [("a", globals [("j", .integer 1), ("k", .integer 2)])]) 50 = some (.ok ⟨"[2]".toList, []⟩) := by decide +kernel

/-- And so it is by a loop over the entries of a map. -/
theorem counted_entries : run 64 j none (globals [("m", globals [("p", .integer 3), ("q", .integer 4)])]) 50 = some (.ok ⟨"7q".toList, []⟩) ∧
    run 64 j none (globals [("m", globals [("p", .integer 3), ("q", .integer 4), ("r", .none)])]) 50 = some (.ok ⟨"7qr".toList, []⟩) := by decide +kernel

end Upon.Demo
