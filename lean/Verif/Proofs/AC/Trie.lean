import Verif.Proofs.AC.Words
/-
The trie built by inserting the patterns.
-/
namespace Upon.AC

structure TrieInv (N : Word → Prop) (O : Word → List Pattern) (a : Auto) (nm : Nat → Word) : Prop where
  len : 3 ≤ a.length
  root : nm 2 = []
  inj : ∀ i j, 2 ≤ i → i < a.length → 2 ≤ j → j < a.length → nm i = nm j → i = j
  nodes : ∀ w, N w ↔ ∃ i, 2 ≤ i ∧ i < a.length ∧ nm i = w
  closed : ∀ w b, N (w ++ [b]) → N w
  small : ∀ i, 2 ≤ i → i < a.length → (nm i).length + 2 ≤ i
  st : ∀ i s, a[i]? = some s → 2 ≤ i →
    s.depth = (nm i).length ∧ s.fail = START ∧ s.matches_ = O (nm i)
  tr : ∀ i s, a[i]? = some s → 2 ≤ i → ∀ b,
    (s.trans b = FAIL ∧ ¬ N (nm i ++ [b])) ∨
      (2 < s.trans b ∧ s.trans b < a.length ∧ nm (s.trans b) = nm i ++ [b])
  low : ∀ i s, a[i]? = some s → i < 2 → s.trans = (fun _ => FAIL) ∧ s.matches_ = [] ∧ s.depth = 0

theorem modifyState_eq {a : Auto} {i : Nat} {f : State → State} (h : i < a.length) :
    modifyState a i f = some (a.modify i f) := by simp [modifyState, h]

theorem getElem?_lt {α : Type} {l : List α} {i : Nat} {x : α} (h : l[i]? = some x) : i < l.length := by
  by_contra hh
  rw [List.getElem?_eq_none (by omega)] at h
  cases h

theorem insertWord_spec {O : Word → List Pattern} (w : Word) :
    ∀ (N : Word → Prop) (a : Auto) (nm : Nat → Word) (id : Nat),
    TrieInv N O a nm → (∀ x, O x ≠ [] → N x) → 2 ≤ id → id < a.length →
    ∃ a' id' nm', insertWord a id (nm id).length w = some (a', id') ∧
      TrieInv (fun x => N x ∨ ∃ v, v ≠ [] ∧ v <+: w ∧ x = nm id ++ v) O a' nm' ∧
      2 ≤ id' ∧ id' < a'.length ∧ nm' id' = nm id ++ w := by
  induction w with
  | nil =>
    intro N a nm id inv _ h2 hl
    refine ⟨a, id, nm, rfl, ?_, h2, hl, by simp⟩
    have : (fun x => N x ∨ ∃ v, v ≠ [] ∧ v <+: ([] : Word) ∧ x = nm id ++ v) = N := by
      funext x
      simp only [List.prefix_nil, eq_iff_iff, or_iff_left_iff_imp]
      rintro ⟨v, h1, h2, _⟩
      exact absurd h2 h1
    rw [this]; exact inv
  | cons b w ih =>
    intro N a nm id inv hO h2 hl
    obtain ⟨s, hs⟩ : ∃ s, a[id]? = some s := ⟨a[id], by simp [hl]⟩
    have htr := inv.tr id s hs h2 b
    by_cases hf : s.trans b = FAIL
    · -- a new state
      have hnN : ¬ N (nm id ++ [b]) := by
        rcases htr with h | h
        · exact h.2
        · rw [hf] at h; exact absurd h.1 (by simp [FAIL])
      let ns : State := { depth := (nm id).length + 1, fail := START, trans := fun _ => FAIL, matches_ := [] }
      let a1 := a ++ [ns]
      have hl1 : a1.length = a.length + 1 := by simp [a1]
      let a2 := a1.modify id (·.setTrans b a.length)
      have hl2 : a2.length = a.length + 1 := by simp [a2, hl1]
      let nm2 : Nat → Word := fun i => if i = a.length then nm id ++ [b] else nm i
      have hnm : ∀ i, i < a.length → nm2 i = nm i := by
        intro i hi; simp [nm2, Nat.ne_of_lt hi]
      have hnmN : nm2 a.length = nm id ++ [b] := by simp [nm2]
      -- lookups in the new automaton
      have look : ∀ i t, a2[i]? = some t →
          (i = a.length ∧ t = ns) ∨ (i = id ∧ t = s.setTrans b a.length) ∨
          (i ≠ id ∧ i < a.length ∧ a[i]? = some t) := by
        intro i t ht
        simp only [a2, List.getElem?_modify] at ht
        rcases Nat.lt_trichotomy i a.length with hi | hi | hi
        · have : a1[i]? = a[i]? := List.getElem?_append_left hi
          rw [this] at ht
          by_cases hid : i = id
          · right; left
            subst hid
            rw [hs] at ht
            simp at ht
            exact ⟨rfl, ht.symm⟩
          · right; right
            refine ⟨hid, hi, ?_⟩
            simpa [Ne.symm hid] using ht
        · left
          subst hi
          refine ⟨rfl, ?_⟩
          have : a1[a.length]? = some ns := by simp [a1]
          rw [this] at ht
          simpa [Nat.ne_of_lt hl] using ht.symm
        · exfalso
          have : a1[i]? = none := by
            apply List.getElem?_eq_none; omega
          rw [this] at ht; simp at ht
      have inv2 : TrieInv (fun x => N x ∨ x = nm id ++ [b]) O a2 nm2 := by
        refine ⟨?_, ?_, ?_, ?_, ?_, ?_, ?_, ?_, ?_⟩
        · have := inv.len; omega
        · rw [hnm 2 (by have := inv.len; omega)]; exact inv.root
        · intro i j hi hil hj hjl e
          rw [hl2] at hil hjl
          by_cases ei : i = a.length <;> by_cases ej : j = a.length
          · omega
          · subst ei
            rw [hnmN, hnm j (by omega)] at e
            exact absurd ((inv.nodes _).mpr ⟨j, hj, by omega, e.symm⟩) hnN
          · subst ej
            rw [hnmN, hnm i (by omega)] at e
            exact absurd ((inv.nodes _).mpr ⟨i, hi, by omega, e⟩) hnN
          · rw [hnm i (by omega), hnm j (by omega)] at e
            exact inv.inj i j hi (by omega) hj (by omega) e
        · intro x
          constructor
          · rintro (h | h)
            · obtain ⟨i, hi, hil, e⟩ := (inv.nodes x).mp h
              exact ⟨i, hi, by omega, by rw [hnm i hil]; exact e⟩
            · exact ⟨a.length, by have := inv.len; omega, by omega, by rw [hnmN, h]⟩
          · rintro ⟨i, hi, hil, e⟩
            by_cases ei : i = a.length
            · right; subst ei; rw [← e, hnmN]
            · left; exact (inv.nodes x).mpr ⟨i, hi, by omega, by rw [← e, hnm i (by omega)]⟩
        · intro x c h
          rcases h with h | h
          · exact Or.inl (inv.closed _ _ h)
          · have := List.append_inj' h rfl
            left; rw [this.1]
            exact (inv.nodes _).mpr ⟨id, h2, hl, rfl⟩
        · intro i hi hil
          by_cases ei : i = a.length
          · subst ei; rw [hnmN]
            have := inv.small id h2 hl
            simp; omega
          · rw [hnm i (by omega)]; exact inv.small i hi (by omega)
        · intro i t ht hi
          rcases look i t ht with ⟨e, rfl⟩ | ⟨e, rfl⟩ | ⟨_, hlt, h⟩
          · subst e; rw [hnmN]
            refine ⟨by simp [ns], rfl, ?_⟩
            simp only [ns]
            by_contra hne
            exact hnN (hO _ (Ne.symm hne))
          · subst e; rw [hnm i hl]
            exact inv.st i s hs hi
          · rw [hnm i hlt]; exact inv.st i t h hi
        · intro i t ht hi c
          have nopre : ∀ u, ¬ N u → u ≠ nm id ++ [b] → ¬ (N u ∨ u = nm id ++ [b]) := by
            intro u h1 h3 h; rcases h with h | h
            · exact h1 h
            · exact h3 h
          rcases look i t ht with ⟨e, rfl⟩ | ⟨e, rfl⟩ | ⟨hne, hlt, h⟩
          · left
            refine ⟨rfl, ?_⟩
            subst e; rw [hnmN]
            apply nopre
            · intro hN
              exact hnN (inv.closed _ _ hN)
            · intro e; have := congrArg List.length e; simp at this
          · subst e; rw [hnm i hl]
            by_cases hc : c = b
            · subst hc
              right
              simp only [State.setTrans, if_true]
              refine ⟨by have := inv.len; omega, by omega, hnmN⟩
            · simp only [State.setTrans, hc, if_false]
              rcases inv.tr i s hs hi c with ⟨h1, h3⟩ | ⟨h1, h3, h4⟩
              · left
                refine ⟨h1, nopre _ h3 ?_⟩
                intro e; simp at e; exact hc e
              · right
                refine ⟨h1, by omega, by rw [hnm _ h3]; exact h4⟩
          · rw [hnm i hlt]
            rcases inv.tr i t h hi c with ⟨h1, h3⟩ | ⟨h1, h3, h4⟩
            · left
              refine ⟨h1, nopre _ h3 ?_⟩
              intro e
              have := List.append_inj' e rfl
              exact hne (inv.inj i id hi hlt h2 hl this.1)
            · right
              refine ⟨h1, by omega, by rw [hnm _ h3]; exact h4⟩
        · intro i t ht hi
          have := inv.len
          rcases look i t ht with ⟨e, rfl⟩ | ⟨e, rfl⟩ | ⟨_, hlt, h⟩
          · omega
          · omega
          · exact inv.low i t h hi
      obtain ⟨a', id', nm', he, hinv, h2', hl', hnm'⟩ :=
        ih _ a2 nm2 a.length inv2 (fun x hx => Or.inl (hO x hx)) (by have := inv.len; omega) (by omega)
      refine ⟨a', id', nm', ?_, ?_, h2', hl', ?_⟩
      · simp only [insertWord, hs, Option.bind_eq_bind, Option.bind_some, hf, if_true, pushState]
        rw [modifyState_eq (by simp; omega)]
        simp only [Option.bind_some]
        rw [hnmN] at he
        simpa using he
      · rw [hnmN] at hinv
        convert hinv using 2 with x
        constructor
        · rintro (h | ⟨v, hv, hp, e⟩)
          · exact Or.inl (Or.inl h)
          · obtain ⟨c, v, rfl⟩ : ∃ c v', v = c :: v' := by
              cases v with
              | nil => exact absurd rfl hv
              | cons c v => exact ⟨c, v, rfl⟩
            obtain ⟨rfl, hp'⟩ := List.cons_prefix_cons.mp hp
            by_cases hv0 : v = []
            · subst hv0; exact Or.inl (Or.inr e)
            · right; exact ⟨v, hv0, hp', by simp [e]⟩
        · rintro ((h | h) | ⟨v, hv, hp, e⟩)
          · exact Or.inl h
          · right; exact ⟨[b], by simp, by simp, h⟩
          · right; exact ⟨b :: v, by simp, by simpa using hp, by simp [e]⟩
      · rw [hnm', hnmN]; simp
    · -- an existing state
      obtain ⟨h3, h4, h5⟩ : 2 < s.trans b ∧ s.trans b < a.length ∧ nm (s.trans b) = nm id ++ [b] := by
        rcases htr with h | h
        · exact absurd h.1 hf
        · exact h
      obtain ⟨a', id', nm', he, hinv, h2', hl', hnm'⟩ := ih N a nm (s.trans b) inv hO (by omega) h4
      refine ⟨a', id', nm', ?_, ?_, h2', hl', ?_⟩
      · simp only [insertWord, hs, Option.bind_eq_bind, Option.bind_some, hf, if_false]
        rw [h5] at he
        simpa using he
      · convert hinv using 2 with x
        rw [h5]
        constructor
        · rintro (h | ⟨v, hv, hp, e⟩)
          · exact Or.inl h
          · obtain ⟨c, v, rfl⟩ : ∃ c v', v = c :: v' := by
              cases v with
              | nil => exact absurd rfl hv
              | cons c v => exact ⟨c, v, rfl⟩
            obtain ⟨rfl, hp'⟩ := List.cons_prefix_cons.mp hp
            by_cases hv0 : v = []
            · subst hv0
              left; rw [e]
              exact (inv.nodes _).mpr ⟨_, by omega, h4, h5⟩
            · right; exact ⟨v, hv0, hp', by simp [e]⟩
        · rintro (h | ⟨v, hv, hp, e⟩)
          · exact Or.inl h
          · right; exact ⟨b :: v, by simp, by simpa using hp, by simp [e]⟩
      · rw [hnm', h5]; simp

/-- Appending a match to the state of word `w`. -/
theorem TrieInv.pushMatch {N : Word → Prop} {O : Word → List Pattern} {a : Auto} {nm : Nat → Word}
    (inv : TrieInv N O a nm) {id : Nat} (h2 : 2 ≤ id) (hl : id < a.length) (p : Pattern) :
    ∃ a', modifyState a id (fun s => { s with matches_ := s.matches_ ++ [p] }) = some a' ∧
      TrieInv N (fun x => if x = nm id then O x ++ [p] else O x) a' nm := by
  refine ⟨_, modifyState_eq hl, ?_⟩
  have look : ∀ i t, (a.modify id (fun s => { s with matches_ := s.matches_ ++ [p] }))[i]? = some t →
      ∃ s, a[i]? = some s ∧ s.trans = t.trans ∧ s.depth = t.depth ∧ s.fail = t.fail ∧
        t.matches_ = if i = id then s.matches_ ++ [p] else s.matches_ := by
    intro i t ht
    rw [List.getElem?_modify] at ht
    cases hs : a[i]? with
    | none => rw [hs] at ht; simp at ht
    | some s =>
      rw [hs] at ht
      by_cases e : id = i
      · simp [e] at ht; subst ht; exact ⟨s, rfl, rfl, rfl, rfl, by simp [e]⟩
      · simp [e] at ht; subst ht; exact ⟨s, rfl, rfl, rfl, rfl, by simp [Ne.symm e]⟩
  refine ⟨by simpa using inv.len, inv.root, by simpa using inv.inj, by simpa using inv.nodes, inv.closed,
    by simpa using inv.small, ?_, ?_, ?_⟩
  · intro i t ht hi
    obtain ⟨s, hs, _, e2, e3, e4⟩ := look i t ht
    obtain ⟨h1, h3, h4⟩ := inv.st i s hs hi
    refine ⟨by rw [← e2, h1], by rw [← e3, h3], ?_⟩
    rw [e4, h4]
    by_cases e : i = id
    · simp [e]
    · have : nm i ≠ nm id := fun hh => e (inv.inj i id hi (getElem?_lt hs) h2 hl hh)
      simp [e, this]
  · intro i t ht hi b
    obtain ⟨s, hs, e1, _⟩ := look i t ht
    have := inv.tr i s hs hi b
    rw [e1] at this
    simpa using this
  · intro i t ht hi
    obtain ⟨s, hs, e1, e2, _, e4⟩ := look i t ht
    obtain ⟨h1, h3, h4⟩ := inv.low i s hs hi
    refine ⟨by rw [← e1, h1], ?_, by rw [← e2, h4]⟩
    rw [e4, if_neg (by omega)]; exact h3

theorem buildTrie_spec (rest : Pats) : ∀ (done : Pats) (a : Auto) (nm : Nat → Word),
    TrieInv (IsNode done) (own done) a nm →
    ∃ a' nm', buildTrie a rest = some a' ∧ TrieInv (IsNode (done ++ rest)) (own (done ++ rest)) a' nm' := by
  induction rest with
  | nil => intro done a nm inv; exact ⟨a, nm, rfl, by simpa using inv⟩
  | cons p rest ih =>
    obtain ⟨pid, pat⟩ := p
    intro done a nm inv
    have hl := inv.len
    obtain ⟨a1, id1, nm1, he, inv1, h21, hl1, hnm1⟩ :=
      insertWord_spec pat _ a nm START inv (fun x hx => IsNode.of_own hx) (by simp [START]) (by simp [START]; omega)
    have hroot : nm START = [] := inv.root
    rw [hroot] at he inv1 hnm1
    simp only [List.length_nil, List.nil_append] at he inv1 hnm1
    obtain ⟨a2, he2, inv2⟩ := inv1.pushMatch h21 hl1 ⟨pid, pat.length⟩
    have inv3 : TrieInv (IsNode (done ++ [(pid, pat)])) (own (done ++ [(pid, pat)])) a2 nm1 := by
      convert inv2 using 2 with x x
      · constructor
        · rintro (h | ⟨q, hq, hp⟩)
          · exact Or.inl (Or.inl h)
          · rcases List.mem_append.mp hq with hq | hq
            · exact Or.inl (Or.inr ⟨q, hq, hp⟩)
            · simp at hq; subst hq
              by_cases hx : x = []
              · exact Or.inl (Or.inl hx)
              · exact Or.inr ⟨x, hx, hp, rfl⟩
        · rintro (h | ⟨v, hv, hp, rfl⟩)
          · rcases h with h | ⟨q, hq, hp⟩
            · exact Or.inl h
            · exact Or.inr ⟨q, List.mem_append_left _ hq, hp⟩
          · exact Or.inr ⟨(pid, pat), by simp, hp⟩
      · rw [hnm1]
        simp only [own, List.filter_append, List.map_append]
        by_cases hx : x = pat
        · subst hx; simp
        · simp [hx, Ne.symm hx]
    obtain ⟨a', nm', h4, h5⟩ := ih (done ++ [(pid, pat)]) a2 nm1 inv3
    refine ⟨a', nm', ?_, by simpa using h5⟩
    simp [buildTrie, he, he2, h4]

/-- The three initial states. -/
theorem initial_inv : TrieInv (IsNode []) (own [])
    (pushState (pushState (pushState [] 0).1 0).1 0).1 (fun _ => []) := by
  have hlen : ((pushState (pushState (pushState [] 0).1 0).1 0).1).length = 3 := by simp [pushState]
  have hget : ∀ (i : Nat) (s : State), ((pushState (pushState (pushState [] 0).1 0).1 0).1)[i]? = some s →
      s = (⟨fun _ => FAIL, START, [], 0⟩ : State) := by
    intro i s h
    simp only [pushState, List.nil_append, List.cons_append] at h
    match i, h with
    | 0, h => simpa using h.symm
    | 1, h => simpa using h.symm
    | 2, h => simpa using h.symm
    | (n + 3), h => simp at h
  refine ⟨by omega, rfl, ?_, ?_, ?_, ?_, ?_, ?_, ?_⟩
  · intro i j _ _ _ _ _; omega
  · intro w
    simp only [IsNode, List.not_mem_nil, false_and, exists_false, or_false]
    constructor
    · intro h; exact ⟨2, by omega, by omega, h.symm⟩
    · rintro ⟨i, _, _, h⟩; exact h.symm
  · intro w b h; simp [IsNode] at h
  · intro i h _; simpa using h
  · intro i s h _
    rw [hget i s h]; simp [own]
  · intro i s h _ b
    rw [hget i s h]; left; simp [IsNode]
  · intro i s h _
    rw [hget i s h]; simp

end Upon.AC
