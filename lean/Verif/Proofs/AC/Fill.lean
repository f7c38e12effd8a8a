import Verif.Proofs.AC.Trie
import Mathlib.Data.List.Nodup
/-
The breadth first pass that fills in failure links and copies matches.
-/
namespace Upon.AC

theorem redirect_trans (from_ dst : Nat) (bytes : List UInt8) : ∀ (s : State) (b : UInt8),
    (redirect from_ dst bytes s).trans b =
      if b ∈ bytes ∧ s.trans b = from_ then dst else s.trans b := by
  induction bytes with
  | nil => intro s b; simp [redirect]
  | cons c bytes ih =>
    intro s b
    have : redirect from_ dst (c :: bytes) s =
        redirect from_ dst bytes (if s.trans c = from_ then s.setTrans c dst else s) := rfl
    rw [this, ih]
    by_cases hc : s.trans c = from_
    · simp only [hc, if_true, State.setTrans]
      by_cases e : b = c
      · subst e; simp [hc]
      · simp [e]
    · simp only [hc, if_false]
      by_cases e : b = c
      · subst e; simp [hc]
      · simp [e]

theorem redirect_other (from_ dst : Nat) (bytes : List UInt8) : ∀ (s : State),
    (redirect from_ dst bytes s).fail = s.fail ∧ (redirect from_ dst bytes s).matches_ = s.matches_ ∧
      (redirect from_ dst bytes s).depth = s.depth := by
  induction bytes with
  | nil => intro s; simp [redirect]
  | cons c bytes ih =>
    intro s
    have : redirect from_ dst (c :: bytes) s =
        redirect from_ dst bytes (if s.trans c = from_ then s.setTrans c dst else s) := rfl
    rw [this]
    obtain ⟨h1, h2, h3⟩ := ih (if s.trans c = from_ then s.setTrans c dst else s)
    rw [h1, h2, h3]
    split <;> simp [State.setTrans]

theorem mem_allBytes (b : UInt8) : b ∈ allBytes := by
  simp only [allBytes, List.mem_map, List.mem_range]
  exact ⟨b.toNat, by have := b.toNat_lt; omega, by simp⟩

theorem nodup_allBytes : allBytes.Nodup := by
  unfold allBytes
  refine List.Nodup.map_on ?_ List.nodup_range
  intro i hi j hj h
  simp only [List.mem_range] at hi hj
  have := congrArg UInt8.toNat h
  simp only [UInt8.toNat_ofNat'] at this
  omega

/-- What the breadth first pass does not change. -/
structure Skel (P : Pats) (nm : Nat → Word) (a : Auto) : Prop where
  len : 3 ≤ a.length
  root : nm 2 = []
  inj : ∀ i j, 2 ≤ i → i < a.length → 2 ≤ j → j < a.length → nm i = nm j → i = j
  nodes : ∀ w, IsNode P w ↔ ∃ i, 2 ≤ i ∧ i < a.length ∧ nm i = w
  small : ∀ i, 2 ≤ i → i < a.length → (nm i).length + 2 ≤ i
  dep : ∀ i s, a[i]? = some s → 2 ≤ i → s.depth = (nm i).length
  tr : ∀ i s, a[i]? = some s → 2 ≤ i → ∀ b,
    (s.trans b = (if i = 2 then START else FAIL) ∧ ¬ IsNode P (nm i ++ [b])) ∨
      (2 < s.trans b ∧ s.trans b < a.length ∧ nm (s.trans b) = nm i ++ [b])
  dead : ∀ s, a[1]? = some s → (∀ b, s.trans b = DEAD) ∧ s.matches_ = [] ∧ s.depth = 0
  rootM : ∀ s, a[2]? = some s → s.matches_ = []

variable {P : Pats} {nm : Nat → Word}

/-- Automaton state `j` represents the abstract state `o` (`none`: dead). -/
def Rep (nm : Nat → Word) (a : Auto) : Option Word → Nat → Prop
  | none, j => j = DEAD
  | some w, j => 2 ≤ j ∧ j < a.length ∧ nm j = w

/-- The abstract failure link of a nonempty node word. -/
def failOf (P : Pats) (w : Word) : Option Word := if HasPref P w then none else sig P w.tail

/-- The failure link and the matches of state `i` are final. -/
def Final (P : Pats) (nm : Nat → Word) (a : Auto) (i : Nat) : Prop :=
  ∀ s, a[i]? = some s → Rep nm a (failOf P (nm i)) s.fail ∧ s.matches_ = mat P (nm i)

/-- State `i` is as the trie left it. -/
def Raw (P : Pats) (nm : Nat → Word) (a : Auto) (i : Nat) : Prop :=
  ∀ s, a[i]? = some s → s.fail = START ∧ s.matches_ = own P (nm i)

theorem Skel.get {a : Auto} (_ : Skel P nm a) {i : Nat} (h : i < a.length) : ∃ s, a[i]? = some s :=
  ⟨a[i], by simp [h]⟩

theorem Skel.ne_nil {a : Auto} (sk : Skel P nm a) {i : Nat} (h : 2 < i) (hl : i < a.length) :
    nm i ≠ [] := by
  intro e
  have := sk.inj i 2 (by omega) hl (by omega) (by omega) (by rw [e, sk.root])
  omega

/-- The failure walk computes the abstract transition. -/
theorem failTarget_spec (hP : NonEmpty P) {a : Auto} (sk : Skel P nm a) (b : UInt8) (d : Nat)
    (hfin : ∀ i, 2 < i → i < a.length → (nm i).length ≤ d → Final P nm a i) :
    ∀ (fuel : Nat) (o : Option Word) (id : Nat), Rep nm a o id →
      (∀ u, o = some u → u.length ≤ d) → (o.map List.length).getD 0 + 2 ≤ fuel →
      ∃ t, failTarget a b fuel id = some t ∧ Rep nm a (o.bind fun u => sig P (u ++ [b])) t := by
  intro fuel
  induction fuel with
  | zero => intro o id _ _ h; omega
  | succ fuel ih =>
    intro o id hrep hd hf
    cases o with
    | none =>
      have hid : id = DEAD := hrep
      subst hid
      obtain ⟨s, hs⟩ := sk.get (i := DEAD) (by have := sk.len; simp [DEAD]; omega)
      have := (sk.dead s hs).1 b
      exact ⟨DEAD, by simp only [failTarget, hs, Option.bind_eq_bind, Option.bind_some, this]; simp [DEAD, FAIL], rfl⟩
    | some u =>
      obtain ⟨h2, hl, hu⟩ := hrep
      have hnode : IsNode P u := (sk.nodes u).mpr ⟨id, h2, hl, hu⟩
      obtain ⟨s, hs⟩ := sk.get hl
      have hlen : u.length ≤ d := hd u rfl
      rcases sk.tr id s hs h2 b with ⟨h1, hn⟩ | ⟨h1, h3, h4⟩
      · rw [hu] at hn
        by_cases hid : id = 2
        · simp only [hid, if_true] at h1
          have hunil : u = [] := by rw [← hu, hid, sk.root]
          subst hunil
          refine ⟨START, by simp [failTarget, hs, h1, START, FAIL], ?_⟩
          simp only [Option.bind_some, List.nil_append]
          have hnp : ¬ HasPref P [b] ∨ HasPref P [] := by
            by_cases hp : HasPref P [b]
            · exact Or.inr (hasPref_snoc (w := []) hp hn)
            · exact Or.inl hp
          have hsig : sig P [b] = some [] := by
            rcases hnp with h | h
            · simp only [List.nil_append] at hn
              simp [sig, hn, h]
            · exact absurd h (hasPref_nil hP)
          rw [hsig]
          exact ⟨by simp [START], by have := sk.len; simp [START]; omega, sk.root⟩
        · simp only [hid, if_false] at h1
          have hgt : 2 < id := by omega
          have hune : u ≠ [] := by rw [← hu]; exact sk.ne_nil hgt hl
          have hfid := (hfin id hgt hl (by rw [hu]; exact hlen) s hs).1
          rw [hu] at hfid
          obtain ⟨c, u, rfl⟩ : ∃ c u', u = c :: u' := by
            cases u with
            | nil => exact absurd rfl hune
            | cons c u => exact ⟨c, u, rfl⟩
          have hlt : ∀ v, failOf P (c :: u) = some v → v.length ≤ u.length := by
            intro v hv
            simp only [failOf, List.tail_cons] at hv
            split at hv
            · cases hv
            · exact sig_length hv
          obtain ⟨t, ht, hrt⟩ := ih (failOf P (c :: u)) s.fail hfid
            (fun v hv => by have := hlt v hv; simp at hlen; omega)
            (by
              cases hfo : failOf P (c :: u) with
              | none => simp at hf ⊢; omega
              | some v => have := hlt v hfo; simp at hf ⊢; omega)
          refine ⟨t, by simp [failTarget, hs, h1, ht], ?_⟩
          convert hrt using 1
          simp only [Option.bind_some]
          have hn' : ¬ IsNode P (c :: (u ++ [b])) := by simpa using hn
          simp only [List.cons_append, sig, hn', if_false, failOf, List.tail_cons]
          by_cases hp : HasPref P (c :: u)
          · have : HasPref P (c :: (u ++ [b])) :=
              hp.mono (by rw [← List.cons_append]; exact List.prefix_append _ _)
            simp [hp, this]
          · have : ¬ HasPref P (c :: (u ++ [b])) := fun hh => hp (hasPref_snoc (w := c :: u) hh hn)
            simp only [this, if_false, hp]
            cases hsg : sig P u with
            | none => simp [sig_none_snoc hsg]
            | some v => simp [sig_some_snoc hsg]
      · refine ⟨s.trans b, ?_, ?_⟩
        · have : s.trans b ≠ FAIL := by simp [FAIL]; omega
          simp [failTarget, hs, this]
        · have hnode' : IsNode P (u ++ [b]) := (sk.nodes _).mpr ⟨s.trans b, by omega, h3, by rw [h4, hu]⟩
          simp only [Option.bind_some, sig_node hnode']
          exact ⟨by omega, h3, by rw [h4, hu]⟩

/-- `a'` differs from `a` at most in state `i`, which is now `s'`. -/
structure Upd (a a' : Auto) (i : Nat) (s' : State) : Prop where
  len : a'.length = a.length
  at_ : a'[i]? = some s'
  ne : ∀ j, j ≠ i → a'[j]? = a[j]?

theorem Upd.modify {a : Auto} {i : Nat} {s : State} (h : a[i]? = some s) (f : State → State) :
    ∃ a', modifyState a i f = some a' ∧ Upd a a' i (f s) := by
  refine ⟨_, modifyState_eq (getElem?_lt h), by simp, ?_, ?_⟩
  · simp [List.getElem?_modify, h]
  · intro j hj; simp [List.getElem?_modify, Ne.symm hj]

theorem Upd.trans {a b c : Auto} {i : Nat} {s t : State} (h1 : Upd a b i s) (h2 : Upd b c i t) :
    Upd a c i t :=
  ⟨by rw [h2.len, h1.len], h2.at_, fun j hj => by rw [h2.ne j hj, h1.ne j hj]⟩

theorem Upd.refl {a : Auto} {i : Nat} {s : State} (h : a[i]? = some s) : Upd a a i s :=
  ⟨rfl, h, fun _ _ => rfl⟩

theorem Upd.rep {a a' : Auto} {i : Nat} {s : State} (u : Upd a a' i s) (o : Option Word) (j : Nat) :
    Rep nm a' o j ↔ Rep nm a o j := by
  cases o <;> simp [Rep, u.len]

theorem Skel.upd {a a' : Auto} {i : Nat} {s s' : State} (sk : Skel P nm a) (hi : 2 < i)
    (hs : a[i]? = some s) (u : Upd a a' i s') (ht : s'.trans = s.trans) (hd : s'.depth = s.depth) :
    Skel P nm a' := by
  have key : ∀ (j : Nat) (t : State), a'[j]? = some t → ∃ t0 : State, a[j]? = some t0 ∧ t.trans = t0.trans ∧ t.depth = t0.depth := by
    intro j t h
    by_cases e : j = i
    · subst e
      rw [u.at_] at h; injection h with h; subst h
      exact ⟨s, hs, ht, hd⟩
    · rw [u.ne j e] at h; exact ⟨t, h, rfl, rfl⟩
  refine ⟨by rw [u.len]; exact sk.len, sk.root, by rw [u.len]; exact sk.inj, by rw [u.len]; exact sk.nodes,
    by rw [u.len]; exact sk.small, ?_, ?_, ?_, ?_⟩
  · intro j t h h2
    obtain ⟨t0, h0, _, e⟩ := key j t h
    rw [e]; exact sk.dep j t0 h0 h2
  · intro j t h h2 b
    obtain ⟨t0, h0, e, _⟩ := key j t h
    rw [e, u.len]; exact sk.tr j t0 h0 h2 b
  · intro t h
    rw [u.ne 1 (by omega)] at h; exact sk.dead t h
  · intro t h
    rw [u.ne 2 (by omega)] at h; exact sk.rootM t h

theorem Final.upd {a a' : Auto} {i j : Nat} {s' : State} (u : Upd a a' i s') (hj : j ≠ i)
    (h : Final P nm a j) : Final P nm a' j := by
  intro t ht
  rw [u.ne j hj] at ht
  rw [u.rep]
  exact h t ht

theorem Raw.upd {a a' : Auto} {i j : Nat} {s' : State} (u : Upd a a' i s') (hj : j ≠ i)
    (h : Raw P nm a j) : Raw P nm a' j := by
  intro t ht
  rw [u.ne j hj] at ht
  exact h t ht

/-- The state of the breadth first pass: `H` is everything enqueued so far, in order. -/
structure FInv (P : Pats) (nm : Nat → Word) (a : Auto) (H : Queue) (In : Word → Prop) : Prop where
  sk : Skel P nm a
  fin : ∀ x ∈ H, Final P nm a x.1
  raw : ∀ i, 2 < i → i < a.length → i ∉ H.map Prod.fst → Raw P nm a i
  rng : ∀ x ∈ H, 2 < x.1 ∧ x.1 < a.length
  nodup : (H.map Prod.fst).Nodup
  md : ∀ x ∈ H, ∀ d, x.2 = some d → d = 1 ∧ HasPref P (nm x.1)
  sorted : H.Pairwise (fun x y => (nm x.1).length ≤ (nm y.1).length)
  mem : ∀ i, 2 < i → i < a.length → (i ∈ H.map Prod.fst ↔ In (nm i))

/-- Enqueue one state. -/
theorem FInv.push {a a' : Auto} {H : Queue} {In : Word → Prop} (inv : FInv P nm a H In)
    {i : Nat} {s s' : State} {m : Option Nat} (hi : 2 < i) (hs : a[i]? = some s)
    (u : Upd a a' i s') (ht : s'.trans = s.trans) (hd : s'.depth = s.depth)
    (hnew : i ∉ H.map Prod.fst)
    (hF : Rep nm a (failOf P (nm i)) s'.fail ∧ s'.matches_ = mat P (nm i))
    (hm : ∀ d, m = some d → d = 1 ∧ HasPref P (nm i))
    (hsort : ∀ x ∈ H, (nm x.1).length ≤ (nm i).length) :
    FInv P nm a' (H ++ [(i, m)]) (fun w => In w ∨ w = nm i) := by
  have hl := getElem?_lt hs
  refine ⟨inv.sk.upd hi hs u ht hd, ?_, ?_, ?_, ?_, ?_, ?_, ?_⟩
  · intro x hx
    rcases List.mem_append.mp hx with hx | hx
    · refine Final.upd u ?_ (inv.fin x hx)
      intro e; exact hnew (by rw [← e]; exact List.mem_map_of_mem hx)
    · simp at hx; subst hx
      intro t h
      rw [u.at_] at h; injection h with h; subst h
      rw [u.rep]; exact hF
  · intro j h2 hjl hj
    rw [u.len] at hjl
    simp only [List.map_append, List.map_cons, List.map_nil, List.mem_append, List.mem_singleton, not_or] at hj
    exact Raw.upd u hj.2 (inv.raw j h2 hjl hj.1)
  · intro x hx
    rw [u.len]
    rcases List.mem_append.mp hx with hx | hx
    · exact inv.rng x hx
    · simp at hx; subst hx; exact ⟨hi, hl⟩
  · rw [List.map_append, List.nodup_append]
    refine ⟨inv.nodup, by simp, ?_⟩
    intro x hx y hy
    simp at hy; subst hy
    intro e; subst e; exact hnew hx
  · intro x hx
    rcases List.mem_append.mp hx with hx | hx
    · exact inv.md x hx
    · simp at hx; subst hx; exact hm
  · rw [List.pairwise_append]
    refine ⟨inv.sorted, by simp, ?_⟩
    intro x hx y hy
    simp at hy; subst hy
    exact hsort x hx
  · intro j h2 hjl
    rw [u.len] at hjl
    simp only [List.map_append, List.map_cons, List.map_nil, List.mem_append, List.mem_singleton,
      inv.mem j h2 hjl]
    constructor
    · rintro (h | h)
      · exact Or.inl h
      · right; rw [h]
    · rintro (h | h)
      · exact Or.inl h
      · right; exact inv.sk.inj j i (by omega) hjl (by omega) hl h

/-- Nothing to enqueue: the word is not a state. -/
theorem FInv.skip {a : Auto} {H : Queue} {In : Word → Prop} (inv : FInv P nm a H In) {w : Word}
    (h : ¬ IsNode P w) : FInv P nm a H (fun x => In x ∨ x = w) := by
  refine ⟨inv.sk, inv.fin, inv.raw, inv.rng, inv.nodup, inv.md, inv.sorted, ?_⟩
  intro i h2 hl
  rw [inv.mem i h2 hl]
  constructor
  · exact Or.inl
  · rintro (hh | hh)
    · exact hh
    · exact absurd ((inv.sk.nodes w).mpr ⟨i, by omega, hl, hh⟩) h

theorem isMatch_iff {s : State} : s.isMatch = true ↔ s.matches_ ≠ [] := by
  simp [State.isMatch]

theorem hasPref_single (hP : NonEmpty P) {b : UInt8} : HasPref P [b] ↔ own P [b] ≠ [] := by
  constructor
  · rintro ⟨p, hp, h⟩
    rw [own_ne_nil]
    refine ⟨p, hp, ?_⟩
    rcases List.prefix_concat_iff.mp (show p.2 <+: [] ++ [b] from h) with h1 | h1
    · exact h1
    · exact absurd (List.prefix_nil.mp h1) (hP p hp)
  · exact HasPref.of_own

theorem initQueue_spec (hP : NonEmpty P) (bytes : List UInt8) : ∀ (a : Auto) (H : Queue) (In : Word → Prop),
    FInv P nm a H In → (∀ x ∈ H, (nm x.1).length = 1) → (∀ b ∈ bytes, ¬ In [b]) → bytes.Nodup →
    ∃ a' H', initQueue a H bytes = some (a', H') ∧ a'.length = a.length ∧
      FInv P nm a' H' (fun w => In w ∨ ∃ b ∈ bytes, w = [b]) ∧ (∀ x ∈ H', (nm x.1).length = 1) := by
  induction bytes with
  | nil =>
    intro a H In inv h1 _ _
    exact ⟨a, H, rfl, rfl, by simpa using inv, h1⟩
  | cons b bytes ih =>
    intro a H In inv h1 hb hnd
    have hlen := inv.sk.len
    obtain ⟨st, hst⟩ := inv.sk.get (i := START) (by simp [START]; omega)
    have hcongr : ∀ a', FInv P nm a' H In → True := fun _ _ => trivial
    rw [List.nodup_cons] at hnd
    rcases inv.sk.tr START st hst (by simp [START]) b with ⟨h3, h4⟩ | ⟨h3, h4, h5⟩
    · simp only [START, if_true] at h3
      have hroot : nm START = [] := inv.sk.root
      rw [hroot, List.nil_append] at h4
      obtain ⟨a', H', he, hl, hinv, h1'⟩ := ih a H _ (inv.skip h4) h1 (by
        intro c hc hh
        rcases hh with hh | hh
        · exact hb c (List.mem_cons_of_mem _ hc) hh
        · simp at hh; subst hh; exact hnd.1 hc) hnd.2
      refine ⟨a', H', ?_, hl, ?_, h1'⟩
      · simp only [initQueue, hst, Option.bind_eq_bind, Option.bind_some, h3]
        simpa [START] using he
      · convert hinv using 2 with w
        simp only [List.mem_cons, exists_eq_or_imp, or_assoc]
    · have hroot : nm START = [] := inv.sk.root
      rw [hroot, List.nil_append] at h5
      obtain ⟨n, hn⟩ := inv.sk.get h4
      have hnew : st.trans b ∉ H.map Prod.fst := by
        rw [inv.mem _ h3 h4, h5]; exact hb b (by simp)
      obtain ⟨hr1, hr2⟩ := inv.raw _ h3 h4 hnew n hn
      have hsm : st.isMatch = false := by simp [State.isMatch, inv.sk.rootM st hst]
      have hmat : n.matches_ = mat P (nm (st.trans b)) := by
        rw [hr2, h5]
        by_cases hp : HasPref P [b]
        · rw [mat_hasPref hp]
        · rw [mat_cons hp]
          simp only [sig, mat_nil hP]
          by_contra hne
          exact hp (HasPref.of_own hne)
      -- the new failure link
      obtain ⟨a1, s1, hmod, hu, ht1, hd1, hF⟩ : ∃ a1 s1,
          (if n.isMatch = true then modifyState a (st.trans b) (fun s => { s with fail := DEAD }) else some a)
            = some a1 ∧ Upd a a1 (st.trans b) s1 ∧ s1.trans = n.trans ∧ s1.depth = n.depth ∧
          (Rep nm a (failOf P (nm (st.trans b))) s1.fail ∧ s1.matches_ = mat P (nm (st.trans b))) := by
        by_cases hm : n.isMatch = true
        · obtain ⟨a1, e1, u1⟩ := Upd.modify hn (fun s => { s with fail := DEAD })
          refine ⟨a1, _, by rw [if_pos hm]; exact e1, u1, rfl, rfl, ?_, hmat⟩
          have : HasPref P [b] := by
            rw [hasPref_single hP, ← h5, ← hr2]; exact isMatch_iff.mp hm
          simp [failOf, h5, this, Rep]
        · refine ⟨a, n, by rw [if_neg hm], Upd.refl hn, rfl, rfl, ?_, hmat⟩
          have : ¬ HasPref P [b] := by
            rw [hasPref_single hP, ← h5, ← hr2]
            intro h; exact hm (isMatch_iff.mpr h)
          simp only [failOf, h5, this, if_false, List.tail_cons, sig, Rep]
          rw [hr1]
          exact ⟨by simp [START], by simp [START]; omega, inv.sk.root⟩
      have inv1 := inv.push (m := none) h3 hn hu ht1 hd1 hnew hF (by simp) (by
        intro x hx; rw [h1 x hx, h5]; simp)
      obtain ⟨a', H', he, hl, hinv, h1'⟩ := ih a1 (H ++ [(st.trans b, none)]) _ inv1 (by
          intro x hx
          rcases List.mem_append.mp hx with hx | hx
          · exact h1 x hx
          · simp at hx; subst hx; simp [h5]) (by
        intro c hc hh
        rcases hh with hh | hh
        · exact hb c (List.mem_cons_of_mem _ hc) hh
        · rw [h5] at hh; simp at hh; subst hh; exact hnd.1 hc) hnd.2
      refine ⟨a', H', ?_, by rw [hl, hu.len], ?_, h1'⟩
      · have hne : st.trans b ≠ START := by simp [START]; omega
        simp only [initQueue, hst, Option.bind_eq_bind, Option.bind_some, hne, ne_eq, not_false_eq_true,
          if_true, hsm, hn]
        split
        · next hm => rw [if_pos hm] at hmod; rw [hmod]; simpa using he
        · next hm => rw [if_neg hm] at hmod; injection hmod with e; subst e; simpa using he
      · convert hinv using 2 with w
        rw [h5]
        simp only [List.mem_cons, exists_eq_or_imp, or_assoc]

end Upon.AC
