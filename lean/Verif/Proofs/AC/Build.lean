import Verif.Proofs.AC.Fill
import Mathlib.Data.List.Perm.Subperm
/-
The queue loop, and the finished automaton.
-/
namespace Upon.AC

variable {P : Pats} {nm : Nat → Word}

theorem own_of_hasPref_snoc {w : Word} {b : UInt8} (h : HasPref P (w ++ [b])) (ho : own P (w ++ [b]) = []) :
    HasPref P w := by
  obtain ⟨p, hp, h2⟩ := h
  rcases List.prefix_concat_iff.mp h2 with h3 | h3
  · exact absurd ho (own_ne_nil.mpr ⟨p, hp, h3⟩)
  · exact ⟨p, hp, h3⟩

theorem failOf_length {w v : Word} (hw : w ≠ []) (h : failOf P w = some v) : v.length + 1 ≤ w.length := by
  simp only [failOf] at h
  split at h
  · cases h
  · have := sig_length h
    cases w with
    | nil => exact absurd rfl hw
    | cons c w => simp at this ⊢; omega

theorem fillByte_spec (hP : NonEmpty P) {a : Auto} {H q : Queue} {In : Word → Prop}
    (inv : FInv P nm a H In) {curr : Nat} {m : Option Nat} {b : UInt8}
    (hcur : (curr, m) ∈ H)
    (hall : ∀ i, 2 < i → i < a.length → (nm i).length ≤ (nm curr).length → i ∈ H.map Prod.fst)
    (hsort : ∀ x ∈ H, (nm x.1).length ≤ (nm curr).length + 1)
    (hnew : ¬ In (nm curr ++ [b])) :
    ∃ a' add, fillByte (a.length + 1) a q curr m b = some (a', q ++ add) ∧ a'.length = a.length ∧
      FInv P nm a' (H ++ add) (fun w => In w ∨ w = nm curr ++ [b]) ∧
      (∀ x ∈ add, (nm x.1).length = (nm curr).length + 1) ∧
      (IsNode P (nm curr ++ [b]) → add ≠ []) := by
  obtain ⟨hc2, hcl⟩ := inv.rng _ hcur
  simp only at hc2 hcl
  obtain ⟨c, hc⟩ := inv.sk.get hcl
  have hcne : nm curr ≠ [] := inv.sk.ne_nil hc2 hcl
  rcases inv.sk.tr curr c hc (by omega) b with ⟨h1, h2⟩ | ⟨h1, h2, h3⟩
  · rw [if_neg (by omega)] at h1
    refine ⟨a, [], ?_, rfl, ?_, by simp, fun h => absurd h h2⟩
    · simp [fillByte, hc, h1]
    · rw [List.append_nil]; exact inv.skip h2
  · -- a child
    obtain ⟨nx, hnx⟩ : ∃ nx, c.trans b = nx := ⟨_, rfl⟩
    rw [hnx] at h1 h2 h3
    obtain ⟨n, hn⟩ := inv.sk.get h2
    have hnotin : nx ∉ H.map Prod.fst := by rw [inv.mem _ h1 h2, h3]; exact hnew
    obtain ⟨hr1, hr2⟩ := inv.raw _ h1 h2 hnotin n hn
    have hnd : n.depth = (nm curr).length + 1 := by
      rw [inv.sk.dep _ n hn (by omega), h3]; simp
    have hcf := (inv.fin _ hcur c hc).1
    simp only at hcf
    have hfl : ∀ v, failOf P (nm curr) = some v → v.length + 1 ≤ (nm curr).length :=
      fun v hv => failOf_length hcne hv
    have hsm := inv.sk.small curr (by omega) hcl
    -- the failure walk
    obtain ⟨t, ht, hrt⟩ := failTarget_spec hP inv.sk b (nm curr).length
      (fun i hi hil hle => by
        have hi' := hall i hi hil hle
        obtain ⟨x, hx, rfl⟩ := List.mem_map.mp hi'
        exact inv.fin x hx) (a.length + 1) _ _ hcf
      (fun u hu => by have := hfl u hu; omega)
      (by
        cases hfo : failOf P (nm curr) with
        | none => simp; omega
        | some v => have := hfl v hfo; simp; omega)
    have htl : ∀ v, ((failOf P (nm curr)).bind fun u => sig P (u ++ [b])) = some v →
        v.length ≤ (nm curr).length := by
      intro v hv
      cases hfo : failOf P (nm curr) with
      | none => rw [hfo] at hv; simp at hv
      | some u =>
        rw [hfo] at hv
        simp only [Option.bind_some] at hv
        have h4 := sig_length hv
        have h5 := hfl u hfo
        simp at h4; omega
    obtain ⟨f, hf, hfd⟩ : ∃ f, a[t]? = some f ∧ f.depth ≤ (nm curr).length := by
      cases ho : ((failOf P (nm curr)).bind fun u => sig P (u ++ [b])) with
      | none =>
        rw [ho] at hrt
        have e : t = DEAD := hrt
        obtain ⟨f, hf⟩ := inv.sk.get (i := DEAD) (by have := inv.sk.len; simp [DEAD]; omega)
        refine ⟨f, by rw [e]; exact hf, ?_⟩
        rw [(inv.sk.dead f hf).2.2]; omega
      | some v =>
        rw [ho] at hrt
        obtain ⟨h4, h5, h6⟩ := hrt
        obtain ⟨f, hf⟩ := inv.sk.get h5
        refine ⟨f, hf, ?_⟩
        rw [inv.sk.dep t f hf h4, h6]
        exact htl v ho
    have htn : t ≠ nx := by
      intro e
      subst e
      rw [hf] at hn; injection hn with hn; subst hn
      omega
    have hne : nx ≠ FAIL := by simp [FAIL]; omega
    have hsortN : ∀ x ∈ H, (nm x.1).length ≤ (nm nx).length := by
      intro x hx; rw [h3]; simpa using hsort x hx
    have hIn : (fun w => In w ∨ w = nm nx) = (fun w => In w ∨ w = nm curr ++ [b]) := by rw [h3]
    -- the two ways an entry is made
    have dead : ∀ d, (d = 1 ∧ HasPref P (nm curr ++ [b])) →
        ∃ a' add, (do
          let f ← a[t]?
          if n.depth < d then none
          else if n.depth - d + 1 > f.depth then do
            let a ← modifyState a nx (fun s => { s with fail := DEAD })
            some (a, q ++ [(nx, some d)])
          else if n.fail = START then none
          else do
            let a ← modifyState a nx (fun s => { s with fail := t })
            let a ← copyMatches a t nx
            some (a, q ++ [(nx, some d)])) = some (a', q ++ add) ∧ a'.length = a.length ∧
        FInv P nm a' (H ++ add) (fun w => In w ∨ w = nm curr ++ [b]) ∧
        (∀ x ∈ add, (nm x.1).length = (nm curr).length + 1) ∧
        (IsNode P (nm curr ++ [b]) → add ≠ []) := by
      rintro d ⟨rfl, hp⟩
      obtain ⟨a1, e1, u1⟩ := Upd.modify hn (fun s => { s with fail := DEAD })
      refine ⟨a1, [(nx, some 1)], ?_, u1.len, ?_, by simp [h3], by simp⟩
      · rw [hf]
        simp only [Option.bind_eq_bind, Option.bind_some]
        rw [if_neg (by omega), if_pos (by omega), e1]
        rfl
      · rw [← hIn]
        apply inv.push h1 hn u1 rfl rfl hnotin _ _ hsortN
        · refine ⟨by simp [failOf, h3, hp, Rep], ?_⟩
          simp only
          rw [hr2, h3, mat_hasPref hp]
        · intro d hd; injection hd with hd; subst hd; exact ⟨rfl, by rw [h3]; exact hp⟩
    simp only [fillByte, hc, hnx, Option.bind_eq_bind, Option.bind_some, hne, if_false, hn, ht]
    cases m with
    | some d =>
      obtain ⟨hd, hp⟩ := inv.md _ hcur d rfl
      have := dead d ⟨hd, hp.mono (List.prefix_append _ _)⟩
      simpa using this
    | none =>
      by_cases hm : n.isMatch = true
      · have hown : own P (nm curr ++ [b]) ≠ [] := by rw [← h3, ← hr2]; exact isMatch_iff.mp hm
        obtain ⟨p, ps, hps⟩ : ∃ p ps, n.matches_ = p :: ps := by
          cases hmm : n.matches_ with
          | nil => exact absurd hmm (isMatch_iff.mp hm)
          | cons p ps => exact ⟨p, ps, rfl⟩
        have hpl : p.len = n.depth := by
          have : p ∈ own P (nm nx) := by rw [← hr2, hps]; simp
          rw [own_len this, inv.sk.dep _ n hn (by omega)]
        have := dead 1 ⟨rfl, HasPref.of_own hown⟩
        simp only [hm, if_true, hps, List.head?_cons, Option.bind_some, hpl, Nat.le_refl, Nat.sub_self,
          Nat.zero_add]
        simpa using this
      · have hown : own P (nm curr ++ [b]) = [] := by
          rw [← h3, ← hr2]
          by_contra hh; exact hm (isMatch_iff.mpr hh)
        have hraw : n.matches_ = [] := by rw [hr2, h3, hown]
        obtain ⟨a1, e1, u1⟩ := Upd.modify hn (fun s => { s with fail := t })
        have hf1 : a1[t]? = some f := by rw [u1.ne t htn]; exact hf
        obtain ⟨a2, e2, u2⟩ := Upd.modify u1.at_ (fun d => { d with matches_ := d.matches_ ++ f.matches_ })
        have u := u1.trans u2
        refine ⟨a2, [(nx, none)], ?_, u.len, ?_, by simp [h3], by simp⟩
        · simp only [hm]
          simp [e1, copyMatches, htn, hf1, e2]
        · rw [← hIn]
          refine inv.push h1 hn u rfl rfl hnotin ?_ (by simp) hsortN
          simp only [hraw, List.nil_append]
          rw [h3]
          by_cases hp : HasPref P (nm curr ++ [b])
          · have hpc := own_of_hasPref_snoc hp hown
            have hfo : failOf P (nm curr) = none := by simp [failOf, hpc]
            rw [hfo] at hrt
            have e : t = DEAD := hrt
            subst e
            refine ⟨by simp [failOf, hp, Rep], ?_⟩
            rw [mat_hasPref hp, hown]
            exact (inv.sk.dead f hf).2.1
          · have hpc : ¬ HasPref P (nm curr) := fun h => hp (h.mono (List.prefix_append _ _))
            obtain ⟨c0, u0, hu0⟩ : ∃ c0 u0, nm curr = c0 :: u0 := by
              cases hh : nm curr with
              | nil => exact absurd hh hcne
              | cons c0 u0 => exact ⟨c0, u0, rfl⟩
            rw [hu0] at hp hpc hrt ⊢
            have hsig : ((failOf P (c0 :: u0)).bind fun u => sig P (u ++ [b])) = sig P (u0 ++ [b]) := by
              simp only [failOf, hpc, if_false, List.tail_cons]
              cases hs : sig P u0 with
              | none => simp [sig_none_snoc hs]
              | some v => simp [sig_some_snoc hs]
            rw [hsig] at hrt
            rw [List.cons_append] at hp ⊢
            refine ⟨by simpa [failOf, hp] using hrt, ?_⟩
            rw [mat_cons hp]
            cases hs : sig P (u0 ++ [b]) with
            | none =>
              rw [hs] at hrt
              have e : t = DEAD := hrt
              subst e
              exact (inv.sk.dead f hf).2.1
            | some v =>
              rw [hs] at hrt
              obtain ⟨h4, h5, h6⟩ := hrt
              simp only
              by_cases ht2 : t = 2
              · subst ht2
                rw [inv.sk.rootM f hf, ← h6, inv.sk.root, mat_nil hP]
              · have hvl : v.length ≤ (nm curr).length := by
                  have := sig_length hs
                  rw [hu0]; simp at this ⊢; omega
                have := hall t (by omega) h5 (by rw [h6]; exact hvl)
                obtain ⟨x, hx, ex⟩ := List.mem_map.mp this
                have := (inv.fin x hx f (by rw [ex]; exact hf)).2
                rw [this, ex, h6]

theorem fillBytes_spec (hP : NonEmpty P) {curr : Nat} {m : Option Nat} (bytes : List UInt8) :
    ∀ (a : Auto) (H q : Queue) (In : Word → Prop) (_ : FInv P nm a H In)
    (_ : (curr, m) ∈ H)
    (_ : ∀ i, 2 < i → i < a.length → (nm i).length ≤ (nm curr).length → i ∈ H.map Prod.fst)
    (_ : ∀ x ∈ H, (nm x.1).length ≤ (nm curr).length + 1)
    (_ : ∀ b ∈ bytes, ¬ In (nm curr ++ [b])) (_ : bytes.Nodup) (L : Nat) (_ : a.length = L),
    ∃ a' add, fillBytes (L + 1) curr m a q bytes = some (a', q ++ add) ∧ a'.length = a.length ∧
      FInv P nm a' (H ++ add) (fun w => In w ∨ ∃ b ∈ bytes, w = nm curr ++ [b]) ∧
      ((∃ b ∈ bytes, IsNode P (nm curr ++ [b])) → add ≠ []) := by
  induction bytes with
  | nil =>
    intro a H q In inv _ _ _ _ _ L _
    exact ⟨a, [], by simp [fillBytes], rfl, by simpa using inv, by simp⟩
  | cons b bytes ih =>
    intro a H q In inv hcur hall hsort hnew hnd L hL
    rw [List.nodup_cons] at hnd
    obtain ⟨a1, add1, e1, hl1, inv1, hdep1, hnode1⟩ :=
      fillByte_spec hP (q := q) inv hcur hall hsort (hnew b (by simp))
    rw [hL] at e1
    obtain ⟨a2, add2, e2, hl2, inv2, hnode2⟩ := ih a1 (H ++ add1) (q ++ add1) _ inv1
      (List.mem_append_left _ hcur)
      (by
        intro i h2 hl hle
        rw [List.map_append]
        exact List.mem_append_left _ (hall i h2 (by omega) hle))
      (by
        intro x hx
        rcases List.mem_append.mp hx with hx | hx
        · exact hsort x hx
        · exact Nat.le_of_eq (hdep1 x hx))
      (by
        intro c hc hh
        rcases hh with hh | hh
        · exact hnew c (List.mem_cons_of_mem _ hc) hh
        · simp at hh; subst hh; exact hnd.1 hc)
      hnd.2 L (by omega)
    refine ⟨a2, add1 ++ add2, ?_, by omega, ?_, ?_⟩
    · simp [fillBytes, e1, e2]
    · rw [← List.append_assoc]
      convert inv2 using 2 with w
      simp only [List.mem_cons, exists_eq_or_imp, or_assoc]
    · rintro ⟨c, hc, hn⟩
      rcases List.mem_cons.mp hc with rfl | hc
      · have := hnode1 hn
        simp [this]
      · have := hnode2 ⟨c, hc, hn⟩
        simp [this]

/-- What the queue contains, in closed form: the children of the root and of everything popped. -/
def Reached (nm : Nat → Word) (popped : Queue) (w : Word) : Prop :=
  (∃ b : UInt8, w = [b]) ∨ ∃ x ∈ popped, ∃ b, w = nm x.1 ++ [b]

theorem fillLoop_spec (hP : NonEmpty P) : ∀ (fuel : Nat) (a : Auto) (popped q : Queue),
    FInv P nm a (popped ++ q) (Reached nm popped) → a.length ≤ fuel + popped.length →
    ∃ a', fillLoop fuel a q = some a' ∧ a'.length = a.length ∧ Skel P nm a' ∧
      (∀ i, 2 < i → i < a'.length → Final P nm a' i) := by
  intro fuel
  induction fuel with
  | zero =>
    intro a popped q inv hf
    cases q with
    | nil =>
      refine ⟨a, rfl, rfl, inv.sk, ?_⟩
      -- every state was popped, as there are none beyond the three special ones
      intro i hi hl
      have : (popped ++ ([] : Queue)).map Prod.fst ⊆ (List.range a.length).drop 3 := by
        intro x hx
        obtain ⟨y, hy, rfl⟩ := List.mem_map.mp hx
        obtain ⟨h1, h2⟩ := inv.rng y hy
        rw [List.mem_drop_iff_getElem]
        refine ⟨y.1 - 3, by simp; omega, ?_⟩
        simp; omega
      have := (List.Nodup.subperm inv.nodup this).length_le
      simp at this
      omega
    | cons x q =>
      exfalso
      have : (popped ++ (x :: q)).map Prod.fst ⊆ List.range a.length := by
        intro z hz
        obtain ⟨y, hy, rfl⟩ := List.mem_map.mp hz
        obtain ⟨h1, h2⟩ := inv.rng y hy
        simpa using h2
      have := (List.Nodup.subperm inv.nodup this).length_le
      simp at this
      omega
  | succ fuel ih =>
    intro a popped q inv hf
    cases q with
    | nil =>
      refine ⟨a, by simp [fillLoop], rfl, inv.sk, ?_⟩
      intro i hi hl
      -- every state has been reached
      have hin : ∀ n i, 2 < i → i < a.length → (nm i).length = n → i ∈ popped.map Prod.fst := by
        intro n
        induction n with
        | zero =>
          intro i hi hl h0
          exact absurd (List.length_eq_zero_iff.mp h0) (inv.sk.ne_nil hi hl)
        | succ n ihn =>
          intro i hi hl h0
          have hmem := inv.mem i hi hl
          simp only [List.append_nil] at hmem
          rw [hmem]
          obtain ⟨w, b, hw⟩ : ∃ w b, nm i = w ++ [b] := by
            rcases List.eq_nil_or_concat (nm i) with h | ⟨w, b, h⟩
            · exact absurd h (inv.sk.ne_nil hi hl)
            · exact ⟨w, b, by simpa using h⟩
          by_cases hw0 : w = []
          · left; exact ⟨b, by rw [hw, hw0]; rfl⟩
          · right
            have hnode : IsNode P w := by
              refine IsNode.prefix (List.prefix_append w [b]) ?_
              rw [← hw]; exact (inv.sk.nodes _).mpr ⟨i, by omega, hl, rfl⟩
            obtain ⟨j, hj, hjl, ej⟩ := (inv.sk.nodes w).mp hnode
            have hj2 : 2 < j := by
              rcases Nat.lt_or_ge 2 j with h | h
              · exact h
              · have : j = 2 := by omega
                subst this
                rw [inv.sk.root] at ej
                exact absurd ej.symm hw0
            have := ihn j hj2 hjl (by rw [ej]; rw [hw] at h0; simpa using h0)
            obtain ⟨x, hx, ex⟩ := List.mem_map.mp this
            exact ⟨x, hx, b, by rw [hw, ex, ej]⟩
      obtain ⟨x, hx, ex⟩ := List.mem_map.mp (hin _ i hi hl rfl)
      rw [← ex]
      exact inv.fin x (by simpa using hx)
    | cons x q =>
      obtain ⟨curr, m⟩ := x
      have hcur : (curr, m) ∈ popped ++ (curr, m) :: q := by simp
      obtain ⟨hc2, hcl⟩ := inv.rng _ hcur
      simp only at hc2 hcl
      have hsrt := inv.sorted
      rw [List.pairwise_append] at hsrt
      obtain ⟨_, hs2, hs3⟩ := hsrt
      rw [List.pairwise_cons] at hs2
      have hnd := inv.nodup
      rw [List.map_append, List.map_cons, List.nodup_append] at hnd
      obtain ⟨hnd1, hnd2, hnd3⟩ := hnd
      rw [List.nodup_cons] at hnd2
      -- everything at most as deep has been enqueued
      have hall : ∀ n i, 2 < i → i < a.length → (nm i).length = n → n ≤ (nm curr).length →
          i ∈ (popped ++ (curr, m) :: q).map Prod.fst := by
        intro n
        induction n with
        | zero =>
          intro i hi hl h0
          exact absurd (List.length_eq_zero_iff.mp h0) (inv.sk.ne_nil hi hl)
        | succ n ihn =>
          intro i hi hl h0 hle
          rw [inv.mem i hi hl]
          obtain ⟨w, b, hw⟩ : ∃ w b, nm i = w ++ [b] := by
            rcases List.eq_nil_or_concat (nm i) with h | ⟨w, b, h⟩
            · exact absurd h (inv.sk.ne_nil hi hl)
            · exact ⟨w, b, by simpa using h⟩
          by_cases hw0 : w = []
          · left; exact ⟨b, by rw [hw, hw0]; rfl⟩
          · right
            have hnode : IsNode P w := by
              refine IsNode.prefix (List.prefix_append w [b]) ?_
              rw [← hw]; exact (inv.sk.nodes _).mpr ⟨i, by omega, hl, rfl⟩
            obtain ⟨j, hj, hjl, ej⟩ := (inv.sk.nodes w).mp hnode
            have hj2 : 2 < j := by
              rcases Nat.lt_or_ge 2 j with h | h
              · exact h
              · have : j = 2 := by omega
                subst this
                rw [inv.sk.root] at ej
                exact absurd ej.symm hw0
            have hjn : (nm j).length = n := by rw [ej]; rw [hw] at h0; simpa using h0
            have := ihn j hj2 hjl hjn (by omega)
            obtain ⟨x, hx, ex⟩ := List.mem_map.mp this
            rcases List.mem_append.mp hx with hx | hx
            · exact ⟨x, hx, b, by rw [hw, ex, ej]⟩
            · exfalso
              rcases List.mem_cons.mp hx with hx | hx
              · subst hx; simp only at ex; subst ex; omega
              · have := hs2.1 x hx
                rw [ex] at this; simp only at this; omega
      have hsort : ∀ x ∈ popped ++ (curr, m) :: q, (nm x.1).length ≤ (nm curr).length + 1 := by
        intro x hx
        obtain ⟨h2, hl⟩ := inv.rng x hx
        have := (inv.mem x.1 h2 hl).mp (List.mem_map_of_mem hx)
        rcases this with ⟨b, hb⟩ | ⟨y, hy, b, hb⟩
        · rw [hb]; simp
        · rw [hb]
          have := hs3 y hy (curr, m) (by simp)
          simpa using this
      have hnew : ∀ b ∈ allBytes, ¬ Reached nm popped (nm curr ++ [b]) := by
        intro b _ hr
        rcases hr with ⟨c, hb⟩ | ⟨y, hy, c, hb⟩
        · have := congrArg List.length hb
          simp at this
          exact inv.sk.ne_nil hc2 hcl this
        · have e := (List.append_inj' hb rfl).1
          obtain ⟨h2, hl⟩ := inv.rng y (List.mem_append_left _ hy)
          have := inv.sk.inj curr y.1 (by omega) hcl (by omega) hl e
          have hym : y.1 ∈ popped.map Prod.fst := List.mem_map_of_mem hy
          exact hnd3 y.1 hym curr (by simp) this.symm
      obtain ⟨a1, add, e1, hl1, inv1, hne1⟩ := fillBytes_spec hP allBytes a _ q _ inv hcur
        (fun i h2 hl hle => hall _ i h2 hl rfl hle) hsort hnew nodup_allBytes a.length rfl
      have inv2 : FInv P nm a1 ((popped ++ [(curr, m)]) ++ (q ++ add)) (Reached nm (popped ++ [(curr, m)])) := by
        have : (popped ++ [(curr, m)]) ++ (q ++ add) = (popped ++ (curr, m) :: q) ++ add := by simp
        rw [this]
        convert inv1 using 2 with w
        simp only [Reached, mem_allBytes, true_and, List.mem_append, List.mem_singleton]
        constructor
        · rintro (h | ⟨x, hx | hx, b, hb⟩)
          · exact Or.inl (Or.inl h)
          · exact Or.inl (Or.inr ⟨x, hx, b, hb⟩)
          · subst hx; exact Or.inr ⟨b, hb⟩
        · rintro ((h | ⟨x, hx, b, hb⟩) | ⟨b, hb⟩)
          · exact Or.inl h
          · exact Or.inr ⟨x, Or.inl hx, b, hb⟩
          · exact Or.inr ⟨_, Or.inr rfl, b, hb⟩
      -- the rule for leaves changes nothing: a leaf is a pattern, so its link is dead already
      obtain ⟨c1, hc1⟩ := inv2.sk.get (i := curr) (by omega)
      have hleaf : ¬ ((q ++ add).length = q.length ∧ c1.isMatch = true) ∨ c1.fail = DEAD := by
        by_cases hadd : add = []
        · right
          have hnochild : ∀ b, ¬ IsNode P (nm curr ++ [b]) := by
            intro b hn; exact hne1 ⟨b, mem_allBytes b, hn⟩ hadd
          have hnode : IsNode P (nm curr) := (inv.sk.nodes _).mpr ⟨curr, by omega, hcl, rfl⟩
          have hp : HasPref P (nm curr) := by
            rcases hnode with h | ⟨p, hp, hpre⟩
            · exact absurd h (inv.sk.ne_nil hc2 hcl)
            · obtain ⟨t, ht⟩ := hpre
              cases t with
              | nil => exact ⟨p, hp, by rw [← ht, List.append_nil]; exact List.prefix_refl _⟩
              | cons b t =>
                exfalso
                exact hnochild b (Or.inr ⟨p, hp, by rw [← ht]; exact ⟨t, by simp⟩⟩)
          have := (inv2.fin (curr, m) (by simp) c1 hc1).1
          simpa [failOf, hp, Rep] using this
        · left
          intro h
          have := h.1
          simp at this
          exact hadd this
      obtain ⟨a2, e2, hl2, inv3⟩ : ∃ a2, (if (q ++ add).length = q.length ∧ c1.isMatch = true then
          modifyState a1 curr (fun s => { s with fail := DEAD }) else some a1) = some a2 ∧
          a2.length = a1.length ∧
          FInv P nm a2 ((popped ++ [(curr, m)]) ++ (q ++ add)) (Reached nm (popped ++ [(curr, m)])) := by
        by_cases hc : (q ++ add).length = q.length ∧ c1.isMatch = true
        · have hdead : c1.fail = DEAD := by
            rcases hleaf with h | h
            · exact absurd hc h
            · exact h
          refine ⟨a1, ?_, rfl, inv2⟩
          rw [if_pos hc, modifyState_eq (by omega)]
          congr 1
          apply List.ext_getElem?
          intro i
          rw [List.getElem?_modify]
          by_cases ei : curr = i
          · subst ei; rw [hc1]; simp [← hdead]
          · simp [ei]
        · exact ⟨a1, by rw [if_neg hc], rfl, inv2⟩
      obtain ⟨a3, e3, hl3, sk3, fin3⟩ := ih a2 (popped ++ [(curr, m)]) (q ++ add) inv3 (by simp; omega)
      refine ⟨a3, ?_, by omega, sk3, fin3⟩
      simp only [fillLoop, e1, Option.bind_eq_bind, Option.bind_some, hc1]
      split
      · next h => rw [if_pos h] at e2; rw [e2]; exact e3
      · next h => rw [if_neg h] at e2; injection e2 with e2; subst e2; exact e3

/-- The finished automaton. -/
structure Done (P : Pats) (nm : Nat → Word) (a : Auto) : Prop where
  sk : Skel P nm a
  fin : ∀ i, 2 < i → i < a.length → Final P nm a i

theorem build_spec (P : Pats) (hP : NonEmpty P) : ∃ a nm, build P = some a ∧ Done P nm a := by
  obtain ⟨a1, nm, e1, inv1⟩ := buildTrie_spec P [] _ _ initial_inv
  simp only [List.nil_append] at inv1
  have hlen := inv1.len
  obtain ⟨s2, hs2⟩ : ∃ s, a1[START]? = some s := ⟨a1[START]'(by simp [START]; omega), by simp⟩
  obtain ⟨a2, e2, u2⟩ := Upd.modify hs2 (redirect FAIL START allBytes)
  obtain ⟨s1, hs1⟩ : ∃ s, a2[DEAD]? = some s :=
    ⟨a2[DEAD]'(by rw [u2.len]; simp [DEAD]; omega), by simp⟩
  obtain ⟨a3, e3, u3⟩ := Upd.modify hs1 (redirect FAIL DEAD allBytes)
  have hl3 : a3.length = a1.length := by rw [u3.len, u2.len]
  have hs1' : a1[DEAD]? = some s1 := by rw [← u2.ne DEAD (by simp [DEAD, START])]; exact hs1
  obtain ⟨t1, ht1⟩ : ∃ t, t = redirect FAIL DEAD allBytes s1 := ⟨_, rfl⟩
  obtain ⟨t2, ht2⟩ : ∃ t, t = redirect FAIL START allBytes s2 := ⟨_, rfl⟩
  have look : ∀ (i : Nat) (t : State), a3[i]? = some t → (i = 1 ∧ t = t1) ∨
      (i = 2 ∧ t = t2) ∨ (i ≠ 1 ∧ i ≠ 2 ∧ a1[i]? = some t) := by
    intro i t h
    by_cases h1 : i = DEAD
    · subst h1; rw [u3.at_, ← ht1] at h; injection h with h; exact Or.inl ⟨rfl, h.symm⟩
    · rw [u3.ne i h1] at h
      by_cases h2 : i = START
      · subst h2; rw [u2.at_, ← ht2] at h; injection h with h; exact Or.inr (Or.inl ⟨rfl, h.symm⟩)
      · rw [u2.ne i h2] at h; exact Or.inr (Or.inr ⟨h1, h2, h⟩)
  have ownNil : own P [] = [] := by
    by_contra h; exact hasPref_nil hP (HasPref.of_own h)
  have sk3 : Skel P nm a3 := by
    refine ⟨by omega, inv1.root, by rw [hl3]; exact inv1.inj, by rw [hl3]; exact inv1.nodes,
      by rw [hl3]; exact inv1.small, ?_, ?_, ?_, ?_⟩
    · intro i t h h2
      rcases look i t h with ⟨e, _⟩ | ⟨e, rfl⟩ | ⟨_, _, h⟩
      · omega
      · subst e; rw [ht2, (redirect_other _ _ _ _).2.2]; exact (inv1.st _ _ hs2 h2).1
      · exact (inv1.st _ _ h h2).1
    · intro i t h h2 b
      rw [hl3]
      rcases look i t h with ⟨e, _⟩ | ⟨e, rfl⟩ | ⟨_, hi2, h⟩
      · omega
      · subst e
        rw [ht2, redirect_trans]
        rcases inv1.tr _ _ hs2 h2 b with ⟨h3, h4⟩ | h3
        · left; exact ⟨by rw [if_pos ⟨mem_allBytes b, h3⟩]; rfl, h4⟩
        · right
          have : s2.trans b ≠ FAIL := by simp [FAIL]; omega
          rw [if_neg (fun h => this h.2)]; exact h3
      · rcases inv1.tr _ _ h h2 b with ⟨h3, h4⟩ | h3
        · left; exact ⟨by simp [hi2, h3], h4⟩
        · right; exact h3
    · intro t h
      rcases look 1 t h with ⟨_, rfl⟩ | ⟨e, _⟩ | ⟨e, _⟩
      · obtain ⟨h1, h2, h3⟩ := inv1.low _ _ hs1' (by simp [DEAD])
        obtain ⟨r1, r2, r3⟩ := redirect_other FAIL DEAD allBytes s1
        refine ⟨?_, by rw [ht1, r2, h2], by rw [ht1, r3, h3]⟩
        intro b
        rw [ht1, redirect_trans, if_pos ⟨mem_allBytes b, congrFun h1 b⟩]
      · omega
      · exact absurd rfl e
    · intro t h
      rcases look 2 t h with ⟨e, _⟩ | ⟨_, rfl⟩ | ⟨_, e, _⟩
      · omega
      · rw [ht2, (redirect_other _ _ _ _).2.1, (inv1.st _ _ hs2 (by simp [START])).2.2]
        show own P (nm 2) = []
        rw [inv1.root, ownNil]
      · exact absurd rfl e
  have inv3 : FInv P nm a3 [] (fun _ => False) := by
    refine ⟨sk3, by simp, ?_, by simp, by simp, by simp, by simp, by simp⟩
    intro i hi hl _ t h
    rcases look i t h with ⟨e, _⟩ | ⟨e, _⟩ | ⟨_, _, h⟩
    · omega
    · omega
    · exact (inv1.st _ _ h (by omega)).2
  obtain ⟨a4, q, e4, hl4, inv4, _⟩ := initQueue_spec hP allBytes a3 [] _ inv3 (by simp) (by simp) nodup_allBytes
  have inv4' : FInv P nm a4 ([] ++ q) (Reached nm []) := by
    rw [List.nil_append]
    convert inv4 using 2 with w
    simp [Reached, mem_allBytes]
  obtain ⟨a5, e5, hl5, sk5, fin5⟩ := fillLoop_spec hP a4.length a4 [] q inv4' (by simp)
  refine ⟨a5, nm, ?_, sk5, fin5⟩
  obtain ⟨st, hst⟩ := sk5.get (i := START) (by have := sk5.len; simp [START]; omega)
  have hsm : st.isMatch = false := by simp [State.isMatch, sk5.rootM st hst]
  simp only [build, Option.bind_eq_bind]
  rw [e1]
  simp only [Option.bind_some, e2, e3, fillFailure, Option.bind_eq_bind, e4, e5, hst, hsm]
  simp

end Upon.AC
