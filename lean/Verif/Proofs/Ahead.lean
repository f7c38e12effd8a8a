import Verif.Spec.Ahead
import Verif.Proofs.Known
import Verif.Proofs.Refactor
/-
Templates rendered ahead mean the same (for C82).
-/
namespace Upon
open Spec

namespace Plain
section
variable {g : Value} {ls : List (Str × Local)}

theorem follow_picks {v : Value} {p : List ValueMember} {x : Value} (h : Picks v p x) : follow v p = .ok (some x) := by
  induction h with
  | here => rfl
  | @key m k op x p y hk _ ih =>
    rw [follow, show lookup (.map m) ⟨op, .key k⟩ = .ok (some x) by cases op <;> simp only [lookup, hk]]
    exact ih
  | @index l i op x p y hk _ ih =>
    rw [follow, show lookup (.list l) ⟨op, .index i⟩ = .ok (some x) by cases op <;> simp only [lookup, hk]]
    exact ih

theorem lookup_straight (v : Value) (a : ValueAccess) : lookup v ⟨.direct, a⟩ ≠ .ok none := by
  unfold lookup
  intro h
  split at h <;> (try split at h) <;> simp_all [fail]

theorem follow_straight {p : List ValueMember} (h : ∀ m ∈ p, m.op = .direct) (v : Value) : follow v p ≠ .ok none := by
  induction p generalizing v with
  | nil => simp [follow]
  | cons m p ih =>
    obtain ⟨op, a⟩ := m
    cases (h _ List.mem_cons_self : op = .direct)
    have := lookup_straight v a
    rw [follow]
    split
    · exact ih (fun m hm => h m (List.mem_cons_of_mem _ hm)) _
    · rename_i h1; exact absurd h1 this
    · simp
    · simp

/-- The first member of a variable. -/
abbrev head (n : Str) : ValueMember := ⟨.direct, .key n⟩

/-- The binding is that of variables with these names. -/
structure Binds (b : Binding) (ns : List Str) : Prop where
  others : ∀ n, n ∉ ns → ∀ p, get b n (head n) p = .ok none
  direct : ∀ n ∈ ns, ∀ p, (∀ m ∈ p, m.op = .direct) → get b n (head n) p ≠ .ok none

/-- The binding is that of these variables, with these values. -/
structure Gives (b : Binding) (es : List (Str × Local)) : Prop where
  others : ∀ n, es.lookup n = none → ∀ p, get b n (head n) p = .ok none
  value : ∀ n v lent, es.lookup n = some (.is v lent) → ∀ p x, Picks v p x → ∃ c, get b n (head n) p = .ok (some c) ∧ c.val = x ∧ (lent = true → c = .borrowed x)
  known : ∀ n, es.lookup n ≠ some .stays

/-- What the scopes of the two templates have to do with each other. -/
structure Fits (g : Value) (ls : List (Str × Local)) (ρ ρ' : Scope) : Prop where
  known : ∀ n p x lent, AheadVar g ls n p x lent → ∃ c, resolve ρ n (head n) p = .ok c ∧ c.val = x ∧ (lent = true → c = .borrowed x)
  left : ∀ n p, LeftVar ls n p → resolve ρ n (head n) p = resolve ρ' n (head n) p
  same : AllStay ls → ρ = ρ'

theorem fits_globals (g : Value) : Fits g [] [.globals (.borrowed g)] [.globals (.borrowed g)] where
  known n p x lent h := by
    cases h with
    | global _ h => exact ⟨_, rests_globals g n (by simp) p x h, rfl, fun _ => rfl⟩
    | local_ h _ => cases h
  left _ _ _ := rfl
  same _ := rfl

theorem resolve_none {b : Binding} {n : Str} {p : List ValueMember} (h : get b n (head n) p = .ok none) (ρ : Scope) :
    resolve (b :: ρ) n (head n) p = resolve ρ n (head n) p := by rw [resolve, h]; rfl

theorem resolve_some {b : Binding} {n : Str} {p : List ValueMember} {c : Cow} (h : get b n (head n) p = .ok (some c)) (ρ : Scope) :
    resolve (b :: ρ) n (head n) p = .ok c := by rw [resolve, h]; rfl

theorem resolve_own {b : Binding} {n : Str} {p : List ValueMember} (h : get b n (head n) p ≠ .ok none) (ρ ρ' : Scope) :
    resolve (b :: ρ) n (head n) p = resolve (b :: ρ') n (head n) p := by
  rw [resolve, resolve]
  cases hg : get b n (head n) p with
  | ok o =>
    cases o with
    | none => exact absurd hg h
    | some c => rfl
  | err e => rfl
  | crash => rfl

theorem lookup_stays (ns : List Str) (n : Str) : (ns.map (fun m => (m, Local.stays))).lookup n = if n ∈ ns then some .stays else none := by
  induction ns with
  | nil => rfl
  | cons m ns ih =>
    rw [List.map_cons, List.lookup_cons, ih]
    by_cases h : n = m
    · subst h; simp
    · simp [h, beq_false_of_ne h]

theorem lookup_or (es ls : List (Str × Local)) (n : Str) : (es ++ ls).lookup n = (es.lookup n).or (ls.lookup n) := by
  induction es with
  | nil => rfl
  | cons e es ih =>
    obtain ⟨m, l⟩ := e
    rw [List.cons_append, List.lookup_cons, List.lookup_cons]
    cases n == m <;> simp [ih]

theorem lookup_mem {es : List (Str × Local)} {n : Str} {l : Local} (h : es.lookup n = some l) : (n, l) ∈ es := by
  induction es with
  | nil => cases h
  | cons e es ih =>
    obtain ⟨m, l'⟩ := e
    rw [List.lookup_cons] at h
    cases hb : n == m with
    | true => rw [hb] at h; cases h; rw [eq_of_beq hb]; exact List.mem_cons_self
    | false => rw [hb] at h; exact List.mem_cons_of_mem _ (ih h)

/-- A block that stays. -/
theorem Fits.stay {ρ ρ' : Scope} (h : Fits g ls ρ ρ') {b : Binding} {ns : List Str} (hb : Binds b ns) : Fits g (ns.map (·, .stays) ++ ls) (b :: ρ) (b :: ρ') where
  known n p x lent ha := by
    have hl := lookup_or (ns.map (·, .stays)) ls n
    rw [lookup_stays] at hl
    by_cases hn : n ∈ ns
    · rw [if_pos hn] at hl
      cases ha with
      | global h _ => rw [hl] at h; cases h
      | local_ h _ => rw [hl] at h; cases h
    · rw [if_neg hn] at hl
      rw [resolve_none (hb.others n hn p)]
      cases ha with
      | global h1 h2 => rw [hl] at h1; exact h.known _ _ _ _ (.global h1 h2)
      | local_ h1 h2 => rw [hl] at h1; exact h.known _ _ _ _ (.local_ h1 h2)
  left n p ha := by
    have hl := lookup_or (ns.map (·, .stays)) ls n
    rw [lookup_stays] at hl
    by_cases hn : n ∈ ns
    · cases ha with
      | never h1 =>
        rw [resolve, resolve, h.left n p (.never fun v l k => h1 v l (List.mem_append_right _ k))]
      | inside _ h2 => exact resolve_own (hb.direct n hn p h2) _ _
    · rw [if_neg hn] at hl
      rw [resolve_none (hb.others n hn p), resolve_none (hb.others n hn p)]
      cases ha with
      | never h1 => exact h.left n p (.never fun v l k => h1 v l (List.mem_append_right _ k))
      | inside h1 h2 => rw [hl] at h1; exact h.left n p (.inside h1 h2)
  same hs := by rw [h.same fun x hx => hs x (List.mem_append_right _ hx)]

/-- A block that disappears. -/
theorem Fits.gone {ρ ρ' : Scope} (h : Fits g ls ρ ρ') {b : Binding} {es : List (Str × Local)} (hb : Gives b es) (hne : es ≠ []) : Fits g (es ++ ls) (b :: ρ) ρ' where
  known n p x lent ha := by
    have hl := lookup_or es ls n
    cases he : es.lookup n with
    | none =>
      rw [he] at hl
      rw [resolve_none (hb.others n he p)]
      cases ha with
      | global h1 h2 => rw [hl] at h1; exact h.known _ _ _ _ (.global h1 h2)
      | local_ h1 h2 => rw [hl] at h1; exact h.known _ _ _ _ (.local_ h1 h2)
    | some l =>
      rw [he] at hl
      cases ha with
      | global h1 _ => rw [hl] at h1; cases h1
      | local_ h1 h2 =>
        rw [hl] at h1
        cases h1
        obtain ⟨c, hc, k⟩ := hb.value _ _ _ he p x h2
        exact ⟨c, resolve_some hc _, k⟩
  left n p ha := by
    have hl := lookup_or es ls n
    cases he : es.lookup n with
    | none =>
      rw [he] at hl
      rw [resolve_none (hb.others n he p)]
      cases ha with
      | never h1 => exact h.left n p (.never fun v l k => h1 v l (List.mem_append_right _ k))
      | inside h1 h2 => rw [hl] at h1; exact h.left n p (.inside h1 h2)
    | some l =>
      cases l with
      | stays => exact absurd he (hb.known n)
      | is v lent =>
        cases ha with
        | never h1 => exact absurd (List.mem_append_left _ (lookup_mem he)) (h1 v lent)
        | inside h1 _ => rw [hl, he] at h1; cases h1
  same hs := by
    cases es with
    | nil => exact absurd rfl hne
    | cons e es =>
      obtain ⟨n, l⟩ := e
      cases (hs (n, l) List.mem_cons_self : l = .stays)
      exact absurd (by simp [List.lookup_cons]) (hb.known n)

/-! Bindings -/

theorem loop_others (i a : Nat) (p : List ValueMember) (h : ∀ m ∈ p, m.op = .direct) : loopInfo i a p ≠ .ok none := by
  cases p with
  | nil => simp [loopInfo]
  | cons m p =>
    obtain ⟨op, acc⟩ := m
    cases (h _ List.mem_cons_self : op = .direct)
    cases acc with
    | index j => simp [loopInfo, fail]
    | key k =>
      simp only [loopInfo]
      intro e
      revert e
      generalize (if k = "index".toList then Res.ok (Value.integer i) else _ : Res Value) = r
      cases r with
      | ok v => cases p <;> simp [fail, Res.ok_bind]
      | err e => intro e; cases e
      | crash => intro e; cases e

theorem item_straight (c : Cow) {p : List ValueMember} (h : ∀ m ∈ p, m.op = .direct) : followItem c p ≠ .ok none := by
  have := follow_straight h c.val
  rw [followItem]
  split
  · simp
  · rename_i k; exact absurd k this
  · simp
  · simp

theorem binds_name (n : Str) (c : Cow) : Binds (.name (fun _ => some n) c) [n] where
  others m hm p := by
    rw [get, if_neg]
    intro e
    cases e
    exact hm List.mem_cons_self
  direct m hm p hp := by
    cases List.mem_singleton.mp hm
    rw [get, if_pos rfl]
    cases followCow c p with
    | ok r => simp [Res.ok_bind]
    | err e => intro e; cases e
    | crash => intro e; cases e

theorem binds_item (n : Str) (c : Cow) (i a : Nat) : Binds (.item n c i a) (Vars.item n).names where
  others m hm p := by
    simp only [Vars.names, List.mem_cons, not_or] at hm
    rw [get]
    dsimp only
    rw [if_neg hm.1, if_neg hm.2.1]
  direct m hm p hp := by
    rw [get]
    dsimp only
    by_cases h1 : m = "loop".toList
    · rw [if_pos h1]; exact loop_others i a p hp
    · rw [if_neg h1]
      by_cases h2 : m = n
      · rw [if_pos h2]; exact item_straight c hp
      · simp only [Vars.names, List.mem_cons, h1, h2, List.not_mem_nil, or_self] at hm

theorem binds_entry (k v key : Str) (c : Cow) (i a : Nat) : Binds (.entry k v key c i a) (Vars.keyValue k v).names where
  others m hm p := by
    simp only [Vars.names, List.mem_cons, not_or] at hm
    rw [get.eq_def]
    dsimp only
    rw [if_neg hm.1, if_neg hm.2.1, if_neg hm.2.2.1]
  direct m hm p hp := by
    rw [get.eq_def]
    dsimp only
    by_cases h1 : m = "loop".toList
    · rw [if_pos h1]; exact loop_others i a p hp
    · rw [if_neg h1]
      by_cases h2 : m = k
      · rw [if_pos h2]; cases p <;> simp [fail]
      · rw [if_neg h2]
        by_cases h3 : m = v
        · rw [if_pos h3]; exact item_straight c hp
        · simp only [Vars.names, List.mem_cons, h1, h2, h3, List.not_mem_nil, or_self] at hm

theorem list_binds (n : Str) (o : Bool) (l : List Value) (i : Nat) : ∀ b ∈ listRounds n o i l, Binds b (Vars.item n).names := by
  induction l generalizing i with
  | nil => intro b hb; cases hb
  | cons x xs ih =>
    intro b hb
    rw [listRounds, List.mem_cons] at hb
    rcases hb with rfl | hb
    · exact binds_item _ _ _ _
    · exact ih _ b hb

theorem map_binds (k v : Str) (o : Bool) (l : List (Str × Value)) (i : Nat) : ∀ b ∈ mapRounds k v o i l, Binds b (Vars.keyValue k v).names := by
  induction l generalizing i with
  | nil => intro b hb; cases hb
  | cons x xs ih =>
    intro b hb
    obtain ⟨key, x⟩ := x
    rw [mapRounds, List.mem_cons] at hb
    rcases hb with rfl | hb
    · exact binds_entry _ _ _ _ _ _
    · exact ih _ b hb

theorem rounds_bind {vs : Vars} {c : Cow} {bs : List Binding} (hr : rounds vs c = .ok bs) : ∀ b ∈ bs, Binds b vs.names := by
  unfold rounds at hr
  split at hr
  · cases hr; exact list_binds _ _ _ _
  · cases hr
  · cases hr; exact map_binds _ _ _ _ _
  · cases hr
  · cases hr

theorem lookup_two {n m : Str} {l : Local} {es : List (Str × Local)} : ((m, l) :: es).lookup n = if n = m then some l else es.lookup n := by
  rw [List.lookup_cons]
  by_cases h : n = m
  · subst h; simp
  · simp [h, beq_false_of_ne h]

theorem cow_picks {c : Cow} {v x : Value} {lent : Bool} (hv : c.val = v) (hl : lent = true → c = .borrowed v) {p : List ValueMember} (h : Picks v p x) :
    follow c.val p = .ok (some x) ∧ (like c x).val = x ∧ (lent = true → like c x = .borrowed x) := by
  refine ⟨by rw [hv]; exact follow_picks h, by cases c <;> rfl, fun k => ?_⟩
  rw [hl k]; rfl

theorem gives_name (n : Str) {c : Cow} {v : Value} {lent : Bool} (hv : c.val = v) (hl : lent = true → c = .borrowed v) :
    Gives (.name (fun _ => some n) c) [(n, .is v lent)] where
  others m hm p := by
    rw [lookup_two] at hm
    split at hm
    · cases hm
    · rename_i h
      exact (binds_name n c).others m (by simp [h]) p
  value m w lent' hm p x hx := by
    rw [lookup_two] at hm
    split at hm
    · rename_i h
      cases hm
      cases h
      obtain ⟨h1, h2, h3⟩ := cow_picks hv hl hx
      refine ⟨like c x, ?_, h2, h3⟩
      rw [get, if_pos rfl, followCow, h1]
      rfl
    · cases hm
  known m := by
    rw [lookup_two]
    split
    · simp
    · simp

theorem loop_gives {i a : Nat} {w x : Value} {p : List ValueMember} {lent : Bool}
    (hm : some (loopLocal i (i + a + 1)).2 = some (.is w lent)) (hx : Picks w p x) :
    ∃ c, loopInfo i a p = .ok (some c) ∧ c.val = x ∧ (lent = true → c = .borrowed x) := by
  have hb : (i + 1 == i + a + 1) = (a == 0) := by
    cases a with
    | zero => simp
    | succ a =>
      have : (i + 1 == i + (a + 1) + 1) = false := by rw [beq_eq_false_iff_ne]; omega
      rw [this]; rfl
  simp only [loopLocal, hb, Option.some.injEq, Local.is.injEq] at hm
  obtain ⟨rfl, rfl⟩ := hm
  cases hx with
  | here => exact ⟨_, rfl, rfl, fun k => by cases k⟩
  | @key m k op y p _ hk hy =>
    have key : (k = "index".toList ∧ y = .integer i) ∨ (k = "first".toList ∧ y = .bool (i == 0)) ∨ (k = "last".toList ∧ y = .bool (a == 0)) := by
      simp only [BMap.get] at hk
      split at hk
      · rename_i h; cases hk; exact .inr (.inl ⟨by simpa using h.symm, rfl⟩)
      · split at hk
        · rename_i h; cases hk; exact .inl ⟨by simpa using h.symm, rfl⟩
        · split at hk
          · rename_i h; cases hk; exact .inr (.inr ⟨by simpa using h.symm, rfl⟩)
          · cases hk
    rcases key with ⟨rfl, rfl⟩ | ⟨rfl, rfl⟩ | ⟨rfl, rfl⟩ <;> cases hy
    · exact ⟨_, rfl, rfl, fun k => by cases k⟩
    · exact ⟨_, rfl, rfl, fun k => by cases k⟩
    · exact ⟨_, rfl, rfl, fun k => by cases k⟩

theorem gives_item (n : Str) {c : Cow} {v : Value} {lent : Bool} (hv : c.val = v) (hl : lent = true → c = .borrowed v) (i a : Nat) :
    Gives (.item n c i a) [loopLocal i (i + a + 1), (n, .is v lent)] where
  others m hm p := by
    rw [loopLocal, lookup_two, lookup_two] at hm
    split at hm
    · cases hm
    · split at hm
      · cases hm
      · rename_i h1 h2
        exact (binds_item n c i a).others m (by simp only [Vars.names, List.mem_cons, h1, h2, List.not_mem_nil, or_self, not_false_eq_true]) p
  value m w lent' hm p x hx := by
    rw [show loopLocal i (i + a + 1) = ("loop".toList, (loopLocal i (i + a + 1)).2) from rfl, lookup_two, lookup_two] at hm
    rw [get]
    dsimp only
    split at hm
    · rename_i h
      rw [if_pos h]
      exact loop_gives hm hx
    · rename_i h
      rw [if_neg h]
      split at hm
      · rename_i h2
        rw [if_pos h2]
        cases hm
        obtain ⟨h1, h2, h3⟩ := cow_picks hv hl hx
        exact ⟨like c x, by rw [followItem, h1], h2, h3⟩
      · cases hm
  known m := by
    rw [loopLocal, lookup_two, lookup_two]
    split
    · simp
    · split <;> simp

theorem gives_entry (k v key : Str) {c : Cow} {x : Value} {lent : Bool} (hv : c.val = x) (hl : lent = true → c = .borrowed x) (i a : Nat) :
    Gives (.entry k v key c i a) [loopLocal i (i + a + 1), (k, .is (.string key) false), (v, .is x lent)] where
  others m hm p := by
    rw [loopLocal, lookup_two, lookup_two, lookup_two] at hm
    split at hm
    · cases hm
    · split at hm
      · cases hm
      · split at hm
        · cases hm
        · rename_i h1 h2 h3
          exact (binds_entry k v key c i a).others m (by simp only [Vars.names, List.mem_cons, h1, h2, h3, List.not_mem_nil, or_self, not_false_eq_true]) p
  value m w lent' hm p y hy := by
    rw [show loopLocal i (i + a + 1) = ("loop".toList, (loopLocal i (i + a + 1)).2) from rfl, lookup_two, lookup_two, lookup_two] at hm
    rw [get.eq_def]
    dsimp only
    split at hm
    · rename_i h
      rw [if_pos h]
      exact loop_gives hm hy
    · rename_i h
      rw [if_neg h]
      split at hm
      · rename_i h2
        rw [if_pos h2]
        cases hm
        cases hy
        exact ⟨_, rfl, rfl, fun k => by cases k⟩
      · rename_i h2
        rw [if_neg h2]
        split at hm
        · rename_i h3
          rw [if_pos h3]
          cases hm
          obtain ⟨h1, h2, h3⟩ := cow_picks hv hl hy
          exact ⟨like c y, by rw [followItem, h1], h2, h3⟩
        · cases hm
  known m := by
    rw [loopLocal, lookup_two, lookup_two, lookup_two]
    split
    · simp
    · split
      · simp
      · split <;> simp

/-! Expressions -/

variable {ρ ρ' : Scope}

theorem offer_kept {env : Env} {t : ArgTy} {x : Value} {lent : Bool} (h : ByRef t → lent = true) : offer env .argument lent t x = offer env .argument true t x := by
  cases lent with
  | true => rfl
  | false =>
    have : ¬ ByRef t := fun k => by cases h k
    unfold offer
    split
    · rfl
    · simp [this]

theorem args_ahead (hρ : Fits g ls ρ ρ') (env : Env) {ts : List ArgTy} {bs : List Base} {xs : List Value} (h : AheadArgs g ls ts bs xs) {as : List ArgVal}
    (ha : given env ts xs = .ok as) : evalArgs env ρ ts bs = .ok as := by
  induction h generalizing as with
  | nil => cases ha; rfl
  | @var t ts n p x lent bs xs hx hl _ ih =>
    obtain ⟨c, hc, hv, hb⟩ := hρ.known _ _ _ _ hx
    have e : evalArg env ρ t (.var n ⟨.direct, .key n⟩ p) = match offer env .argument true t x with | .ok a => .ok a | .error msg => fail msg := by
      rw [evalArg, hc, Res.ok_bind]
      cases c with
      | borrowed y => cases hv; rfl
      | owned y =>
        cases hv
        have : ByRef t → false = true := fun k => by cases hb (hl k)
        dsimp only [Cow.val]
        rw [offer_kept this]
        rfl
    rw [given] at ha
    rw [evalArgs, e]
    cases ho : offer env .argument true t x with
    | error m => rw [ho] at ha; cases ha
    | ok a =>
      rw [ho] at ha
      dsimp only at ha
      cases hg : given env ts xs with
      | error m => rw [hg] at ha; cases ha
      | ok as' =>
        rw [hg] at ha
        cases ha
        dsimp only
        rw [Res.ok_bind, ih hg, Res.ok_bind]
  | @lit t ts x bs xs _ ih =>
    rw [given] at ha
    rw [evalArgs, evalArg]
    cases ho : offer env .argument true t x with
    | error m => rw [ho] at ha; cases ha
    | ok a =>
      rw [ho] at ha
      dsimp only at ha
      cases hg : given env ts xs with
      | error m => rw [hg] at ha; cases ha
      | ok as' =>
        rw [hg] at ha
        cases ha
        dsimp only
        rw [Res.ok_bind, ih hg, Res.ok_bind]

theorem AheadArgs.length {ts : List ArgTy} {bs : List Base} {xs : List Value} (h : AheadArgs g ls ts bs xs) : bs.length = xs.length := by
  induction h with
  | nil => rfl
  | var _ _ _ ih => rw [List.length_cons, List.length_cons, ih]
  | lit _ ih => rw [List.length_cons, List.length_cons, ih]

theorem apply_ahead (hρ : Fits g ls ρ ρ') {env : Env} {f : Filter} {c : Cow} {bs : List Base} {xs : List Value} {x : Value}
    (h : AheadArgs g ls f.args bs xs) (ha : answers env f xs c.val = .value x) : applyFilter env ρ f c bs = .ok x := by
  rw [answers] at ha
  rw [applyFilter, h.length]
  split at ha
  · cases ha
  · rename_i hl
    rw [if_neg hl]
    cases ho : offer env .value true f.val c.val with
    | error m => rw [ho] at ha; cases ha
    | ok a =>
      rw [ho] at ha
      dsimp only at ha ⊢
      cases hg : given env f.args xs with
      | error m => rw [hg] at ha; cases ha
      | ok as =>
        rw [hg] at ha
        rw [args_ahead hρ env h hg, Res.ok_bind]
        dsimp only at ha ⊢
        cases hc : f.call a as with
        | ok r => rw [hc] at ha; cases ha; rfl
        | error m => rw [hc] at ha; cases ha

variable {cfg : Cfg}

theorem expr_ahead (hρ : Fits g ls ρ ρ') {e : Expr} {x : Value} {lent : Bool} (h : AheadExpr cfg.env cfg.functions g ls e x lent) :
    ∃ c, evalExpr cfg ρ e = .ok c ∧ c.val = x ∧ (lent = true → c = .borrowed x) := by
  induction h with
  | var h => rw [evalExpr, evalBase]; exact hρ.known _ _ _ _ h
  | lit => exact ⟨_, rfl, rfl, fun k => by cases k⟩
  | call _ hf ha hx ih =>
    obtain ⟨c, hc, rfl, _⟩ := ih
    rw [evalExpr, hc, Res.ok_bind, hf]
    dsimp only
    rw [apply_ahead hρ ha hx]
    exact ⟨_, rfl, rfl, fun k => by cases k⟩

theorem tag_ahead (hρ : Fits g ls ρ ρ') (name : Option Str) {e : Expr} {t : Str} (h : AheadTag cfg.env cfg.functions cfg.defaultFormatter g ls e t) (w : World Str) :
    emitExpr cfg name ρ e w = .ok { w with out := w.out ++ t } := by
  cases h with
  | @value _ y _ _ he ht =>
    cases he with
    | var hb =>
      obtain ⟨c, hc, rfl, _⟩ := hρ.known _ _ _ _ hb
      simp only [emitExpr, evalExpr, evalBase, hc, andThen, write, ht w.out]
    | lit => simp only [emitExpr, evalExpr, evalBase, andThen, write, Cow.val, ht w.out]
    | @call n args e v lent f xs x he hf ha hx =>
      obtain ⟨c, hc, rfl, _⟩ := expr_ahead hρ he
      have hf : BMap.get cfg.functions n = some (.filter f) := hf
      have k := apply_ahead hρ (c := c) ha hx
      cases args with
      | none =>
        have k : applyFilter cfg.env ρ f c [] = .ok y := k
        simp only [emitExpr, hc, andThen, hf, k, write, ht w.out]
      | some as =>
        have k : applyFilter cfg.env ρ f c as = .ok y := k
        simp only [emitExpr, evalExpr, hc, Res.ok_bind, andThen, hf, Option.getD_some, k, Cow.val, write, ht w.out]
  | formatter he hf ht =>
    obtain ⟨c, hc, rfl, _⟩ := expr_ahead hρ he
    simp only [emitExpr, hc, andThen, hf, write, ht w.out]

theorem base_left (hρ : Fits g ls ρ ρ') {b : Base} (h : LeftBase ls b) : evalBase ρ b = evalBase ρ' b := by
  cases h with
  | var h => exact hρ.left _ _ h
  | lit => rfl

theorem arg_left (hρ : Fits g ls ρ ρ') (env : Env) (t : ArgTy) {b : Base} (h : LeftBase ls b) : evalArg env ρ t b = evalArg env ρ' t b := by
  cases h with
  | var h => rw [evalArg, evalArg, hρ.left _ _ h]
  | lit => rfl

theorem args_left (hρ : Fits g ls ρ ρ') (env : Env) (ts : List ArgTy) {bs : List Base} (h : ∀ b ∈ bs, LeftBase ls b) : evalArgs env ρ ts bs = evalArgs env ρ' ts bs := by
  induction bs generalizing ts with
  | nil => cases ts <;> rfl
  | cons b bs ih =>
    cases ts with
    | nil => rfl
    | cons t ts => rw [evalArgs, evalArgs, arg_left hρ env t (h b List.mem_cons_self), ih ts fun b hb => h b (List.mem_cons_of_mem _ hb)]

theorem vars_left (hρ : Fits g ls ρ ρ') {e : Expr} (h : LeftVars ls e) : evalExpr cfg ρ e = evalExpr cfg ρ' e := by
  induction h with
  | base h => exact base_left hρ h
  | call _ ha ih =>
    rw [evalExpr, evalExpr, ih]
    simp only [applyFilter, args_left hρ _ _ ha]

theorem expr_left (hρ : Fits g ls ρ ρ') {e : Expr} (h : Left ls e) : evalExpr cfg ρ e = evalExpr cfg ρ' e := by
  rcases h with h | h
  · rw [hρ.same h]
  · exact vars_left hρ h

theorem emit_left (hρ : Fits g ls ρ ρ') (name : Option Str) {e : Expr} (h : Left ls e) (w : World Str) : emitExpr cfg name ρ e w = emitExpr cfg name ρ' e w := by
  rcases h with h | h
  · rw [hρ.same h]
  · cases h with
    | base h => simp only [emitExpr, evalExpr, base_left hρ h]
    | @call n args e h ha =>
      cases args with
      | none => simp only [emitExpr, vars_left hρ h, applyFilter, args_left hρ _ _ (bs := []) (by simp)]
      | some as => simp only [emitExpr, vars_left hρ (.call (n := n) h ha)]

/-! Rounds written out -/

theorem items_out (inc : Include) (name : Option Str) (n : Str) (o : Bool) (body : List Stmt) {rounds : Nat → List Stmt} {l : List Value} {i : Nat}
    (h : ∀ j x, l[j]? = some x → ∀ w,
      evalStmts cfg inc name (.item n (if o then .owned x else .borrowed x) (i + j) (l.length - 1 - j) :: ρ) body w = evalStmts cfg inc name ρ' (rounds (i + j)) w) (w : World Str) :
    forEach (fun b => evalStmts cfg inc name (b :: ρ) body) (listRounds n o i l) w = evalStmts cfg inc name ρ' ((List.range' i l.length).flatMap rounds) w := by
  induction l generalizing i w with
  | nil => rw [listRounds, forEach, List.length_nil, List.range'_zero, List.flatMap_nil, evalStmts]
  | cons x l ih =>
    rw [listRounds, forEach, List.length_cons, List.range'_succ, List.flatMap_cons, evalStmts_append]
    have h0 := h 0 x rfl w
    rw [List.length_cons, Nat.add_sub_cancel, Nat.sub_zero, Nat.add_zero] at h0
    rw [h0]
    congr 1
    funext w
    refine ih (fun j y hy w => ?_) w
    have := h (j + 1) y (by simpa using hy) w
    rw [show i + (j + 1) = i + 1 + j by omega, show (x :: l).length - 1 - (j + 1) = l.length - 1 - j by rw [List.length_cons]; omega] at this
    exact this

theorem entries_out (inc : Include) (name : Option Str) (k v : Str) (o : Bool) (body : List Stmt) {rounds : Nat → List Stmt} {l : List (Str × Value)} {i : Nat}
    (h : ∀ j key x, l[j]? = some (key, x) → ∀ w,
      evalStmts cfg inc name (.entry k v key (if o then .owned x else .borrowed x) (i + j) (l.length - 1 - j) :: ρ) body w = evalStmts cfg inc name ρ' (rounds (i + j)) w)
    (w : World Str) :
    forEach (fun b => evalStmts cfg inc name (b :: ρ) body) (mapRounds k v o i l) w = evalStmts cfg inc name ρ' ((List.range' i l.length).flatMap rounds) w := by
  induction l generalizing i w with
  | nil => rw [mapRounds, forEach, List.length_nil, List.range'_zero, List.flatMap_nil, evalStmts]
  | cons x l ih =>
    obtain ⟨key, x⟩ := x
    rw [mapRounds, forEach, List.length_cons, List.range'_succ, List.flatMap_cons, evalStmts_append]
    have h0 := h 0 key x rfl w
    rw [List.length_cons, Nat.add_sub_cancel, Nat.sub_zero, Nat.add_zero] at h0
    rw [h0]
    congr 1
    funext w
    refine ih (fun j key' y hy w => ?_) w
    have := h (j + 1) key' y (by simpa using hy) w
    rw [show i + (j + 1) = i + 1 + j by omega, show ((key, x) :: l).length - 1 - (j + 1) = l.length - 1 - j by rw [List.length_cons]; omega] at this
    exact this

theorem lent_part {c : Cow} {x : Value} {lent : Bool} {v : Value} (h : lent = true → c = .borrowed v) :
    ((if isOwned c then Cow.owned x else .borrowed x).val = x) ∧ (lent = true → (if isOwned c then Cow.owned x else .borrowed x) = .borrowed x) := by
  refine ⟨by cases isOwned c <;> rfl, fun k => ?_⟩
  rw [h k]; rfl

theorem stmts_ahead (inc : Include) (hi : Respects inc inc) (name : Option Str) {ss ss' : List Stmt} (h : Ahead cfg.env cfg.functions cfg.defaultFormatter g ls ss ss')
    (hρ : Fits g ls ρ ρ') (w : World Str) : evalStmts cfg inc name ρ ss w = evalStmts cfg inc name ρ' ss' w := by
  induction h generalizing ρ ρ' w with
  | nil => rfl
  | shown ht _ ih =>
    rw [evalStmts_append, evalStmts_chars, evalStmts, evalStmt, tag_ahead hρ name ht, seq_known, seq_known]
    exact ih hρ _
  | holds hb ht _ _ iha ih =>
    obtain ⟨c, hc, rfl, _⟩ := expr_ahead hρ hb
    rw [evalStmts_append, evalStmts, evalStmt.eq_def]
    simp only [hc, andThen, if_pos ht, iha hρ]
    congr 1
    funext w
    exact ih hρ w
  | fails hb ht _ _ iha ih =>
    obtain ⟨c, hc, rfl, _⟩ := expr_ahead hρ hb
    rw [evalStmts_append, evalStmts, evalStmt]
    simp only [hc, andThen, ht, ne_eq, not_true_eq_false, if_false, iha hρ]
    congr 1
    funext w
    exact ih hρ w
  | skipped hb ht _ ih =>
    obtain ⟨c, hc, rfl, _⟩ := expr_ahead hρ hb
    rw [evalStmts, evalStmt]
    simp only [hc, andThen, ht, ne_eq, not_true_eq_false, if_false, seq_known]
    exact ih hρ w
  | @items ls n e l lent body ss ss' rs he _ _ ihb ih =>
    obtain ⟨c, hc, hv, hl⟩ := expr_ahead hρ he
    rw [evalStmts_append, evalStmts, evalStmt]
    simp only [hc, andThen, rounds, hv]
    rw [items_out (ρ' := ρ') (rounds := rs) inc name n (isOwned c) body, List.range_eq_range']
    · congr 1
      funext w
      exact ih hρ w
    · intro j x hx w
      rw [Nat.zero_add]
      refine ihb j x hx ?_ w
      have hj : j < l.length := (List.getElem?_eq_some_iff.mp hx).1
      have hg := hρ.gone (gives_item n (lent_part (x := x) hl).1 (lent_part (x := x) hl).2 j (l.length - 1 - j)) (by simp)
      rw [show j + (l.length - 1 - j) + 1 = l.length by omega] at hg
      exact hg
  | @entries ls k v e m lent body ss ss' rs he _ _ ihb ih =>
    obtain ⟨c, hc, hv, hl⟩ := expr_ahead hρ he
    rw [evalStmts_append, evalStmts, evalStmt]
    simp only [hc, andThen, rounds, hv]
    rw [entries_out (ρ' := ρ') (rounds := rs) inc name k v (isOwned c) body, List.range_eq_range']
    · congr 1
      funext w
      exact ih hρ w
    · intro j key x hx w
      rw [Nat.zero_add]
      refine ihb j key x hx ?_ w
      have hj : j < m.length := (List.getElem?_eq_some_iff.mp hx).1
      have hg := hρ.gone (gives_entry k v key (lent_part (x := x) hl).1 (lent_part (x := x) hl).2 j (m.length - 1 - j)) (by simp)
      rw [show j + (m.length - 1 - j) + 1 = m.length by omega] at hg
      exact hg
  | named he _ _ ihb ih =>
    obtain ⟨c, hc, hv, hl⟩ := expr_ahead hρ he
    rw [evalStmts_append, evalStmts, evalStmt]
    simp only [hc, andThen]
    rw [ihb (hρ.gone (gives_name _ hv hl) (by simp))]
    congr 1
    funext w
    exact ih hρ w
  | char _ ih => rw [evalStmts, evalStmts, evalStmt, evalStmt]; congr 1; funext w; exact ih hρ w
  | expr he _ ih => rw [evalStmts, evalStmts, evalStmt, evalStmt, emit_left hρ name he]; congr 1; funext w; exact ih hρ w
  | include_ hs _ ih => cases hρ.same hs; rw [evalStmts, evalStmts]; congr 1; funext w; exact ih hρ w
  | includeWith he _ ih =>
    rw [evalStmts, evalStmts, evalStmt, evalStmt, expr_left hρ he]
    congr 1
    · congr 1
      funext v
      exact hi _ _ _ _ _ (Under.walled v ρ ρ')
    · funext w; exact ih hρ w
  | ifThen hc _ _ iha ih =>
    rw [evalStmts, evalStmts, evalStmt, evalStmt, expr_left hρ hc]
    simp only [iha hρ]
    congr 1
    funext w
    exact ih hρ w
  | ifElse hc _ _ _ iha ihb ih =>
    rw [evalStmts, evalStmts, evalStmt, evalStmt, expr_left hρ hc]
    simp only [iha hρ, ihb hρ]
    congr 1
    funext w
    exact ih hρ w
  | @for_ ls vs e b b' ss ss' he _ _ ihb ih =>
    rw [evalStmts, evalStmts, evalStmt, evalStmt, expr_left hρ he]
    congr 1
    · congr 1
      funext v
      cases hr : rounds vs v with
      | ok bs => exact forEach_fill (fun b hb w => ihb (hρ.stay (rounds_bind hr b hb)) w) w
      | err e => rfl
      | crash => rfl
    · funext w
      exact ih hρ w
  | with_ he _ _ ihb ih =>
    rw [evalStmts, evalStmts, evalStmt, evalStmt, expr_left hρ he]
    congr 1
    · congr 1
      funext v
      exact ihb (hρ.stay (binds_name _ v)) w
    · funext w
      exact ih hρ w

theorem Answers.refl {E : List Stmt → List Stmt → Prop} (hE : ∀ a, E a a) (x : Except String (List Stmt)) : Answers E x x := by
  cases x with
  | ok a => exact .found (hE a)
  | error e => exact .refused e

theorem respects_self (cfg : Cfg) (left : Nat) : Respects (include_ cfg left) (include_ cfg left) :=
  respects_include (P := fun _ => True) (E := Eq) (fun h _ _ _ k _ _ hi name _ _ hρ w => by cases h; exact agree_stmts k hi name hρ _ w) trivial ⟨rfl, rfl, rfl⟩ rfl rfl
    (fun _ _ => .refl (fun _ => rfl) _) left

theorem render_ahead {ss ss' : List Stmt} (h : Ahead cfg.env cfg.functions cfg.defaultFormatter g [] ss ss') (name : Option Str) (w : World Str) :
    render cfg ss name [.globals (.borrowed g)] w = render cfg ss' name [.globals (.borrowed g)] w :=
  stmts_ahead _ (respects_self _ _) name h (fits_globals g) w

end
end Plain
end Upon
