import Verif.Spec.Alone
import Verif.Proofs.Ahead
import Verif.Props.Related
/-
What renders without an error can be rendered ahead (for C82).
-/
namespace Upon
open Spec

namespace Plain
section
variable {g : Value} {ls : List (Str × Local)} {ρ : Scope}

theorem lookup_done {v x : Value} {m : ValueMember} (h : lookup v m = .ok (some x)) :
    (∃ l i, v = .list l ∧ m.access = .index i ∧ l[i]? = some x) ∨ (∃ mp k, v = .map mp ∧ m.access = .key k ∧ BMap.get mp k = some x) := by
  unfold lookup at h
  split at h
  · rename_i l i hv
    split at h <;> simp_all [fail]
  · rename_i mp k hv
    split at h <;> simp_all [fail]
  · simp [fail] at h
  · simp [fail] at h

theorem follow_done {v x : Value} {p : List ValueMember} (h : follow v p = .ok (some x)) : Picks v p x := by
  induction p generalizing v with
  | nil => cases h; exact .here
  | cons m p ih =>
    rw [follow] at h
    split at h
    · rename_i y hl
      obtain ⟨op, a⟩ := m
      rcases lookup_done hl with ⟨l, i, rfl, ha, hi⟩ | ⟨mp, k, rfl, ha, hi⟩
      · cases ha; exact .index hi (ih h)
      · cases ha; exact .key hi (ih h)
    · cases h
    · cases h
    · cases h

theorem Picks.goes {v x : Value} {p : List ValueMember} (h : Picks v p x) : GoesTo v p x := by
  induction h with
  | here => exact .here
  | key h _ ih => exact .key h ih
  | index h _ ih => exact .index h ih

/-- Not owned. -/
def lentCow (c : Cow) : Bool := !isOwned c

theorem lent_like (c : Cow) (x : Value) : lentCow (like c x) = lentCow c := by cases c <;> rfl
theorem val_like (c : Cow) (x : Value) : (like c x).val = x := by cases c <;> rfl

/-- The variables that are bound are all known. -/
def AllKnown (g : Value) (ls : List (Str × Local)) (ρ : Scope) : Prop :=
  ∀ n p c, (∀ m ∈ p, m.op = .direct) → resolve ρ n (head n) p = .ok c → AheadVar g ls n p c.val (lentCow c)

theorem sees_globals (g : Value) : AllKnown g [] [.globals (.borrowed g)] := by
  intro n p c hp h
  rw [resolve, get] at h
  cases hl : lookup (Cow.borrowed g).val (head n) with
  | ok o =>
    rw [hl] at h
    cases o with
    | none => simp [resolve, fail, Res.ok_bind] at h
    | some x =>
      rcases lookup_done hl with ⟨l, i, hv, ha, hi⟩ | ⟨mp, k, hv, ha, hi⟩
      · cases ha
      · cases ha
        have hv : g = .map mp := hv
        subst hv
        simp only [followCow, like, Cow.val] at h
        cases hf : follow x p with
        | ok o =>
          rw [hf] at h
          cases o with
          | none => exact absurd hf (follow_straight hp x)
          | some y =>
            simp only [Res.ok_bind] at h
            cases h
            exact .global rfl (.key hi (follow_done hf).goes)
        | err e => rw [hf] at h; cases h
        | crash => rw [hf] at h; cases h
  | err e => rw [hl] at h; simp [resolve, fail, Res.ok_bind] at h
  | crash => rw [hl] at h; cases h

/-- The binding has these variables and values. -/
structure Offers (b : Binding) (es : List (Str × Local)) : Prop where
  others : ∀ n p, (∀ m ∈ p, m.op = .direct) → get b n (head n) p = .ok none → es.lookup n = none
  value : ∀ n p c, get b n (head n) p = .ok (some c) → (∀ m ∈ p, m.op = .direct) → ∃ v, es.lookup n = some (.is v (lentCow c)) ∧ Picks v p c.val

theorem AllKnown.more (h : AllKnown g ls ρ) {b : Binding} {es : List (Str × Local)} (hb : Offers b es) : AllKnown g (es ++ ls) (b :: ρ) := by
  intro n p c hp hr
  rw [resolve] at hr
  cases hg : get b n (head n) p with
  | ok o =>
    rw [hg] at hr
    cases o with
    | none =>
      have hl := lookup_or es ls n
      rw [hb.others n p hp hg] at hl
      have hl : (es ++ ls).lookup n = ls.lookup n := hl
      have k := h n p c hp hr
      generalize c.val = x, lentCow c = b at k
      cases k with
      | global h1 h2 => exact .global (hl ▸ h1) h2
      | local_ h1 h2 => exact .local_ (hl ▸ h1) h2
    | some c' =>
      cases hr
      obtain ⟨v, h1, h2⟩ := hb.value n p c hg hp
      exact .local_ (by rw [lookup_or, h1]; rfl) h2
  | err e => rw [hg] at hr; cases hr
  | crash => rw [hg] at hr; cases hr

theorem shown_name (n : Str) (c : Cow) : Offers (.name (fun _ => some n) c) [(n, .is c.val (lentCow c))] where
  others m p hp h := by
    rw [lookup_two]
    split
    · rename_i e; exact absurd h ((binds_name n c).direct m (by simp [e]) p hp)
    · rfl
  value m p c' h hp := by
    by_cases e : m = n
    · subst e
      refine ⟨c.val, ?_⟩
      rw [lookup_two, if_pos rfl]
      rw [get, if_pos rfl, followCow] at h
      cases hf : follow c.val p with
      | ok o =>
        rw [hf] at h
        cases o with
        | none => exact absurd hf (follow_straight hp _)
        | some y =>
          simp only [Res.ok_bind] at h
          cases h
          exact ⟨by rw [lent_like], by rw [val_like]; exact follow_done hf⟩
      | err e => rw [hf] at h; cases h
      | crash => rw [hf] at h; cases h
    · rw [(binds_name n c).others m (by simp [e]) p] at h; cases h

theorem item_done {c c' : Cow} {p : List ValueMember} (h : followItem c p = .ok (some c')) : lentCow c' = lentCow c ∧ Picks c.val p c'.val := by
  rw [followItem] at h
  split at h
  · rename_i y hf
    cases h
    exact ⟨lent_like _ _, by rw [val_like]; exact follow_done hf⟩
  · cases h
  · cases h
  · cases h

theorem loop_done {i a : Nat} {p : List ValueMember} {c : Cow} (hp : ∀ m ∈ p, m.op = .direct) (h : loopInfo i a p = .ok (some c)) :
    ∃ v, some (loopLocal i (i + a + 1)).2 = some (.is v (lentCow c)) ∧ Picks v p c.val := by
  have hb : (i + 1 == i + a + 1) = (a == 0) := by
    cases a with
    | zero => simp
    | succ a =>
      have : (i + 1 == i + (a + 1) + 1) = false := by rw [beq_eq_false_iff_ne]; omega
      rw [this]; rfl
  rw [loopLocal, hb]
  cases p with
  | nil => cases h; exact ⟨_, rfl, .here⟩
  | cons m p =>
    obtain ⟨op, acc⟩ := m
    cases (hp _ List.mem_cons_self : op = .direct)
    cases acc with
    | index j => simp [loopInfo, fail] at h
    | key k =>
      simp only [loopInfo] at h
      by_cases h1 : k = "index".toList
      · rw [if_pos h1, Res.ok_bind] at h
        cases p with
        | nil => cases h; subst h1; exact ⟨_, rfl, .key rfl .here⟩
        | cons m p => cases h
      · rw [if_neg h1] at h
        by_cases h2 : k = "first".toList
        · rw [if_pos h2, Res.ok_bind] at h
          cases p with
          | nil => cases h; subst h2; exact ⟨_, rfl, .key rfl .here⟩
          | cons m p => cases h
        · rw [if_neg h2] at h
          by_cases h3 : k = "last".toList
          · rw [if_pos h3, Res.ok_bind] at h
            cases p with
            | nil => cases h; subst h3; exact ⟨_, rfl, .key rfl .here⟩
            | cons m p => cases h
          · rw [if_neg h3, if_neg (by decide)] at h
            cases h

theorem shown_item (n : Str) (c : Cow) (i a : Nat) : Offers (.item n c i a) [loopLocal i (i + a + 1), (n, .is c.val (lentCow c))] where
  others m p hp h := by
    rw [loopLocal, lookup_two, lookup_two]
    split
    · rename_i e; exact absurd h ((binds_item n c i a).direct m (by rw [e]; exact List.mem_cons_self) p hp)
    · split
      · rename_i e; exact absurd h ((binds_item n c i a).direct m (by rw [e]; exact List.mem_cons_of_mem _ List.mem_cons_self) p hp)
      · rfl
  value m p c' h hp := by
    rw [show loopLocal i (i + a + 1) = ("loop".toList, (loopLocal i (i + a + 1)).2) from rfl, lookup_two, lookup_two]
    rw [get] at h
    dsimp only at h
    split at h
    · rename_i h1
      rw [if_pos h1]
      exact loop_done hp h
    · rename_i h1
      rw [if_neg h1]
      split at h
      · rename_i h2
        rw [if_pos h2]
        obtain ⟨k1, k2⟩ := item_done h
        exact ⟨_, by rw [k1], k2⟩
      · cases h

theorem shown_entry (k v key : Str) (c : Cow) (i a : Nat) :
    Offers (.entry k v key c i a) [loopLocal i (i + a + 1), (k, .is (.string key) false), (v, .is c.val (lentCow c))] where
  others m p hp h := by
    rw [loopLocal, lookup_two, lookup_two, lookup_two]
    split
    · rename_i e; exact absurd h ((binds_entry k v key c i a).direct m (by rw [e]; exact List.mem_cons_self) p hp)
    · split
      · rename_i e; exact absurd h ((binds_entry k v key c i a).direct m (by rw [e]; exact List.mem_cons_of_mem _ List.mem_cons_self) p hp)
      · split
        · rename_i e
          exact absurd h ((binds_entry k v key c i a).direct m (by rw [e]; exact List.mem_cons_of_mem _ (List.mem_cons_of_mem _ List.mem_cons_self)) p hp)
        · rfl
  value m p c' h hp := by
    rw [show loopLocal i (i + a + 1) = ("loop".toList, (loopLocal i (i + a + 1)).2) from rfl, lookup_two, lookup_two, lookup_two]
    rw [get.eq_def] at h
    dsimp only at h
    split at h
    · rename_i h1
      rw [if_pos h1]
      exact loop_done hp h
    · rename_i h1
      rw [if_neg h1]
      split at h
      · rename_i h2
        rw [if_pos h2]
        cases p with
        | nil => cases h; exact ⟨_, rfl, .here⟩
        | cons m p => cases h
      · rename_i h2
        rw [if_neg h2]
        split at h
        · rename_i h3
          rw [if_pos h3]
          obtain ⟨k1, k2⟩ := item_done h
          exact ⟨_, by rw [k1], k2⟩
        · cases h

/-! Expressions -/

theorem bind_done {α β : Type} {x : Res α} {f : α → Res β} {b : β} (h : x >>= f = .ok b) : ∃ a, x = .ok a ∧ f a = .ok b := by
  cases x with
  | ok a => exact ⟨a, rfl, h⟩
  | err e => cases h
  | crash => cases h

theorem args_done (hρ : AllKnown g ls ρ) (env : Env) {ts : List ArgTy} {bs : List Base} {as : List ArgVal} (hb : ∀ b ∈ bs, PlainBase b) (hl : bs.length = ts.length)
    (h : evalArgs env ρ ts bs = .ok as) : ∃ xs, AheadArgs g ls ts bs xs ∧ given env ts xs = .ok as := by
  induction bs generalizing ts as with
  | nil =>
    cases ts with
    | nil => cases h; exact ⟨[], .nil, rfl⟩
    | cons t ts => cases hl
  | cons b bs ih =>
    cases ts with
    | nil => cases hl
    | cons t ts =>
      rw [evalArgs] at h
      obtain ⟨a, h1, h⟩ := bind_done h
      obtain ⟨as', h2, h⟩ := bind_done h
      cases h
      obtain ⟨xs, k1, k2⟩ := ih (fun b hb' => hb b (List.mem_cons_of_mem _ hb')) (by simpa using hl) h2
      cases hb b List.mem_cons_self with
      | @var n p hp =>
        rw [evalArg] at h1
        obtain ⟨c, hc, h1⟩ := bind_done h1
        have hk := hρ n p c hp hc
        have hr : ByRef t → lentCow c = true := by
          intro hr
          cases c with
          | borrowed y => rfl
          | owned y =>
            dsimp only at h1
            unfold offer at h1
            split at h1
            · rename_i hm; split at hm <;> simp_all
            · cases h1
        refine ⟨c.val :: xs, .var hk hr k1, ?_⟩
        have : offer env .argument true t c.val = .ok a := by
          cases c with
          | borrowed y =>
            dsimp only at h1
            split at h1
            · rename_i ho; cases h1; exact ho
            · cases h1
          | owned y =>
            dsimp only at h1
            rw [← offer_kept (lent := false) fun k => by simpa [lentCow, isOwned] using hr k]
            split at h1
            · rename_i ho; cases h1; exact ho
            · cases h1
        rw [given, this]
        dsimp only
        rw [k2]
        rfl
      | @lit x =>
        rw [evalArg] at h1
        refine ⟨x :: xs, .lit k1, ?_⟩
        split at h1
        · rename_i ho
          cases h1
          rw [given, ho]
          dsimp only
          rw [k2]
          rfl
        · cases h1

theorem apply_done (hρ : AllKnown g ls ρ) {env : Env} {f : Filter} {c : Cow} {bs : List Base} {x : Value} (hb : ∀ b ∈ bs, PlainBase b)
    (h : applyFilter env ρ f c bs = .ok x) : ∃ xs, AheadArgs g ls f.args bs xs ∧ answers env f xs c.val = .value x := by
  rw [applyFilter] at h
  split at h
  · cases h
  · rename_i hl
    have hl : bs.length = f.args.length := by simpa using hl
    split at h
    · cases h
    · rename_i a ho
      obtain ⟨as, h1, h⟩ := bind_done h
      obtain ⟨xs, k1, k2⟩ := args_done hρ env hb hl h1
      refine ⟨xs, k1, ?_⟩
      rw [answers, if_neg (by rw [← k1.length, hl]; simp), ho]
      dsimp only
      rw [k2]
      dsimp only
      split at h
      · rename_i hc; cases h; rw [hc]
      · cases h

variable {cfg : Cfg}

theorem expr_done (hρ : AllKnown g ls ρ) {e : Expr} {c : Cow} (he : PlainExpr e) (h : evalExpr cfg ρ e = .ok c) :
    AheadExpr cfg.env cfg.functions g ls e c.val (lentCow c) := by
  induction he generalizing c with
  | base hb =>
    cases hb with
    | @var n p hp => exact .var (hρ n p c hp h)
    | lit => cases h; exact .lit
  | @call n args e _ hb ih =>
    rw [evalExpr] at h
    obtain ⟨v, h1, h⟩ := bind_done h
    split at h
    · rename_i f hf
      obtain ⟨r, h2, h⟩ := bind_done h
      cases h
      obtain ⟨xs, k1, k2⟩ := apply_done hρ hb h2
      exact .call (ih h1) hf k1 k2
    · cases h
    · cases h

theorem write_done {name : Option Str} {f : Formatter} {v : Value} {w w' : World Str} (h : write name f v w = .ok w') :
    ∃ t, Appends f v t ∧ w' = { w with out := w.out ++ t } := by
  unfold write at h
  split at h
  · rename_i out hr
    cases h
    obtain ⟨t, ht, rfl⟩ := Rel.appends_of hr
    exact ⟨t, ht, rfl⟩
  · cases h

theorem andThen_done {α : Type} {name : Option Str} {w w' : World Str} {r : Res α} {k : α → RunRes Str} (h : andThen name w r k = .ok w') : ∃ a, r = .ok a ∧ k a = .ok w' := by
  cases r with
  | ok a => exact ⟨a, rfl, h⟩
  | err e => cases h
  | crash => cases h

theorem tag_done (hρ : AllKnown g ls ρ) {name : Option Str} {e : Expr} {w w' : World Str} (he : PlainExpr e) (h : emitExpr cfg name ρ e w = .ok w') :
    ∃ t, AheadTag cfg.env cfg.functions cfg.defaultFormatter g ls e t ∧ w' = { w with out := w.out ++ t } := by
  have other : andThen name w (evalExpr cfg ρ e) (fun v => write name cfg.defaultFormatter v.val w) = .ok w' →
      ∃ t, AheadTag cfg.env cfg.functions cfg.defaultFormatter g ls e t ∧ w' = { w with out := w.out ++ t } := by
    intro h
    obtain ⟨c, h1, h2⟩ := andThen_done h
    obtain ⟨t, ht, hw⟩ := write_done h2
    exact ⟨t, .value (expr_done hρ he h1) ht, hw⟩
  cases he with
  | base hb => exact other h
  | @call n args e he hb =>
    cases args with
    | some as => exact other h
    | none =>
      rw [emitExpr] at h
      obtain ⟨c, h1, h2⟩ := andThen_done h
      split at h2
      · rename_i f hf
        obtain ⟨t, ht, hw⟩ := write_done h2
        exact ⟨t, .formatter (expr_done hρ he h1) hf ht, hw⟩
      · rename_i f hf
        obtain ⟨x, h3, h4⟩ := andThen_done h2
        obtain ⟨t, ht, hw⟩ := write_done h4
        obtain ⟨xs, k1, k2⟩ := apply_done hρ hb h3
        exact ⟨t, .value (.call (expr_done hρ he h1) hf k1 k2) ht, hw⟩
      · cases h2

/-! Statements -/

theorem seq_done {r : RunRes Str} {k : World Str → RunRes Str} {w' : World Str} (h : seq r k = .ok w') : ∃ w, r = .ok w ∧ k w = .ok w' := by
  cases r with
  | ok w => exact ⟨w, rfl, h⟩
  | err e w => cases h
  | crash => cases h

theorem range_texts (ts : List Str) (i : Nat) (f : Nat → Str) (h : ∀ j, j < ts.length → f (i + j) = ts[j]?.getD []) :
    (List.range' i ts.length).flatMap (fun j => (f j).map Stmt.char) = ts.flatten.map .char := by
  induction ts generalizing i with
  | nil => rfl
  | cons t ts ih =>
    rw [List.length_cons, List.range'_succ, List.flatMap_cons, List.flatten_cons, List.map_append]
    have h0 := h 0 (by simp)
    rw [Nat.add_zero] at h0
    rw [h0, ih (i + 1) fun j hj => by
      have := h (j + 1) (by simpa using hj)
      rw [show i + (j + 1) = i + 1 + j by omega] at this
      simpa using this]
    rfl

theorem texts_out (ts : List Str) : (List.range ts.length).flatMap (fun j => (ts[j]?.getD []).map Stmt.char) = ts.flatten.map .char := by
  rw [List.range_eq_range']
  exact range_texts ts 0 (fun j => ts[j]?.getD []) fun j _ => by rw [Nat.zero_add]

/-- The text that is written. -/
def Adds (w : World Str) (s : Str) : World Str := { w with out := w.out ++ s }

theorem adds_adds (w : World Str) (s t : Str) : Adds (Adds w s) t = Adds w (s ++ t) := by simp [Adds]
theorem adds_nil (w : World Str) : Adds w [] = w := by simp [Adds]

theorem items_done (n : Str) (o : Bool) {f : Binding → World Str → RunRes Str} {P : Nat → Value → Str → Prop} {l : List Value} {i : Nat}
    (h : ∀ j x, l[j]? = some x → ∀ w w', f (.item n (if o then .owned x else .borrowed x) (i + j) (l.length - 1 - j)) w = .ok w' → ∃ s, P (i + j) x s ∧ w' = Adds w s)
    {w w' : World Str} (hw : forEach f (listRounds n o i l) w = .ok w') :
    ∃ ts : List Str, ts.length = l.length ∧ w' = Adds w ts.flatten ∧ ∀ j x, l[j]? = some x → P (i + j) x (ts[j]?.getD []) := by
  induction l generalizing i w with
  | nil =>
    cases hw
    exact ⟨[], rfl, (adds_nil _).symm, fun j x hx => by simp at hx⟩
  | cons x l ih =>
    rw [listRounds, forEach] at hw
    obtain ⟨w₁, h1, h2⟩ := seq_done hw
    have h0 := h 0 x rfl w w₁
    rw [List.length_cons, Nat.add_sub_cancel, Nat.sub_zero, Nat.add_zero] at h0
    obtain ⟨s, hs, rfl⟩ := h0 h1
    obtain ⟨ts, k1, k2, k3⟩ := ih (i := i + 1) (fun j y hy w w' hw => by
      have := h (j + 1) y (by simpa using hy) w w'
      rw [show i + (j + 1) = i + 1 + j by omega, show (x :: l).length - 1 - (j + 1) = l.length - 1 - j by rw [List.length_cons]; omega] at this
      exact this hw) h2
    refine ⟨s :: ts, by rw [List.length_cons, List.length_cons, k1], by rw [k2, adds_adds]; rfl, fun j y hy => ?_⟩
    cases j with
    | zero => simp only [List.getElem?_cons_zero, Option.some.injEq] at hy; subst hy; exact hs
    | succ j =>
      have := k3 j y (by simpa using hy)
      rw [show i + 1 + j = i + (j + 1) by omega] at this
      simpa using this

theorem entries_done (k v : Str) (o : Bool) {f : Binding → World Str → RunRes Str} {P : Nat → Str → Value → Str → Prop} {l : List (Str × Value)} {i : Nat}
    (h : ∀ j key x, l[j]? = some (key, x) → ∀ w w', f (.entry k v key (if o then .owned x else .borrowed x) (i + j) (l.length - 1 - j)) w = .ok w' →
      ∃ s, P (i + j) key x s ∧ w' = Adds w s)
    {w w' : World Str} (hw : forEach f (mapRounds k v o i l) w = .ok w') :
    ∃ ts : List Str, ts.length = l.length ∧ w' = Adds w ts.flatten ∧ ∀ j key x, l[j]? = some (key, x) → P (i + j) key x (ts[j]?.getD []) := by
  induction l generalizing i w with
  | nil =>
    cases hw
    exact ⟨[], rfl, (adds_nil _).symm, fun j key x hx => by simp at hx⟩
  | cons x l ih =>
    obtain ⟨key, x⟩ := x
    rw [mapRounds, forEach] at hw
    obtain ⟨w₁, h1, h2⟩ := seq_done hw
    have h0 := h 0 key x rfl w w₁
    rw [List.length_cons, Nat.add_sub_cancel, Nat.sub_zero, Nat.add_zero] at h0
    obtain ⟨s, hs, rfl⟩ := h0 h1
    obtain ⟨ts, k1, k2, k3⟩ := ih (i := i + 1) (fun j key' y hy w w' hw => by
      have := h (j + 1) key' y (by simpa using hy) w w'
      rw [show i + (j + 1) = i + 1 + j by omega, show ((key, x) :: l).length - 1 - (j + 1) = l.length - 1 - j by rw [List.length_cons]; omega] at this
      exact this hw) h2
    refine ⟨s :: ts, by rw [List.length_cons, List.length_cons, k1], by rw [k2, adds_adds]; rfl, fun j key' y hy => ?_⟩
    cases j with
    | zero => simp only [List.getElem?_cons_zero, Option.some.injEq, Prod.mk.injEq] at hy; obtain ⟨rfl, rfl⟩ := hy; exact hs
    | succ j =>
      have := k3 j key' y (by simpa using hy)
      rw [show i + 1 + j = i + (j + 1) by omega] at this
      simpa using this

theorem rounds_done {vs : Vars} {c : Cow} {bs : List Binding} (h : rounds vs c = .ok bs) :
    (∃ n l, vs = .item n ∧ c.val = .list l ∧ bs = listRounds n (isOwned c) 0 l) ∨ (∃ k v m, vs = .keyValue k v ∧ c.val = .map m ∧ bs = mapRounds k v (isOwned c) 0 m) := by
  unfold rounds at h
  split at h
  · cases h; exact .inl ⟨_, _, rfl, by assumption, rfl⟩
  · cases h
  · cases h; exact .inr ⟨_, _, _, rfl, by assumption, rfl⟩
  · cases h
  · cases h

theorem part_val (c : Cow) (x : Value) : (if isOwned c then Cow.owned x else .borrowed x).val = x ∧ lentCow (if isOwned c then Cow.owned x else .borrowed x) = lentCow c := by
  cases c <;> exact ⟨rfl, rfl⟩

theorem stmts_done (inc : Include) (name : Option Str) {ss : List Stmt} (hs : Alone ss) (hρ : AllKnown g ls ρ) {w w' : World Str} (h : evalStmts cfg inc name ρ ss w = .ok w') :
    ∃ s : Str, Ahead cfg.env cfg.functions cfg.defaultFormatter g ls ss (s.map .char) ∧ w' = Adds w s := by
  induction hs generalizing ρ ls w w' with
  | nil =>
    rw [evalStmts] at h
    cases h
    exact ⟨[], .nil, (adds_nil w).symm⟩
  | @char c ss _ ih =>
    rw [evalStmts, evalStmt, seq] at h
    obtain ⟨s, h1, h2⟩ := ih hρ h
    exact ⟨c :: s, .char h1, h2.trans (adds_adds w [c] s)⟩
  | expr he _ ih =>
    rw [evalStmts, evalStmt] at h
    obtain ⟨w₁, h1, h⟩ := seq_done h
    obtain ⟨t, ht, rfl⟩ := tag_done hρ he h1
    obtain ⟨s, h1, h2⟩ := ih hρ h
    exact ⟨t ++ s, by rw [List.map_append]; exact .shown ht h1, h2.trans (adds_adds w t s)⟩
  | @ifThen neg c a ss hc _ _ iha ih =>
    rw [evalStmts, evalStmt] at h
    obtain ⟨w₁, h1, h⟩ := seq_done h
    obtain ⟨v, hv, h1⟩ := andThen_done h1
    have he := expr_done hρ hc hv
    split at h1
    · rename_i ht
      obtain ⟨t, k1, rfl⟩ := iha hρ h1
      obtain ⟨s, h1, h2⟩ := ih hρ h
      exact ⟨t ++ s, by rw [List.map_append]; exact .holds he ht k1 h1, h2.trans (adds_adds w t s)⟩
    · rename_i ht
      cases h1
      obtain ⟨s, h1, h2⟩ := ih hρ h
      exact ⟨s, .skipped he (Decidable.not_not.mp ht) h1, h2⟩
  | @ifElse neg c a b ss hc _ _ _ iha ihb ih =>
    rw [evalStmts, evalStmt] at h
    obtain ⟨w₁, h1, h⟩ := seq_done h
    obtain ⟨v, hv, h1⟩ := andThen_done h1
    have he := expr_done hρ hc hv
    split at h1
    · rename_i ht
      obtain ⟨t, k1, rfl⟩ := iha hρ h1
      obtain ⟨s, h1, h2⟩ := ih hρ h
      exact ⟨t ++ s, by rw [List.map_append]; exact .holds he ht k1 h1, h2.trans (adds_adds w t s)⟩
    · rename_i ht
      obtain ⟨t, k1, rfl⟩ := ihb hρ h1
      obtain ⟨s, h1, h2⟩ := ih hρ h
      exact ⟨t ++ s, by rw [List.map_append]; exact .fails he (Decidable.not_not.mp ht) k1 h1, h2.trans (adds_adds w t s)⟩
  | @with_ e n b ss hc _ _ ihb ih =>
    rw [evalStmts, evalStmt] at h
    obtain ⟨w₁, h1, h⟩ := seq_done h
    obtain ⟨v, hv, h1⟩ := andThen_done h1
    obtain ⟨t, k1, rfl⟩ := ihb (hρ.more (shown_name n v)) h1
    obtain ⟨s, h1, h2⟩ := ih hρ h
    exact ⟨t ++ s, by rw [List.map_append]; exact .named (expr_done hρ hc hv) k1 h1, h2.trans (adds_adds w t s)⟩
  | @for_ vs e body ss hc _ _ ihb ih =>
    rw [evalStmts, evalStmt] at h
    obtain ⟨w₁, h1, h⟩ := seq_done h
    obtain ⟨v, hv, h1⟩ := andThen_done h1
    obtain ⟨bs, hb, h1⟩ := andThen_done h1
    have he := expr_done hρ hc hv
    rcases rounds_done hb with ⟨n, l, rfl, hl, rfl⟩ | ⟨k, x, m, rfl, hl, rfl⟩
    · rw [hl] at he
      obtain ⟨ts, k1, rfl, k3⟩ := items_done n (isOwned v)
        (P := fun i x s => Ahead cfg.env cfg.functions cfg.defaultFormatter g (loopLocal i l.length :: (n, .is x (lentCow v)) :: ls) body (s.map .char))
        (fun j x hx w w' hw => by
          have hj : j < l.length := (List.getElem?_eq_some_iff.mp hx).1
          have hm := hρ.more (shown_item n (if isOwned v then Cow.owned x else .borrowed x) j (l.length - 1 - j))
          rw [show j + (l.length - 1 - j) + 1 = l.length by omega, (part_val v x).1, (part_val v x).2] at hm
          rw [Nat.zero_add] at hw ⊢
          exact ihb hm hw) h1
      obtain ⟨s, h1, h2⟩ := ih hρ h
      refine ⟨ts.flatten ++ s, ?_, h2.trans (adds_adds w ts.flatten s)⟩
      have key := Ahead.items (rounds := fun j => (ts[j]?.getD []).map .char) he (fun j x hx => by simpa using k3 j x hx) h1
      rw [← k1, texts_out] at key
      rw [List.map_append]
      exact key
    · rw [hl] at he
      obtain ⟨ts, k1, rfl, k3⟩ := entries_done k x (isOwned v)
        (P := fun i key y s => Ahead cfg.env cfg.functions cfg.defaultFormatter g (loopLocal i m.length :: (k, .is (.string key) false) :: (x, .is y (lentCow v)) :: ls) body (s.map .char))
        (fun j key y hy w w' hw => by
          have hj : j < m.length := (List.getElem?_eq_some_iff.mp hy).1
          have hm := hρ.more (shown_entry k x key (if isOwned v then Cow.owned y else .borrowed y) j (m.length - 1 - j))
          rw [show j + (m.length - 1 - j) + 1 = m.length by omega, (part_val v y).1, (part_val v y).2] at hm
          rw [Nat.zero_add] at hw ⊢
          exact ihb hm hw) h1
      obtain ⟨s, h1, h2⟩ := ih hρ h
      refine ⟨ts.flatten ++ s, ?_, h2.trans (adds_adds w ts.flatten s)⟩
      have key := Ahead.entries (rounds := fun j => (ts[j]?.getD []).map .char) he (fun j key y hy => by simpa using k3 j key y hy) h1
      rw [← k1, texts_out] at key
      rw [List.map_append]
      exact key

theorem render_done {ss : List Stmt} (hs : Alone ss) (name : Option Str) {s : Str} (h : ∃ w, render cfg ss name [.globals (.borrowed g)] ⟨[], []⟩ = .ok w ∧ w.out = s) :
    Ahead cfg.env cfg.functions cfg.defaultFormatter g [] ss (s.map .char) := by
  obtain ⟨w, h, rfl⟩ := h
  obtain ⟨s, h1, rfl⟩ := stmts_done _ name hs (sees_globals g) h
  exact h1

end
end Plain
end Upon
