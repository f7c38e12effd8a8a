import Verif.Props.Rendering
import Verif.Proofs.InSource
import Verif.Spec.Access
/-
C18, C20, C24: names and paths.
-/
namespace Upon
open Spec

/-! Paths -/

/-- A map has at most one entry for a key. -/
def Spec.KeysOnce {V : Type} (m : List (Str × V)) : Prop := (m.map Prod.fst).Nodup

mutual
/-- Every map inside the value has each key at most once (as maps of the code do). -/
def Spec.Proper : Value → Prop
  | .list l => ProperList l
  | .map m => KeysOnce m ∧ ProperMap m
  | _ => True
def Spec.ProperList : List Value → Prop
  | [] => True
  | v :: l => Proper v ∧ ProperList l
def Spec.ProperMap : List (Str × Value) → Prop
  | [] => True
  | p :: m => Proper p.2 ∧ ProperMap m
end

theorem properList_mem {l : List Value} (h : ProperList l) {v : Value} (hv : v ∈ l) : Proper v := by
  induction l with
  | nil => cases hv
  | cons a l ih =>
    rcases List.mem_cons.mp hv with rfl | hv
    · exact h.1
    · exact ih h.2 hv

theorem properMap_mem {m : List (Str × Value)} (h : ProperMap m) {k : Str} {v : Value} (hv : (k, v) ∈ m) : Proper v := by
  induction m with
  | nil => cases hv
  | cons a l ih =>
    rcases List.mem_cons.mp hv with rfl | hv
    · exact h.1
    · exact ih h.2 hv

theorem get_some_mem {V : Type} {m : List (Str × V)} {k : Str} {v : V} (h : BMap.get m k = some v) : (k, v) ∈ m := by
  induction m with
  | nil => cases h
  | cons p m ih =>
    rw [BMap.get] at h
    split at h
    · rename_i hk; cases h; subst hk; exact List.mem_cons_self
    · exact List.mem_cons_of_mem _ (ih h)

theorem get_none {V : Type} {m : List (Str × V)} {k : Str} : BMap.get m k = none ↔ ∀ v, (k, v) ∉ m := by
  induction m with
  | nil => simp [BMap.get]
  | cons p m ih =>
    obtain ⟨k', v'⟩ := p
    rw [BMap.get]
    by_cases hk : k' = k
    · subst hk
      rw [if_pos rfl]
      exact ⟨fun h => (by cases h), fun h => absurd List.mem_cons_self (h v')⟩
    · rw [if_neg hk, ih]
      constructor
      · intro h v hv
        rcases List.mem_cons.mp hv with e | hv
        · cases e; exact hk rfl
        · exact h v hv
      · intro h v hv; exact h v (List.mem_cons_of_mem _ hv)

theorem keysOnce_eq {V : Type} {m : List (Str × V)} (h : KeysOnce m) {k : Str} {v v' : V} (h1 : (k, v) ∈ m)
    (h2 : (k, v') ∈ m) : v = v' := by
  induction m with
  | nil => cases h1
  | cons p m ih =>
    unfold KeysOnce at h ih
    rw [List.map_cons, List.nodup_cons] at h
    have hn : ∀ {x : V}, (k, x) ∈ m → p.1 = k → False := fun hx hp => h.1 (hp ▸ List.mem_map_of_mem hx)
    rcases List.mem_cons.mp h1 with e1 | h1
    · rcases List.mem_cons.mp h2 with e2 | h2
      · rw [← e1] at e2; cases e2; rfl
      · exact (hn h2 (by rw [← e1])).elim
    · rcases List.mem_cons.mp h2 with e2 | h2
      · exact (hn h1 (by rw [← e2])).elim
      · exact ih h.2 h1 h2

section
variable {env : Env} {src : Str}

theorem lookup_cases {v : Value} (hv : Proper v) {m : Member} (hm : MemberIn src m) (hne : src ≠ []) :
    (∃ v', Found src v m v' ∧ lookup env src v m = .ok (some v') ∧ Proper v') ∨
    (∃ msg, Missing src v m msg ∧ m.op = .optional ∧ lookup env src v m = .ok none) ∨
    (∃ msg, Missing src v m msg ∧ m.op = .direct ∧ lookup env src v m = fault env msg src m.span) ∨
    (∃ msg, NoMember v m msg ∧ lookup env src v m = fault env msg src m.span) := by
  obtain ⟨op, acc, sp⟩ := m
  cases acc with
  | index i =>
    by_cases hl : ∃ l, v = .list l
    · obtain ⟨l, rfl⟩ := hl
      cases hx : l[i.value]? with
      | some x =>
        left; exact ⟨x, .index hx, by simp [lookup, hx], properList_mem hv (List.mem_of_getElem? hx)⟩
      | none =>
        have hlen : l.length ≤ i.value := List.getElem?_eq_none_iff.mp hx
        cases op with
        | optional => right; left; exact ⟨_, .index hlen, rfl, by simp [lookup, hx]⟩
        | direct => right; right; left; exact ⟨_, .index hlen, rfl, by simp only [lookup, hx, errRender_eq]⟩
    · right; right; right
      refine ⟨_, .index (fun l h => hl ⟨l, h⟩), ?_⟩
      cases v with
      | list l => exact absurd ⟨l, rfl⟩ hl
      | none => rfl
      | bool => rfl
      | integer => rfl
      | float => rfl
      | string => rfl
      | map => rfl
  | key k =>
    by_cases hl : ∃ l, v = .map l
    · obtain ⟨mp, rfl⟩ := hl
      obtain ⟨n, hn⟩ : ∃ n, k.span.of src = some n := hm.2
      cases hx : BMap.get mp n with
      | some x =>
        have hmem := get_some_mem hx
        left; exact ⟨x, .key hn hmem (fun v' h' => keysOnce_eq hv.1 h' hmem), by simp [lookup, hx, hn, Res.ofOption],
          properMap_mem hv.2 hmem⟩
      | none =>
        have hlen := get_none.mp hx
        cases op with
        | optional => right; left; exact ⟨_, .key hn hlen, rfl, by simp [lookup, hx, hn, Res.ofOption, errRender_eq]⟩
        | direct => right; right; left; exact ⟨_, .key hn hlen, rfl, by simp [lookup, hx, hn, Res.ofOption, errRender_eq]⟩
    · right; right; right
      refine ⟨_, .key (fun l h => hl ⟨l, h⟩), ?_⟩
      cases v with
      | map l => exact absurd ⟨l, rfl⟩ hl
      | none => rfl
      | bool => rfl
      | integer => rfl
      | float => rfl
      | string => rfl
      | list => rfl

/-- **C24** A path from a value leads to a value or fails (not both, and in only one way), as described
by `Leads` and `Fails`; looking it up gives that value, or an error with that message at that member. -/
theorem C24_path (c : Cow) (hv : Proper c.val) (ms : List Member) (hm : ∀ m ∈ ms, MemberIn src m) (hne : src ≠ []) :
    (∃ r, Leads src c.val ms r ∧ ∃ c', lookupPath env src c ms = .ok c' ∧ c'.val = r) ∨
    (∃ m msg, Fails src c.val ms m msg ∧ ∃ e, lookupPath env src c ms = .err e ∧ e.kind = .render ∧
      e.reason = some msg ∧ e.pretty = Pretty.build env src m.span) := by
  rw [lookupPath_eq]
  have key : ∀ (ms : List Member) (v : Value), Proper v → (∀ m ∈ ms, MemberIn src m) →
      (∃ r, Leads src v ms r ∧ (follow env src v ms = .ok (some r) ∨ follow env src v ms = .ok none ∧ r = .none)) ∨
      (∃ m msg, Fails src v ms m msg ∧ ∃ e, follow env src v ms = .err e ∧ e.kind = .render ∧
        e.reason = some msg ∧ e.pretty = Pretty.build env src m.span) := by
    intro ms
    induction ms with
    | nil => intro v _ _; exact Or.inl ⟨v, .nil, Or.inl rfl⟩
    | cons m ms ih =>
      intro v hv hm
      have bad : ∀ msg, lookup env src v m = fault env msg src m.span →
          ∃ e, follow env src v (m :: ms) = .err e ∧ e.kind = .render ∧ e.reason = some msg ∧
            e.pretty = Pretty.build env src m.span := by
        intro msg h
        obtain ⟨t, ht⟩ := (hm m List.mem_cons_self).1
        obtain ⟨p, hp⟩ := pretty_isSome env hne ht
        refine ⟨⟨.render, none, some msg, some p⟩, ?_, rfl, rfl, hp.symm⟩
        rw [follow, h, fault, hp]
      rcases lookup_cases (env := env) hv (hm m List.mem_cons_self) hne with ⟨v', h1, h2, h3⟩ | ⟨msg, h1, h2, h3⟩ |
        ⟨msg, h1, h2, h3⟩ | ⟨msg, h1, h2⟩
      · rw [follow, h2]
        rcases ih v' h3 (fun m h => hm m (List.mem_cons_of_mem _ h)) with ⟨r, a, b⟩ | ⟨m', msg, a, b⟩
        · exact Or.inl ⟨r, .step h1 a, b⟩
        · exact Or.inr ⟨m', msg, .step h1 a, b⟩
      · rw [follow, h3]; exact Or.inl ⟨.none, .miss h1 h2, Or.inr ⟨rfl, rfl⟩⟩
      · exact Or.inr ⟨m, msg, .missing h1 h2, bad msg h3⟩
      · exact Or.inr ⟨m, msg, .noMember h1, bad msg h2⟩
  rcases key ms c.val hv hm with ⟨r, a, b | ⟨b, rfl⟩⟩ | ⟨m, msg, a, e, b, h⟩
  · refine Or.inl ⟨r, a, like c r, by rw [followCow, b], ?_⟩
    cases c <;> rfl
  · exact Or.inl ⟨.none, a, .borrowed .none, by rw [followCow, b], rfl⟩
  · exact Or.inr ⟨m, msg, a, e, by rw [followCow, b], h⟩

theorem found_unique {v : Value} {m : Member} {a b : Value} (h : Found src v m a) (h' : Found src v m b) : a = b := by
  cases h with
  | key h1 h2 h3 => cases h' with | key g1 g2 g3 => rw [h1] at g1; cases g1; exact (h3 _ g2).symm
  | index h1 => cases h' with | index g1 => rw [h1] at g1; cases g1; rfl

theorem found_missing {v : Value} {m : Member} {a : Value} {msg : String} (h : Found src v m a)
    (h' : Missing src v m msg) : False := by
  cases h with
  | key h1 h2 h3 => cases h' with | key g1 g2 => rw [h1] at g1; cases g1; exact g2 _ h2
  | index h1 => cases h' with | index g1 => rw [List.getElem?_eq_none g1] at h1; cases h1

theorem found_noMember {v : Value} {m : Member} {a : Value} {msg : String} (h : Found src v m a)
    (h' : NoMember v m msg) : False := by
  cases h with
  | key h1 h2 h3 => cases h' with | key g => exact g _ rfl
  | index h1 => cases h' with | index g => exact g _ rfl

theorem missing_noMember {v : Value} {m : Member} {a msg : String} (h : Missing src v m a)
    (h' : NoMember v m msg) : False := by
  cases h with
  | key h1 h2 => cases h' with | key g => exact g _ rfl
  | index h1 => cases h' with | index g => exact g _ rfl

/-- **C24** The value a path leads to is unique. -/
theorem C24_unique {v : Value} {ms : List Member} {a b : Value} (h : Leads src v ms a) (h' : Leads src v ms b) : a = b := by
  induction h with
  | nil => cases h'; rfl
  | step h1 _ ih =>
    cases h' with
    | step g1 g2 => cases found_unique h1 g1; exact ih g2
    | miss g1 _ => exact (found_missing h1 g1).elim
  | miss h1 h2 =>
    cases h' with
    | step g1 _ => exact (found_missing g1 h1).elim
    | miss => rfl

/-- **C24** A path that leads to a value does not fail. -/
theorem C24_exclusive {v : Value} {ms : List Member} {a : Value} {m : Member} {msg : String} (h : Leads src v ms a)
    (h' : Fails src v ms m msg) : False := by
  induction h with
  | nil => cases h'
  | step h1 _ ih =>
    cases h' with
    | missing g1 _ => exact found_missing h1 g1
    | noMember g => exact found_noMember h1 g
    | step g1 g2 => cases found_unique h1 g1; exact ih g2
  | miss h1 h2 =>
    cases h' with
    | missing _ g2 => rw [h2] at g2; cases g2
    | noMember g => exact missing_noMember h1 g
    | step g1 _ => exact found_missing g1 h1

/-! Names -/

/-- **C20** Inside `with e as n`, the name `n` stands for the value of `e`, whatever it stands for
outside; its members are those of that value. -/
theorem C20_shadow {n : Ident} {v : Var} {s : Str} (h1 : v.first.access.span.of src = some s)
    (h2 : n.span.of src = some s) (c : Cow) (st : Stack) :
    lookupVar env src (.var n c :: st) v = lookupPath env src c v.rest := by
  simp [lookupVar, h1, h2, Res.ofOption]

/-- **C20** Other names stand for what they stand for outside. -/
theorem C20_through {n : Ident} {v : Var} {a b : Str} (h1 : v.first.access.span.of src = some a)
    (h2 : n.span.of src = some b) (hne : a ≠ b) (c : Cow) (st : Stack) :
    lookupVar env src (.var n c :: st) v = lookupVar env src st v := by
  simp [lookupVar, h1, h2, Res.ofOption, hne]

/-- **C24** A name of the globals: if the value given to `render` has such an entry, the rest of the
path starts there. -/
theorem C24_global {c : Cow} {v : Var} {x : Value} (hf : Found src c.val v.first x) (hp : Proper c.val) (st : Stack) :
    ∃ c' : Cow, c'.val = x ∧ lookupVar env src (.scope c :: st) v = lookupPath env src c' v.rest := by
  have hl : lookup env src c.val v.first = .ok (some x) := by
    generalize c.val = cv at hf hp
    obtain ⟨⟨op, acc, sp⟩, rest⟩ := v
    cases hf with
    | @key mp op k sp n v hn hm hu =>
      have : BMap.get mp n = some x := by
        cases hg : BMap.get mp n with
        | none => exact absurd hm (get_none.mp hg x)
        | some y => rw [hu y (get_some_mem hg)]
      simp [lookup, hn, this, Res.ofOption]
    | index h => simp [lookup, h]
  refine ⟨like c x, by cases c <;> rfl, ?_⟩
  have := lookupPathMaybe_eq env src c v asBuilt
  rw [lookupVar, this, Binding.get, hl]
  dsimp only
  rw [lookupPath_eq]
  cases followCow env src (like c x) v.rest <;> rfl

/-- **C24** If it has no such entry, the search goes on; at the outermost level the name is unknown. -/
theorem C24_unknown {c : Cow} {v : Var} (hf : ∀ x, ¬ Found src c.val v.first x) (hp : Proper c.val)
    (hv : MemberIn src v.first) (hne : src ≠ []) (st : Stack) :
    lookupVar env src (.scope c :: st) v = lookupVar env src st v ∧
    lookupVar env src [] v = fault env "not found in this scope" src v.first.span := by
  refine ⟨?_, rfl⟩
  have := lookupPathMaybe_eq env src c v asBuilt
  rw [lookupVar, this, Binding.get]
  rcases lookup_cases (env := env) hp hv hne with ⟨v', h1, _⟩ | ⟨msg, h1, h2, h3⟩ |
        ⟨msg, h1, h2, h3⟩ | ⟨msg, h1, h2⟩
  · exact absurd h1 (hf v')
  · rw [h3]; rfl
  · rw [h3]
    obtain ⟨t, ht⟩ := hv.1
    obtain ⟨p, hp⟩ := pretty_isSome env hne ht
    rw [fault, hp]; rfl
  · rw [h2]
    obtain ⟨t, ht⟩ := hv.1
    obtain ⟨p, hp⟩ := pretty_isSome env hne ht
    rw [fault, hp]; rfl

/-! Names inside a loop -/

/-- The variable starts with the given name. -/
def Spec.Named (src : Str) (v : Var) (n : Str) : Prop := ∃ k, v.first.access = .key k ∧ k.span.of src = some n

/-- The path leads to the value without an optional access missing its member. -/
inductive Spec.Reaches (src : Str) : Value → List Member → Value → Prop
  | nil {v} : Reaches src v [] v
  | step {v m v' ms r} : Found src v m v' → Reaches src v' ms r → Reaches src v (m :: ms) r

theorem lookup_found {v : Value} {m : Member} {x : Value} (h : Found src v m x) : lookup env src v m = .ok (some x) := by
  cases h with
  | @key mp op k sp n v hn hm hu =>
    have : BMap.get mp n = some x := by
      cases hg : BMap.get mp n with
      | none => exact absurd hm (get_none.mp hg x)
      | some y => rw [hu y (get_some_mem hg)]
    simp [lookup, hn, this, Res.ofOption]
  | index h => simp [lookup, h]

theorem follow_reaches {v : Value} {ms : List Member} {r : Value} (h : Reaches src v ms r) :
    follow env src v ms = .ok (some r) := by
  induction h with
  | nil => rfl
  | step h1 _ ih => rw [follow, lookup_found h1]; exact ih

theorem lookup_direct {v : Value} {m : Member} (hd : m.op = .direct) : lookup env src v m ≠ .ok none := by
  obtain ⟨op, acc, sp⟩ := m
  cases hd
  intro h
  have er : ∀ {α : Type} {msg : String} {sp : Span} {x : α}, errRender env msg src sp ≠ .ok x := by
    intro α msg sp x h
    simp only [errRender, throwAt] at h
    split at h <;> cases h
  cases acc with
  | index i =>
    cases v with
    | list l =>
      simp only [lookup] at h
      cases hx : l[i.value]? with
      | some x => rw [hx] at h; cases h
      | none => rw [hx] at h; exact er h
    | none => exact er h
    | bool => exact er h
    | integer => exact er h
    | float => exact er h
    | string => exact er h
    | map => exact er h
  | key k =>
    cases v with
    | map l =>
      simp only [lookup] at h
      cases hk : k.span.of src with
      | none => rw [hk] at h; cases h
      | some n =>
        rw [hk] at h
        simp only [Res.ofOption, Res.ok_bind] at h
        cases hx : BMap.get l n with
        | some x => rw [hx] at h; cases h
        | none => rw [hx] at h; exact er h
    | none => exact er h
    | bool => exact er h
    | integer => exact er h
    | float => exact er h
    | string => exact er h
    | list => exact er h

theorem follow_direct {v : Value} {ms : List Member} (hd : ∀ m ∈ ms, m.op = .direct) : follow env src v ms ≠ .ok none := by
  induction ms generalizing v with
  | nil => intro h; cases h
  | cons m ms ih =>
    intro h
    rw [follow] at h
    have := lookup_direct (env := env) (src := src) (v := v) (hd m List.mem_cons_self)
    cases hl : lookup env src v m with
    | ok o =>
      rw [hl] at h
      cases o with
      | none => exact this hl
      | some x => exact ih (fun m hm => hd m (List.mem_cons_of_mem _ hm)) h
    | err e => rw [hl] at h; cases h
    | crash => rw [hl] at h; cases h

theorem followItem_sure {c : Cow} {ms : List Member}
    (hp : (∀ m ∈ ms, m.op = .direct) ∨ ∃ r, Reaches src c.val ms r) :
    followItem asBuilt env src c ms = (followCow env src c ms >>= fun r => .ok (some r)) := by
  have hn : follow env src c.val ms ≠ .ok none := by
    rcases hp with h | ⟨r, h⟩
    · exact follow_direct h
    · rw [follow_reaches h]; intro h; cases h
  rw [followItem, followCow]
  cases hf : follow env src c.val ms with
  | ok o => cases o with
    | none => exact absurd hf hn
    | some x => rfl
  | err e => rfl
  | crash => rfl

theorem lookup_loop {ls : LoopState} {v : Var} {st : Stack} {b : Binding}
    (h : ls.lookupVar env src v = b.get asBuilt env src v) :
    lookupVar env src (.loop ls :: st) v = (b.get asBuilt env src v >>= fun o => match o with
      | some x => .ok x
      | none => lookupVar env src st v) := by
  rw [lookupVar, h]
  rfl

/-- **C18** In round `j` of a loop over a list the loop variable stands for item `j`. -/
theorem C18_item {n : Str} {owned : Bool} {l : List Value} {j : Nat} {x : Value} (hx : l[j]? = some x) {v : Var}
    (hn : Named src v n) (hloop : n ≠ "loop".toList)
    (hp : (∀ m ∈ v.rest, m.op = .direct) ∨ ∃ r, Reaches src x v.rest r) (st : Stack) :
    ∃ c : Cow, c.val = x ∧
      lookupVar env src (.loop (listRound n owned l j) :: st) v = lookupPath env src c v.rest := by
  obtain ⟨k, hk, hs⟩ := hn
  refine ⟨mkCow owned x, mkCow_val _ _, ?_⟩
  rw [listRound, hx]
  rw [Option.map_some, lookup_loop (loopVar_list env src owned n (j + 1) (l.drop (j + 1)) j x v), Binding.get, hk]
  simp only [hs, Res.ofOption, Res.ok_bind, if_neg hloop, if_true]
  rw [followItem_sure (by rw [mkCow_val]; exact hp), lookupPath_eq]
  cases followCow env src (mkCow owned x) v.rest <;> rfl

/-- What `loop` and its members stand for in round `j` of `n`. -/
inductive Spec.LoopMember (src : Str) (j n : Nat) : List Member → Value → Prop
  | index {op k sp} : k.span.of src = some "index".toList → LoopMember src j n [⟨op, .key k, sp⟩] (.integer j)
  | first {op k sp} : k.span.of src = some "first".toList →
      LoopMember src j n [⟨op, .key k, sp⟩] (.bool (decide (j = 0)))
  | last {op k sp} : k.span.of src = some "last".toList →
      LoopMember src j n [⟨op, .key k, sp⟩] (.bool (decide (j + 1 = n)))
  | all : LoopMember src j n [] (.map [("first".toList, .bool (decide (j = 0))), ("index".toList, .integer j),
      ("last".toList, .bool (decide (j + 1 = n)))])

theorem loopInfo_member {j n : Nat} (hj : j < n) {ms : List Member} {r : Value} (h : LoopMember src j n ms r) :
    loopInfo env src j (n - (j + 1)) ms = .ok (some (.owned r)) := by
  have e0 : (j == 0) = decide (j = 0) := rfl
  have e : (n - (j + 1) == 0) = decide (j + 1 = n) := by
    by_cases h : j + 1 = n
    · simp [h]
    · have : n - (j + 1) ≠ 0 := by omega
      simp [h, this]
  cases h with
  | index hk => simp [loopInfo, hk, Res.ofOption]
  | first hk => simp [loopInfo, hk, Res.ofOption, e0]
  | last hk => simp [loopInfo, hk, Res.ofOption, e]
  | all => simp [loopInfo, e, e0]

/-- **C18** `loop.index` counts the rounds from 0, `loop.first` and `loop.last` hold in the first and in
the last round only: over a list. -/
theorem C18_loop_list {n : Str} {owned : Bool} {l : List Value} {j : Nat} (hj : j < l.length) {v : Var}
    (hn : Named src v "loop".toList) {r : Value} (hr : LoopMember src j l.length v.rest r) (st : Stack) :
    lookupVar env src (.loop (listRound n owned l j) :: st) v = .ok (.owned r) := by
  obtain ⟨k, hk, hs⟩ := hn
  rw [listRound, List.getElem?_eq_getElem hj]
  rw [Option.map_some, lookup_loop (loopVar_list env src owned n (j + 1) (l.drop (j + 1)) j l[j] v), Binding.get, hk]
  simp only [hs, Res.ofOption, Res.ok_bind, if_true, List.length_drop]
  rw [loopInfo_member hj hr]; rfl

/-- **C18** The same over a map. -/
theorem C18_loop_map {kn vn : Str} {owned : Bool} {m : List (Str × Value)} {j : Nat} (hj : j < m.length) {v : Var}
    (hn : Named src v "loop".toList) {r : Value} (hr : LoopMember src j m.length v.rest r) (st : Stack) :
    lookupVar env src (.loop (mapRound kn vn owned m j) :: st) v = .ok (.owned r) := by
  obtain ⟨k, hk, hs⟩ := hn
  rw [mapRound, List.getElem?_eq_getElem hj]
  rw [Option.map_some, lookup_loop (loopVar_map env src owned kn vn (j + 1) (m.drop (j + 1)) j m[j].1 m[j].2 v),
    Binding.get, hk]
  simp only [hs, Res.ofOption, Res.ok_bind, if_true, List.length_drop]
  rw [loopInfo_member hj hr]; rfl

/-- **C18** In round `j` of a loop over a map the first variable stands for the key of entry `j`. -/
theorem C18_key {kn vn : Str} {owned : Bool} {m : List (Str × Value)} {j : Nat} {key : Str} {x : Value}
    (hx : m[j]? = some (key, x)) {v : Var} (hn : Named src v kn) (hloop : kn ≠ "loop".toList) (hr : v.rest = []) (st : Stack) :
    lookupVar env src (.loop (mapRound kn vn owned m j) :: st) v = .ok (.owned (.string key)) := by
  obtain ⟨k, hk, hs⟩ := hn
  rw [mapRound, hx]
  rw [Option.map_some, lookup_loop (loopVar_map env src owned kn vn (j + 1) (m.drop (j + 1)) j key x v), Binding.get, hk]
  simp only [hs, Res.ofOption, Res.ok_bind, if_true, if_neg hloop, hr]

/-- **C18** … and the second variable for its value. -/
theorem C18_value {kn vn : Str} {owned : Bool} {m : List (Str × Value)} {j : Nat} {key : Str} {x : Value}
    (hx : m[j]? = some (key, x)) {v : Var} (hn : Named src v vn) (hloop : vn ≠ "loop".toList) (hkv : vn ≠ kn)
    (hp : (∀ m ∈ v.rest, m.op = .direct) ∨ ∃ r, Reaches src x v.rest r) (st : Stack) :
    ∃ c : Cow, c.val = x ∧
      lookupVar env src (.loop (mapRound kn vn owned m j) :: st) v = lookupPath env src c v.rest := by
  obtain ⟨k, hk, hs⟩ := hn
  refine ⟨mkCow owned x, mkCow_val _ _, ?_⟩
  rw [mapRound, hx]
  rw [Option.map_some, lookup_loop (loopVar_map env src owned kn vn (j + 1) (m.drop (j + 1)) j key x v), Binding.get, hk]
  simp only [hs, Res.ofOption, Res.ok_bind, if_neg hloop, if_neg hkv, if_true]
  rw [followItem_sure (by rw [mkCow_val]; exact hp), lookupPath_eq]
  cases followCow env src (mkCow owned x) v.rest <;> rfl

/-- **C20** Inside a loop, names other than `loop` and the loop variables stand for what they stand for
outside. -/
theorem C20_loop_through {s n : Str} {owned : Bool} {l : List Value} {j : Nat} (hj : j < l.length) {v : Var}
    (hn : Named src v s) (h1 : s ≠ "loop".toList) (h2 : s ≠ n) (st : Stack) :
    lookupVar env src (.loop (listRound n owned l j) :: st) v = lookupVar env src st v := by
  obtain ⟨k, hk, hs⟩ := hn
  rw [listRound, List.getElem?_eq_getElem hj]
  rw [Option.map_some, lookup_loop (loopVar_list env src owned n (j + 1) (l.drop (j + 1)) j l[j] v), Binding.get, hk]
  simp only [hs, Res.ofOption, Res.ok_bind, if_neg h1, if_neg h2]

theorem C20_map_through {s kn vn : Str} {owned : Bool} {m : List (Str × Value)} {j : Nat} (hj : j < m.length) {v : Var}
    (hn : Named src v s) (h1 : s ≠ "loop".toList) (h2 : s ≠ kn) (h3 : s ≠ vn) (st : Stack) :
    lookupVar env src (.loop (mapRound kn vn owned m j) :: st) v = lookupVar env src st v := by
  obtain ⟨k, hk, hs⟩ := hn
  rw [mapRound, List.getElem?_eq_getElem hj]
  rw [Option.map_some, lookup_loop (loopVar_map env src owned kn vn (j + 1) (m.drop (j + 1)) j m[j].1 m[j].2 v),
    Binding.get, hk]
  simp only [hs, Res.ofOption, Res.ok_bind, if_neg h1, if_neg h2, if_neg h3]

end
end Upon
