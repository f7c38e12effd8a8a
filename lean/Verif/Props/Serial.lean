import Verif.Spec.Serial
import Verif.Proofs.Maps
import Verif.Props.Format
/-
C33, C34, C38: serialisation and conversions into values.
-/
namespace Upon
open Spec
variable {env : Env} {V : Type}

/-! Maps from pairs -/

theorem lastFor_snoc (pairs : List (Str × V)) (p : Str × V) (k : Str) (v : V) :
    LastFor (pairs ++ [p]) k v ↔ (p = (k, v)) ∨ (p.1 ≠ k ∧ LastFor pairs k v) := by
  constructor
  · rintro ⟨a, b, e, h⟩
    rcases List.eq_nil_or_concat b with rfl | ⟨b', q, rfl⟩
    · have := List.append_inj' e rfl
      exact .inl (by simpa using this.2)
    · rw [List.concat_eq_append] at e h
      have e' : pairs ++ [p] = (a ++ (k, v) :: b') ++ [q] := by rw [e]; simp
      have := List.append_inj' e' rfl
      have hq : p = q := by simpa using this.2
      subst hq
      exact .inr ⟨h p (by simp), a, b', this.1, fun q hq => h q (by simp [hq])⟩
  · rintro (rfl | ⟨hne, a, b, e, h⟩)
    · exact ⟨pairs, [], rfl, by simp⟩
    · refine ⟨a, b ++ [p], by rw [e]; simp, ?_⟩
      intro q hq
      rcases List.mem_append.mp hq with hq | hq
      · exact h q hq
      · rw [List.mem_singleton.mp hq]; exact hne

theorem ofList_snoc (pairs : List (Str × V)) (p : Str × V) :
    BMap.ofList (pairs ++ [p]) = (BMap.ofList pairs).insert p.1 p.2 := by
  rw [BMap.ofList, List.foldl_append]; rfl

/-- Collecting pairs gives their map. -/
theorem mapOf_ofList (pairs : List (Str × V)) : MapOf pairs (BMap.ofList pairs) := by
  generalize hr : pairs.reverse = r
  induction r generalizing pairs with
  | nil =>
    have : pairs = [] := List.reverse_eq_nil_iff.mp hr
    subst this
    refine ⟨by simp [BMap.ofList, Ascending], fun k v => ?_⟩
    constructor
    · intro h; cases h
    · rintro ⟨a, b, e, _⟩; cases a <;> cases e
  | cons p r ih =>
    have e : pairs = r.reverse ++ [p] := by rw [← List.reverse_cons, ← hr, List.reverse_reverse]
    obtain ⟨h1, h2⟩ := ih r.reverse (List.reverse_reverse r)
    rw [e, ofList_snoc]
    have ha := insert_ascending h1 p.1 p.2
    refine ⟨ha, fun k v => ?_⟩
    rw [← get_mem ha, get_insert, lastFor_snoc, ← h2, ← get_mem h1]
    by_cases hk : k = p.1
    · subst hk
      rw [if_pos rfl]
      constructor
      · intro h; cases h; exact .inl rfl
      · rintro (h | h)
        · rw [h]
        · exact absurd rfl h.1
    · rw [if_neg hk]
      constructor
      · intro h; exact .inr ⟨fun e => hk e.symm, h⟩
      · rintro (h | h)
        · rw [h] at hk; exact absurd rfl hk
        · exact h.2

/-- A sequence of pairs has one map. -/
theorem mapOf_unique {pairs m m' : List (Str × V)} (h : MapOf pairs m) (h' : MapOf pairs m') : m = m' := by
  apply ascending_ext h.1 h'.1
  intro k
  have : ∀ v, BMap.get m k = some v ↔ BMap.get m' k = some v := fun v => by
    rw [get_mem h.1, get_mem h'.1, h.2, h'.2]
  cases hm : BMap.get m k with
  | some v => exact ((this v).mp hm).symm
  | none =>
    cases hm' : BMap.get m' k with
    | none => rfl
    | some v => rw [(this v).mpr hm'] at hm; cases hm

theorem mapOf_iff {pairs m : List (Str × V)} : MapOf pairs m ↔ m = BMap.ofList pairs :=
  ⟨fun h => mapOf_unique h (mapOf_ofList pairs), fun h => h ▸ mapOf_ofList pairs⟩

/-- The map of pairs that are already sorted is those pairs. -/
theorem ofList_ascending {m : List (Str × V)} (h : Ascending m) : BMap.ofList m = m := by
  apply mapOf_unique (mapOf_ofList m)
  refine ⟨h, fun k v => ⟨fun hm => ?_, fun ⟨a, b, e, _⟩ => by rw [e]; simp⟩⟩
  obtain ⟨a, b, e⟩ := List.append_of_mem hm
  refine ⟨a, b, e, fun p hp => ?_⟩
  subst e
  rintro hk
  rw [Ascending, List.map_append, List.pairwise_append] at h
  have := h.2.1
  rw [List.map_cons, List.pairwise_cons] at this
  have := this.1 p.1 (List.mem_map_of_mem hp)
  rw [hk] at this
  exact Before.irrefl _ this

/-! Keys -/

theorem int_key {t : IntTy} {i : Int} (s : Str) : (SV.int t i).toKey = .ok s ↔ KeyText (.int t i) s := by
  by_cases hw : Wide t
  · constructor
    · intro h; cases t <;> first | exact absurd hw id | cases h
    · intro h; cases h with | int hn _ => exact absurd hw hn
  · have e : (SV.int t i).toKey = .ok (showInt i) := by
      cases t <;> first | exact absurd trivial hw | rfl
    rw [e]
    constructor
    · intro h; cases h; exact .int hw (intText_showInt i)
    · intro h
      cases h with
      | int _ h => rw [(C32_integer _ _).mpr h]

/-- **C34** A map key is accepted exactly if it has a text, which is then its name in the map. -/
theorem C34_key (k : SV) (s : Str) : k.toKey = .ok s ↔ KeyText k s := by
  cases k with
  | int t i => exact int_key s
  | char c => exact ⟨fun h => by cases h; exact .char, fun h => by cases h; rfl⟩
  | str c => exact ⟨fun h => by cases h; exact .str, fun h => by cases h; rfl⟩
  | unitVariant c => exact ⟨fun h => by cases h; exact .unitVariant, fun h => by cases h; rfl⟩
  | newtypeStruct v =>
    rw [SV.toKey, C34_key v]
    exact ⟨.newtype_, fun h => by cases h; assumption⟩
  | _ => exact ⟨fun h => (by cases h), fun h => (by cases h)⟩
termination_by sizeOf k

theorem key_or_err (k : SV) : (∃ s, k.toKey = .ok s) ∨ ∃ m, k.toKey = .err (serializeErr m) := by
  cases k with
  | int t i => cases t <;> first | exact .inl ⟨_, rfl⟩ | exact .inr ⟨_, rfl⟩
  | newtypeStruct v => rw [SV.toKey]; exact key_or_err v
  | _ => first | exact .inl ⟨_, rfl⟩ | exact .inr ⟨_, rfl⟩
termination_by sizeOf k

/-- **C34** Anything else is an error of the serializer, never a panic and never some other key. -/
theorem C34_not_key (k : SV) (h : ∀ s, ¬ KeyText k s) : ∃ m, k.toKey = .err (serializeErr m) := by
  rcases key_or_err k with ⟨s, hs⟩ | h'
  · exact absurd ((C34_key k s).mp hs) (h s)
  · exact h'

/-- **C34** Distinct keys of one type have distinct texts. -/
theorem C34_injective {a b : SV} (hk : SameKind a b) {s : Str} (ha : KeyText a s) (hb : KeyText b s) : a = b := by
  induction hk with
  | int =>
    cases ha with
    | int _ ha =>
      cases hb with
      | int _ hb =>
        rw [C32_integer_inj (((C32_integer _ _).mpr ha).symm.trans ((C32_integer _ _).mpr hb))]
  | char => cases ha; cases hb; rfl
  | str => cases ha; cases hb; rfl
  | unitVariant => cases ha; cases hb; rfl
  | newtype_ _ ih =>
    cases ha with
    | newtype_ ha => cases hb with
      | newtype_ hb => rw [ih ha hb]

/-! Values -/

theorem typed_fits (hu : env.usizeBits ≤ 64) {t : IntTy} {i : Int} (hw : ¬ Wide t) (h : Fits env t i) :
    (t = .u64 ∨ t = .usize) ∨ FitsI64 i := by
  cases t with
  | u64 => exact .inl (.inl rfl)
  | usize => exact .inl (.inr rfl)
  | i128 => exact absurd trivial hw
  | u128 => exact absurd trivial hw
  | isize =>
    right
    obtain ⟨h1, h2⟩ := h
    have : (2 : Int) ^ (env.usizeBits - 1) ≤ 2 ^ 63 := by
      have : 2 ^ (env.usizeBits - 1) ≤ 2 ^ 63 := Nat.pow_le_pow_right (by decide) (by omega)
      exact_mod_cast this
    unfold FitsI64
    omega
  | _ => right; unfold FitsI64; simp only [Fits] at h; omega

theorem typed_nonneg {t : IntTy} {i : Int} (h : Fits env t i) (ht : t = .u64 ∨ t = .usize) : 0 ≤ i := by
  rcases ht with rfl | rfl <;> exact h.1

theorem int_iff (hu : env.usizeBits ≤ 64) {t : IntTy} {i : Int} (h : Fits env t i) (v : Value) :
    (SV.int t i).toValue env = .ok v ↔ Becomes env (.int t i) v := by
  by_cases hw : Wide t
  · constructor
    · intro h'; cases t <;> first | exact absurd hw id | cases h'
    · intro h'; cases h' with | int hn _ => exact absurd hw hn
  · rcases typed_fits hu hw h with ht | hf
    · have e : (SV.int t i).toValue env = if i ≤ 9223372036854775807 then .ok (.integer i)
          else .err (serializeErr "out of range integral type conversion attempted") := by
        rcases ht with rfl | rfl <;> rfl
      have h0 := typed_nonneg h ht
      rw [e]
      constructor
      · intro h'
        split at h'
        · cases h'; exact .int hw (by unfold FitsI64; omega)
        · cases h'
      · intro h'
        cases h' with
        | int _ hf => rw [if_pos (by unfold FitsI64 at hf; omega)]
    · have e : (SV.int t i).toValue env = .ok (.integer i) := by
        have : i ≤ 9223372036854775807 := by unfold FitsI64 at hf; omega
        cases t <;> first | exact absurd trivial hw | rfl | (rw [SV.toValue, if_pos this])
      rw [e]
      constructor
      · intro h'; cases h'; exact .int hw hf
      · intro h'; cases h'; rfl

theorem bind_ok {α β : Type} {x : Res α} {f : α → Res β} {b : β} : (x >>= f) = .ok b ↔ ∃ a, x = .ok a ∧ f a = .ok b := by
  cases x with
  | ok a => exact ⟨fun h => ⟨a, rfl, h⟩, fun ⟨a', h, h'⟩ => by cases h; exact h'⟩
  | err e => exact ⟨fun h => (by cases h), fun ⟨_, h, _⟩ => (by cases h)⟩
  | crash => exact ⟨fun h => (by cases h), fun ⟨_, h, _⟩ => (by cases h)⟩

mutual
theorem becomes_iff (hu : env.usizeBits ≤ 64) : ∀ (s : SV), Typed env s → ∀ v, s.toValue env = .ok v ↔ Becomes env s v
  | .bool b, _, v => ⟨fun h => by cases h; exact .bool, fun h => by cases h; rfl⟩
  | .int t i, ht, v => int_iff hu (by rw [Typed] at ht; exact ht) v
  | .f32 f, _, v => ⟨fun h => by cases h; exact .f32, fun h => by cases h; rfl⟩
  | .f64 f, _, v => ⟨fun h => by cases h; exact .f64, fun h => by cases h; rfl⟩
  | .char c, _, v => ⟨fun h => by cases h; exact .char, fun h => by cases h; rfl⟩
  | .str c, _, v => ⟨fun h => by cases h; exact .str, fun h => by cases h; rfl⟩
  | .bytes b, _, v => ⟨fun h => by cases h; exact .bytes, fun h => by cases h; rfl⟩
  | .none, _, v => ⟨fun h => by cases h; exact .none, fun h => by cases h; rfl⟩
  | .unit, _, v => ⟨fun h => by cases h; exact .unit, fun h => by cases h; rfl⟩
  | .unitStruct, _, v => ⟨fun h => by cases h; exact .unitStruct, fun h => by cases h; rfl⟩
  | .unitVariant n, _, v => ⟨fun h => by cases h; exact .unitVariant, fun h => by cases h; rfl⟩
  | .some s, ht, v => by
    rw [Typed] at ht
    rw [SV.toValue, becomes_iff hu s ht]
    exact ⟨.some, fun h => by cases h; assumption⟩
  | .newtypeStruct s, ht, v => by
    rw [Typed] at ht
    rw [SV.toValue, becomes_iff hu s ht]
    exact ⟨.newtypeStruct, fun h => by cases h; assumption⟩
  | .newtypeVariant n s, ht, v => by
    rw [Typed] at ht
    rw [SV.toValue, bind_ok]
    constructor
    · rintro ⟨x, h, e⟩; cases e; exact .newtypeVariant ((becomes_iff hu s ht _).mp h)
    · intro h; cases h with | newtypeVariant h => exact ⟨_, (becomes_iff hu s ht _).mpr h, rfl⟩
  | .seq l, ht, v => by
    rw [Typed] at ht
    rw [SV.toValue, bind_ok]
    constructor
    · rintro ⟨x, h, e⟩; cases e; exact .seq ((becomeAll_iff hu l ht _).mp h)
    · intro h; cases h with | seq h => exact ⟨_, (becomeAll_iff hu l ht _).mpr h, rfl⟩
  | .tuple l, ht, v => by
    rw [Typed] at ht
    rw [SV.toValue, bind_ok]
    constructor
    · rintro ⟨x, h, e⟩; cases e; exact .tuple ((becomeAll_iff hu l ht _).mp h)
    · intro h; cases h with | tuple h => exact ⟨_, (becomeAll_iff hu l ht _).mpr h, rfl⟩
  | .tupleStruct l, ht, v => by
    rw [Typed] at ht
    rw [SV.toValue, bind_ok]
    constructor
    · rintro ⟨x, h, e⟩; cases e; exact .tupleStruct ((becomeAll_iff hu l ht _).mp h)
    · intro h; cases h with | tupleStruct h => exact ⟨_, (becomeAll_iff hu l ht _).mpr h, rfl⟩
  | .tupleVariant n l, ht, v => by
    rw [Typed] at ht
    rw [SV.toValue, bind_ok]
    constructor
    · rintro ⟨x, h, e⟩; cases e; exact .tupleVariant ((becomeAll_iff hu l ht _).mp h)
    · intro h; cases h with | tupleVariant h => exact ⟨_, (becomeAll_iff hu l ht _).mpr h, rfl⟩
  | .map l, ht, v => by
    rw [Typed] at ht
    rw [SV.toValue, bind_ok]
    constructor
    · rintro ⟨x, h, e⟩; cases e
      obtain ⟨pairs, hp, e⟩ := (entries_iff hu l ht _ _).mp h
      exact .map hp (mapOf_iff.mpr e)
    · intro h; cases h with
      | map h hm => exact ⟨_, (entries_iff hu l ht [] _).mpr ⟨_, h, mapOf_iff.mp hm⟩, rfl⟩
  | .struct l, ht, v => by
    rw [Typed] at ht
    rw [SV.toValue, bind_ok]
    constructor
    · rintro ⟨x, h, e⟩; cases e
      obtain ⟨pairs, hp, e⟩ := (fields_iff hu l ht _ _).mp h
      exact .struct hp (mapOf_iff.mpr e)
    · intro h; cases h with
      | struct h hm => exact ⟨_, (fields_iff hu l ht [] _).mpr ⟨_, h, mapOf_iff.mp hm⟩, rfl⟩
  | .structVariant n l, ht, v => by
    rw [Typed] at ht
    rw [SV.toValue, bind_ok]
    constructor
    · rintro ⟨x, h, e⟩; cases e
      obtain ⟨pairs, hp, e⟩ := (fields_iff hu l ht _ _).mp h
      exact .structVariant hp (mapOf_iff.mpr e)
    · intro h; cases h with
      | structVariant h hm => exact ⟨_, (fields_iff hu l ht [] _).mpr ⟨_, h, mapOf_iff.mp hm⟩, rfl⟩

theorem becomeAll_iff (hu : env.usizeBits ≤ 64) : ∀ (l : List SV), TypedAll env l → ∀ vs,
    SV.toValues env l = .ok vs ↔ BecomeAll env l vs
  | [], _, vs => ⟨fun h => by cases h; exact .nil, fun h => by cases h; rfl⟩
  | s :: l, ht, vs => by
    rw [TypedAll] at ht
    rw [SV.toValues, bind_ok]
    constructor
    · rintro ⟨x, h, e⟩
      rw [bind_ok] at e
      obtain ⟨xs, h', e⟩ := e
      cases e
      exact .cons ((becomes_iff hu s ht.1 _).mp h) ((becomeAll_iff hu l ht.2 _).mp h')
    · intro h
      cases h with
      | cons h h' =>
        refine ⟨_, (becomes_iff hu s ht.1 _).mpr h, ?_⟩
        rw [(becomeAll_iff hu l ht.2 _).mpr h']; rfl

theorem entries_iff (hu : env.usizeBits ≤ 64) : ∀ (l : List (SV × SV)), TypedEntries env l → ∀ (m m' : BMap Value),
    SV.toEntries env m l = .ok m' ↔ ∃ pairs, EntriesBecome env l pairs ∧ m' = pairs.foldl (fun m p => m.insert p.1 p.2) m
  | [], _, m, m' => by
    constructor
    · intro h; cases h; exact ⟨[], .nil, rfl⟩
    · rintro ⟨_, h, e⟩; cases h; rw [e]; rfl
  | (k, s) :: l, ht, m, m' => by
    rw [TypedEntries] at ht
    rw [SV.toEntries, bind_ok]
    constructor
    · rintro ⟨n, hk, e⟩
      rw [bind_ok] at e
      obtain ⟨x, hx, e⟩ := e
      obtain ⟨pairs, hp, e⟩ := (entries_iff hu l ht.2.2 _ _).mp e
      exact ⟨(n, x) :: pairs, .cons ((C34_key _ _).mp hk) ((becomes_iff hu s ht.2.1 _).mp hx) hp, e⟩
    · rintro ⟨_, h, e⟩
      cases h with
      | cons hk hx hp =>
        refine ⟨_, (C34_key _ _).mpr hk, ?_⟩
        rw [(becomes_iff hu s ht.2.1 _).mpr hx, Res.ok_bind]
        exact (entries_iff hu l ht.2.2 _ _).mpr ⟨_, hp, e⟩

theorem fields_iff (hu : env.usizeBits ≤ 64) : ∀ (l : List (Str × SV)), TypedFields env l → ∀ (m m' : BMap Value),
    SV.toFields env m l = .ok m' ↔ ∃ pairs, FieldsBecome env l pairs ∧ m' = pairs.foldl (fun m p => m.insert p.1 p.2) m
  | [], _, m, m' => by
    constructor
    · intro h; cases h; exact ⟨[], .nil, rfl⟩
    · rintro ⟨_, h, e⟩; cases h; rw [e]; rfl
  | (k, s) :: l, ht, m, m' => by
    rw [TypedFields] at ht
    rw [SV.toFields, bind_ok]
    constructor
    · rintro ⟨x, hx, e⟩
      obtain ⟨pairs, hp, e⟩ := (fields_iff hu l ht.2 _ _).mp e
      exact ⟨(k, x) :: pairs, .cons ((becomes_iff hu s ht.1 _).mp hx) hp, e⟩
    · rintro ⟨_, h, e⟩
      cases h with
      | cons hx hp =>
        refine ⟨_, (becomes_iff hu s ht.1 _).mpr hx, ?_⟩
        exact (fields_iff hu l ht.2 _ _).mpr ⟨_, hp, e⟩
end

/-- **C33** Serialising a tree of data succeeds exactly if it has a value, and gives that value. In
particular an integer outside the 64-bit signed range has none. -/
theorem C33_becomes (hu : env.usizeBits ≤ 64) {s : SV} (ht : Typed env s) (v : Value) :
    s.toValue env = .ok v ↔ Becomes env s v := becomes_iff hu s ht v

mutual
theorem toValue_total : ∀ (s : SV), (∃ v, s.toValue env = .ok v) ∨ ∃ m, s.toValue env = .err (serializeErr m)
  | .int t i => by
    cases t <;> first | exact .inl ⟨_, rfl⟩ | exact .inr ⟨_, rfl⟩ | skip
    all_goals
      rw [SV.toValue]
      split
      · exact .inl ⟨_, rfl⟩
      · exact .inr ⟨_, rfl⟩
  | .bool _ | .f32 _ | .f64 _ | .char _ | .str _ | .bytes _ | .none | .unit | .unitStruct | .unitVariant _ => .inl ⟨_, rfl⟩
  | .some s => by rw [SV.toValue]; exact toValue_total s
  | .newtypeStruct s => by rw [SV.toValue]; exact toValue_total s
  | .newtypeVariant n s => by
    rw [SV.toValue]
    rcases toValue_total s with ⟨v, h⟩ | ⟨m, h⟩ <;> rw [h] <;> first | exact .inl ⟨_, rfl⟩ | exact .inr ⟨_, rfl⟩
  | .seq l | .tuple l | .tupleStruct l | .tupleVariant _ l => by
    rw [SV.toValue]
    rcases toValues_total l with ⟨v, h⟩ | ⟨m, h⟩ <;> rw [h] <;> first | exact .inl ⟨_, rfl⟩ | exact .inr ⟨_, rfl⟩
  | .map l => by
    rw [SV.toValue]
    rcases toEntries_total [] l with ⟨v, h⟩ | ⟨m, h⟩ <;> rw [h] <;> first | exact .inl ⟨_, rfl⟩ | exact .inr ⟨_, rfl⟩
  | .struct l | .structVariant _ l => by
    rw [SV.toValue]
    rcases toFields_total [] l with ⟨v, h⟩ | ⟨m, h⟩ <;> rw [h] <;> first | exact .inl ⟨_, rfl⟩ | exact .inr ⟨_, rfl⟩

theorem toValues_total : ∀ (l : List SV), (∃ v, SV.toValues env l = .ok v) ∨ ∃ m, SV.toValues env l = .err (serializeErr m)
  | [] => .inl ⟨_, rfl⟩
  | s :: l => by
    rw [SV.toValues]
    rcases toValue_total s with ⟨v, h⟩ | ⟨m, h⟩ <;> rw [h]
    · rcases toValues_total l with ⟨v, h⟩ | ⟨m, h⟩ <;> rw [h] <;> first | exact .inl ⟨_, rfl⟩ | exact .inr ⟨_, rfl⟩
    · exact .inr ⟨_, rfl⟩

theorem toEntries_total : ∀ (m : BMap Value) (l : List (SV × SV)),
    (∃ v, SV.toEntries env m l = .ok v) ∨ ∃ e, SV.toEntries env m l = .err (serializeErr e)
  | m, [] => .inl ⟨_, rfl⟩
  | m, (k, s) :: l => by
    rw [SV.toEntries]
    rcases key_or_err k with ⟨n, h⟩ | ⟨e, h⟩ <;> rw [h]
    · rcases toValue_total s with ⟨v, h⟩ | ⟨e, h⟩ <;> rw [Res.ok_bind, h]
      · exact toEntries_total _ l
      · exact .inr ⟨_, rfl⟩
    · exact .inr ⟨_, rfl⟩

theorem toFields_total : ∀ (m : BMap Value) (l : List (Str × SV)),
    (∃ v, SV.toFields env m l = .ok v) ∨ ∃ e, SV.toFields env m l = .err (serializeErr e)
  | m, [] => .inl ⟨_, rfl⟩
  | m, (k, s) :: l => by
    rw [SV.toFields]
    rcases toValue_total s with ⟨v, h⟩ | ⟨e, h⟩ <;> rw [h]
    · exact toFields_total _ l
    · exact .inr ⟨_, rfl⟩
end

/-- **C33** Data without a value is an error of the serializer, never a panic. -/
theorem C33_no_value (hu : env.usizeBits ≤ 64) {s : SV} (ht : Typed env s) (h : ∀ v, ¬ Becomes env s v) :
    ∃ m, s.toValue env = .err (serializeErr m) := by
  rcases toValue_total (env := env) s with ⟨v, h'⟩ | h'
  · exact absurd ((C33_becomes hu ht v).mp h') (h v)
  · exact h'

/-- **C33** An unsigned 64-bit integer above the signed range is rejected, not wrapped. -/
theorem C33_out_of_range {i : Int} (h : 2 ^ 63 ≤ i) : ∃ m, (SV.int .u64 i).toValue env = .err (serializeErr m) := by
  refine ⟨"out of range integral type conversion attempted", ?_⟩
  rw [SV.toValue, if_neg (by omega), custom_eq]

/-! Values in, values out -/

mutual
theorem typed_serialize : ∀ (v : Value), Machine v → Typed env v.serialize
  | .none, _ | .bool _, _ | .float _, _ | .string _, _ => by simp [Value.serialize, Typed]
  | .integer i, h => by rw [Machine] at h; simpa [Value.serialize, Typed, Fits, FitsI64] using h
  | .list l, h => by rw [Machine] at h; rw [Value.serialize, Typed]; exact typed_serializeList l h
  | .map m, h => by rw [Machine] at h; rw [Value.serialize, Typed]; exact typed_serializeMap m h
theorem typed_serializeList : ∀ (l : List Value), MachineList l → TypedAll env (Value.serializeList l)
  | [], _ => trivial
  | v :: l, h => by rw [MachineList] at h; exact ⟨typed_serialize v h.1, typed_serializeList l h.2⟩
theorem typed_serializeMap : ∀ (m : List (Str × Value)), MachineMap m → TypedEntries env (Value.serializeMap m)
  | [], _ => trivial
  | (k, v) :: m, h => by
    rw [MachineMap] at h
    rw [Value.serializeMap, TypedEntries]
    exact ⟨by simp [Typed], typed_serialize v h.1, typed_serializeMap m h.2⟩
end

mutual
theorem round_trip : ∀ (v : Value), Ordered v → v.serialize.toValue env = .ok v
  | .none, _ | .bool _, _ | .float _, _ | .string _, _ | .integer _, _ => rfl
  | .list l, h => by
    rw [Ordered] at h
    rw [Value.serialize, SV.toValue, round_tripList l h]; rfl
  | .map m, h => by
    rw [Ordered] at h
    rw [Value.serialize, SV.toValue, round_tripMap m h.2]
    show Res.ok (Value.map (BMap.ofList m)) = _
    rw [ofList_ascending h.1]
theorem round_tripList : ∀ (l : List Value), OrderedList l → SV.toValues env (Value.serializeList l) = .ok l
  | [], _ => rfl
  | v :: l, h => by
    rw [OrderedList] at h
    rw [Value.serializeList, SV.toValues, round_trip v h.1, Res.ok_bind, round_tripList l h.2]; rfl
theorem round_tripMap : ∀ (m : List (Str × Value)), OrderedMap m → ∀ {a : BMap Value},
    SV.toEntries env a (Value.serializeMap m) = .ok (m.foldl (fun m p => m.insert p.1 p.2) a)
  | [], _, _ => rfl
  | (k, v) :: m, h, a => by
    rw [OrderedMap] at h
    rw [Value.serializeMap, SV.toEntries, SV.toKey, Res.ok_bind, round_trip v h.1, Res.ok_bind, round_tripMap m h.2]
    rfl
end

/-- **C33** Serialising a value gives the same value back. -/
theorem C33_value {v : Value} (h : Ordered v) : v.serialize.toValue env = .ok v := round_trip v h

theorem orderedMap_iff {m : List (Str × Value)} : OrderedMap m ↔ ∀ p ∈ m, Ordered p.2 := by
  induction m with
  | nil => simp [OrderedMap]
  | cons p m ih => simp [OrderedMap, ih]

theorem orderedList_iff {l : List Value} : OrderedList l ↔ ∀ v ∈ l, Ordered v := by
  induction l with
  | nil => simp [OrderedList]
  | cons p m ih => simp [OrderedList, ih]

theorem machineMap_iff {m : List (Str × Value)} : MachineMap m ↔ ∀ p ∈ m, Machine p.2 := by
  induction m with
  | nil => simp [MachineMap]
  | cons p m ih => simp [MachineMap, ih]

theorem machineList_iff {l : List Value} : MachineList l ↔ ∀ v ∈ l, Machine v := by
  induction l with
  | nil => simp [MachineList]
  | cons p m ih => simp [MachineList, ih]

theorem mapOf_ordered {pairs m : List (Str × Value)} (h : MapOf pairs m) (hp : ∀ p ∈ pairs, Ordered p.2) :
    Ordered (.map m) := by
  rw [Ordered]
  refine ⟨h.1, orderedMap_iff.mpr fun p hm => ?_⟩
  obtain ⟨a, b, e, _⟩ := (h.2 p.1 p.2).mp hm
  exact hp p (by rw [e]; simp)

theorem mapOf_machine {pairs m : List (Str × Value)} (h : MapOf pairs m) (hp : ∀ p ∈ pairs, Machine p.2) :
    Machine (.map m) := by
  rw [Machine]
  refine machineMap_iff.mpr fun p hm => ?_
  obtain ⟨a, b, e, _⟩ := (h.2 p.1 p.2).mp hm
  exact hp p (by rw [e]; simp)

theorem ordered_single {n : Str} {v : Value} (h : Ordered v) : Ordered (.map [(n, v)]) := by
  rw [Ordered]; exact ⟨by simp [Ascending], h, trivial⟩

mutual
theorem becomes_good : ∀ {s : SV} {v : Value}, Becomes env s v → Ordered v ∧ Machine v
  | _, _, .bool | _, _, .f32 | _, _, .f64 | _, _, .char | _, _, .str | _, _, .none | _, _, .unit | _, _, .unitStruct
  | _, _, .unitVariant => by simp [Ordered, Machine]
  | _, _, .int _ h => by rw [Ordered, Machine] <;> simp_all
  | _, _, .bytes => by
    rw [Ordered, Machine]
    refine ⟨orderedList_iff.mpr fun v hv => ?_, machineList_iff.mpr fun v hv => ?_⟩
    · obtain ⟨x, _, rfl⟩ := List.mem_map.mp hv
      simp [Ordered]
    · obtain ⟨x, _, rfl⟩ := List.mem_map.mp hv
      have := x.toNat_lt
      rw [Machine]; unfold FitsI64; omega
  | _, _, .some h => becomes_good h
  | _, _, .newtypeStruct h => becomes_good h
  | _, _, .newtypeVariant h => by
    obtain ⟨h1, h2⟩ := becomes_good h
    exact ⟨ordered_single h1, by rw [Machine]; exact ⟨h2, trivial⟩⟩
  | _, _, .seq h => by rw [Ordered, Machine]; exact becomeAll_good h
  | _, _, .tuple h => by rw [Ordered, Machine]; exact becomeAll_good h
  | _, _, .tupleStruct h => by rw [Ordered, Machine]; exact becomeAll_good h
  | _, _, .tupleVariant h => by
    obtain ⟨h1, h2⟩ := becomeAll_good h
    exact ⟨ordered_single (by rw [Ordered]; exact h1), by rw [Machine]; exact ⟨by rw [Machine]; exact h2, trivial⟩⟩
  | _, _, .map h hm => by
    have := entriesBecome_good h
    exact ⟨mapOf_ordered hm fun p hp => (this p hp).1, mapOf_machine hm fun p hp => (this p hp).2⟩
  | _, _, .struct h hm => by
    have := fieldsBecome_good h
    exact ⟨mapOf_ordered hm fun p hp => (this p hp).1, mapOf_machine hm fun p hp => (this p hp).2⟩
  | _, _, .structVariant h hm => by
    have := fieldsBecome_good h
    exact ⟨ordered_single (mapOf_ordered hm fun p hp => (this p hp).1),
      by rw [Machine]; exact ⟨mapOf_machine hm fun p hp => (this p hp).2, trivial⟩⟩
theorem becomeAll_good : ∀ {l : List SV} {vs : List Value}, BecomeAll env l vs → OrderedList vs ∧ MachineList vs
  | _, _, .nil => ⟨trivial, trivial⟩
  | _, _, .cons h hs => ⟨⟨(becomes_good h).1, (becomeAll_good hs).1⟩, (becomes_good h).2, (becomeAll_good hs).2⟩
theorem entriesBecome_good : ∀ {l : List (SV × SV)} {ps : List (Str × Value)}, EntriesBecome env l ps →
    ∀ p ∈ ps, Ordered p.2 ∧ Machine p.2
  | _, _, .nil, _, h => by cases h
  | _, _, .cons _ h hs, p, hp => by
    rcases List.mem_cons.mp hp with rfl | hp
    · exact becomes_good h
    · exact entriesBecome_good hs p hp
theorem fieldsBecome_good : ∀ {l : List (Str × SV)} {ps : List (Str × Value)}, FieldsBecome env l ps →
    ∀ p ∈ ps, Ordered p.2 ∧ Machine p.2
  | _, _, .nil, _, h => by cases h
  | _, _, .cons h hs, p, hp => by
    rcases List.mem_cons.mp hp with rfl | hp
    · exact becomes_good h
    · exact fieldsBecome_good hs p hp
end

/-- **C33** What comes out of the serializer is a proper value: sorted maps, 64-bit integers. So it
serialises to itself again. -/
theorem C33_stable (hu : env.usizeBits ≤ 64) {s : SV} (ht : Typed env s) {v : Value} (h : s.toValue env = .ok v) :
    Ordered v ∧ Machine v ∧ v.serialize.toValue env = .ok v := by
  obtain ⟨h1, h2⟩ := becomes_good ((C33_becomes hu ht v).mp h)
  exact ⟨h1, h2, C33_value h1⟩

/-- **C33** Data has at most one value. -/
theorem C33_unique (hu : env.usizeBits ≤ 64) {s : SV} (ht : Typed env s) {v w : Value} (hv : Becomes env s v)
    (hw : Becomes env s w) : v = w := by
  have := (C33_becomes hu ht v).mpr hv
  rw [(C33_becomes hu ht w).mpr hw] at this
  cases this; rfl

theorem entries_length {l : List (SV × SV)} {ps : List (Str × Value)} (h : EntriesBecome env l ps) :
    ∀ i (hi : i < ps.length), ∃ hl : i < l.length, KeyText l[i].1 ps[i].1 ∧ Becomes env l[i].2 ps[i].2 := by
  induction l generalizing ps with
  | nil => cases h; intro i hi; cases hi
  | cons q l ih =>
    cases h with
    | cons hk hv hs =>
      intro i hi
      cases i with
      | zero => exact ⟨by simp, hk, hv⟩
      | succ i =>
        obtain ⟨h1, h2⟩ := ih hs i (by simpa using hi)
        exact ⟨by simpa using h1, h2⟩

/-- **C34** A map whose keys are of one type and distinct loses no entry: every entry is found under the
text of its key. -/
theorem C34_entries (hu : env.usizeBits ≤ 64) {l : List (SV × SV)} (ht : Typed env (.map l))
    (hk : l.Pairwise fun p q => SameKind p.1 q.1 ∧ p.1 ≠ q.1) {v : Value} (h : (SV.map l).toValue env = .ok v) :
    ∃ m, v = .map m ∧ ∀ n x, (n, x) ∈ m ↔ ∃ p ∈ l, KeyText p.1 n ∧ Becomes env p.2 x := by
  have hb := (C33_becomes hu ht v).mp h
  cases hb with
  | map he hm =>
    rename_i pairs m
    refine ⟨m, rfl, fun n x => ?_⟩
    rw [hm.2]
    rw [Typed] at ht
    clear h hm
    induction l generalizing pairs with
    | nil =>
      cases he
      constructor
      · rintro ⟨a, b, e, _⟩; cases a <;> cases e
      · rintro ⟨p, hp, _⟩; cases hp
    | cons q l ih =>
      cases he with
      | cons hk' hv hs =>
        rename_i k s n' x' ps
        rw [List.pairwise_cons] at hk
        rw [TypedEntries] at ht
        have ih := ih ht.2.2 hk.2 hs
        constructor
        · rintro ⟨a, b, e, hne⟩
          cases a with
          | nil => cases e; exact ⟨(k, s), by simp, hk', hv⟩
          | cons a0 a =>
            have e2 := (List.cons.inj e).2
            obtain ⟨p, hp, h⟩ := ih.mp ⟨a, b, e2, hne⟩
            exact ⟨p, List.mem_cons_of_mem _ hp, h⟩
        · rintro ⟨p, hp, hn, hx⟩
          rcases List.mem_cons.mp hp with rfl | hp
          · have e1 : n = n' := by
              have h1 := (C34_key _ _).mpr hn
              rw [(C34_key _ _).mpr hk'] at h1
              cases h1; rfl
            have e2 : x = x' := C33_unique hu ht.2.1 hx hv
            subst e1 e2
            refine ⟨[], ps, rfl, fun p hp e => ?_⟩
            obtain ⟨i, hi, rfl⟩ := List.mem_iff_getElem.mp hp
            obtain ⟨hl, h1, _⟩ := entries_length hs i hi
            rw [e] at h1
            have := hk.1 l[i] (List.getElem_mem hl)
            exact this.2 (C34_injective this.1 hk' h1)
          · obtain ⟨a, b, e, hne⟩ := ih.mpr ⟨p, hp, hn, hx⟩
            exact ⟨_ :: a, b, by rw [e]; rfl, hne⟩

/-! A concrete case: a struct holding a map with integer keys given out of order, an option and a variant. -/

/-- `Data { ids: {2: 'b', -1: "a"}, kind: Kind::New(Some(7u64)) }` -/
def exampleTree : SV := .struct [("ids".toList, .map [(.int .i32 2, .char 'b'), (.int .i32 (-1), .str "a".toList)]),
  ("kind".toList, .newtypeVariant "New".toList (.some (.int .u64 7)))]

example (env : Env) (hu : env.usizeBits ≤ 64) : Typed env exampleTree ∧
    Becomes env exampleTree (.map [("ids".toList, .map [("-1".toList, .string "a".toList), ("2".toList, .string "b".toList)]),
      ("kind".toList, .map [("New".toList, .integer 7)])]) := by
  have ht : Typed env exampleTree := by
    simp [exampleTree, Typed, TypedFields, TypedEntries, Fits]
  refine ⟨ht, (C33_becomes hu ht _).mp ?_⟩
  rfl

example : ([(.int .i32 2, .char 'b'), (.int .i32 (-1), .str "a".toList)] : List (SV × SV)).Pairwise
    fun p q => SameKind p.1 q.1 ∧ p.1 ≠ q.1 := by
  simp only [List.pairwise_cons, List.mem_singleton, List.not_mem_nil]
  refine ⟨fun q hq => ?_, ⟨fun _ h => (by cases h), .nil⟩⟩
  subst hq
  exact ⟨.int, by simp⟩

/-- A key that is not text: no value. -/
example (env : Env) : ∀ s, ¬ KeyText (.bool true) s := fun s h => by cases h

/-! Conversions -/

/-- **C38** A vector or an array becomes the list of its elements, in order. -/
theorem C38_list (into : V → Value) (l : List V) :
    ∃ vs, Value.ofVec into l = .list vs ∧ vs.length = l.length ∧ ∀ i (h : i < l.length) (h' : i < vs.length), vs[i] = into l[i] :=
  ⟨l.map into, rfl, by simp, by simp⟩

/-- **C38** Pairs become their map: sorted by key, each key once, the last value given for it. -/
theorem C38_map {K : Type} (key : K → Str) (into : V → Value) (l : List (K × V)) (m : List (Str × Value)) :
    Value.ofPairs key into l = .map m ↔ MapOf (l.map fun p => (key p.1, into p.2)) m := by
  rw [mapOf_iff, Value.ofPairs]
  exact ⟨fun h => by cases h; rfl, fun h => by rw [h]⟩

/-- **C38** If the keys are distinct, as in a `BTreeMap` or a `HashMap`, every entry is kept, and the
order the entries come in does not matter. -/
theorem C38_distinct {K : Type} (key : K → Str) (into : V → Value) (l l' : List (K × V)) (hp : l.Perm l')
    (hd : (l.map fun p => key p.1).Nodup) :
    Value.ofPairs key into l = Value.ofPairs key into l' ∧
    ∃ m, Value.ofPairs key into l = .map m ∧ ∀ n v, (n, v) ∈ m ↔ ∃ p ∈ l, n = key p.1 ∧ v = into p.2 := by
  have mem : ∀ (l : List (K × V)), (l.map fun p => key p.1).Nodup → ∀ n v,
      LastFor (l.map fun p => (key p.1, into p.2)) n v ↔ ∃ p ∈ l, n = key p.1 ∧ v = into p.2 := by
    intro l hd n v
    constructor
    · rintro ⟨a, b, e, _⟩
      have : (n, v) ∈ l.map fun p => (key p.1, into p.2) := by rw [e]; simp
      obtain ⟨p, hp, e⟩ := List.mem_map.mp this
      cases e
      exact ⟨p, hp, rfl, rfl⟩
    · rintro ⟨p, hp, rfl, rfl⟩
      obtain ⟨a, b, rfl⟩ := List.append_of_mem hp
      refine ⟨a.map fun p => (key p.1, into p.2), b.map fun p => (key p.1, into p.2), by simp, ?_⟩
      intro q hq e
      obtain ⟨q', hq', rfl⟩ := List.mem_map.mp hq
      rw [List.map_append, List.map_cons, List.nodup_append] at hd
      have := (List.nodup_cons.mp hd.2.1).1
      exact this (List.mem_map.mpr ⟨q', hq', e⟩)
  have h1 := mapOf_ofList (l.map fun p => (key p.1, into p.2))
  have h2 := mapOf_ofList (l'.map fun p => (key p.1, into p.2))
  refine ⟨?_, _, rfl, fun n v => by rw [h1.2, mem l hd]⟩
  rw [Value.ofPairs, Value.ofPairs]
  congr 1
  refine mapOf_unique h1 ⟨h2.1, fun k v => ?_⟩
  have hd' : (l'.map fun p => key p.1).Nodup := (hp.map _).nodup_iff.mp hd
  rw [h2.2, mem l' hd', mem l hd]
  exact ⟨fun ⟨p, h, e⟩ => ⟨p, hp.mem_iff.mpr h, e⟩, fun ⟨p, h, e⟩ => ⟨p, hp.mem_iff.mp h, e⟩⟩

/-- How serde serializes the types of the scalar conversions. -/
inductive Spec.Serialized : Scalar → SV → Prop
  | unit : Serialized .unit .unit
  | bool {b} : Serialized (.bool b) (.bool b)
  | int {t i} : t ∈ [IntTy.u8, .u16, .u32, .i8, .i16, .i32, .i64] → Serialized (.int i) (.int t i)
  | f32 {f} : Serialized (.f32 f) (.f32 f)
  | f64 {f} : Serialized (.f64 f) (.f64 f)
  | string {s} : Serialized (.string s) (.str s)

/-- **C38** Converting a scalar gives the value that serializing it gives. -/
theorem C38_scalar (env : Env) {s : Scalar} {x : SV} (h : Serialized s x) : x.toValue env = .ok (Value.ofScalar env s) := by
  cases h with
  | int ht =>
    simp only [List.mem_cons, List.not_mem_nil, or_false] at ht
    rcases ht with rfl | rfl | rfl | rfl | rfl | rfl | rfl <;> rfl
  | _ => rfl

/-- **C38** Likewise for collections and options, if it is so for what is in them: vectors (serialized as sequences), arrays (as tuples), maps, and options. -/
theorem C38_serialized (env : Env) (ser : V → SV) (into : V → Value) (h : ∀ v, (ser v).toValue env = .ok (into v)) :
    (∀ l : List V, (SV.seq (l.map ser)).toValue env = .ok (Value.ofVec into l)) ∧ (∀ l : List V, (SV.tuple (l.map ser)).toValue env = .ok (Value.ofVec into l)) ∧
    (∀ {K : Type} (key : K → Str) (l : List (K × V)),
      (SV.map (l.map fun p => (.str (key p.1), ser p.2))).toValue env = .ok (Value.ofPairs key into l)) ∧
    SV.none.toValue env = .ok (Value.ofOption into none) ∧ (∀ v, (SV.some (ser v)).toValue env = .ok (Value.ofOption into (some v))) := by
  have hl : ∀ l : List V, SV.toValues env (l.map ser) = .ok (l.map into) := by
    intro l
    induction l with
    | nil => rfl
    | cons v l ih => simp only [List.map_cons, SV.toValues, h, ih, Res.ok_bind]
  have hm : ∀ {K : Type} (key : K → Str) (l : List (K × V)) (m : BMap Value),
      SV.toEntries env m (l.map fun p => (.str (key p.1), ser p.2)) = .ok ((l.map fun p => (key p.1, into p.2)).foldl (fun m p => BMap.insert m p.1 p.2) m) := by
    intro K key l
    induction l with
    | nil => exact fun _ => rfl
    | cons v l ih => intro m; simp only [List.map_cons, SV.toEntries, SV.toKey, h, ih, Res.ok_bind, List.foldl_cons]
  refine ⟨fun l => ?_, fun l => ?_, fun key l => ?_, rfl, fun v => h v⟩
  · simp only [SV.toValue, hl, Res.ok_bind]; rfl
  · simp only [SV.toValue, hl, Res.ok_bind]; rfl
  · simp only [SV.toValue, hm, Res.ok_bind]; rfl

/-- **C38** Conversions of proper values are proper values. -/
theorem C38_proper (into : V → Value) (hi : ∀ v, Ordered (into v) ∧ Machine (into v)) :
    (∀ l : List V, Ordered (Value.ofVec into l) ∧ Machine (Value.ofVec into l)) ∧
    (∀ {K : Type} (key : K → Str) (l : List (K × V)), Ordered (Value.ofPairs key into l) ∧ Machine (Value.ofPairs key into l)) ∧
    (∀ o : Option V, Ordered (Value.ofOption into o) ∧ Machine (Value.ofOption into o)) := by
  refine ⟨fun l => ?_, fun key l => ?_, fun o => ?_⟩
  · rw [Value.ofVec, Ordered, Machine, orderedList_iff, machineList_iff]
    constructor <;> intro v hv <;> obtain ⟨x, _, rfl⟩ := List.mem_map.mp hv
    · exact (hi x).1
    · exact (hi x).2
  · have h1 := mapOf_ofList (l.map fun p => (key p.1, into p.2))
    refine ⟨mapOf_ordered h1 fun p hp => ?_, mapOf_machine h1 fun p hp => ?_⟩ <;>
      obtain ⟨x, _, rfl⟩ := List.mem_map.mp hp
    · exact (hi x.2).1
    · exact (hi x.2).2
  · cases o with
    | none => simp [Value.ofOption, Ordered, Machine]
    | some v => exact hi v

end Upon
