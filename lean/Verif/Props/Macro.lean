import Verif.Spec.Macro
import Verif.Props.Serial
/-
C42: the `value!` macro.
-/
namespace Upon
open Spec

namespace Macro

/-- An empty accumulator matches both forms. -/
theorem munch_nil (b : Bool) (ts : List TT) : munchList [] b ts = munchList [] true ts := by
  rw [munchList.eq_def, munchList.eq_def [] true ts]
  cases b <;> simp

theorem munch_commas (n : Nat) (b : Bool) (ts : List TT) :
    munchList [] b (List.replicate n .comma ++ ts) = munchList [] true ts := by
  induction n generalizing b with
  | zero => simp [munch_nil b]
  | succ n ih => rw [List.replicate_succ, List.cons_append, munchList]; simpa using ih true

/-- What may follow a value. -/
inductive Follow : List TT → Prop
  | nil : Follow []
  | comma {ts} : Follow (.comma :: ts)

/-- After a value, when nothing or a comma follows. -/
def after (es : List MacroCode) : List TT → Option (List MacroCode)
  | .comma :: ts => munchList es true ts
  | _ => some es

theorem open_after (es : List MacroCode) {ts : List TT} (hf : Follow ts) : munchList es false ts = after es ts := by
  cases hf with
  | nil => rw [munchList, after]; nofun
  | comma => rw [munchList, after]; simp

theorem list_none (es : List MacroCode) {trail : Bool} (ht : (trail || es.isEmpty) = true) (v : SV) (ts : List TT) :
    munchList es trail (.ident "None".toList v :: ts) = munchList (es ++ [.none]) false ts := by
  rw [munchList.eq_def]; simp only [ht, if_true]

theorem list_word (es : List MacroCode) {trail : Bool} (ht : (trail || es.isEmpty) = true) {n : Str} (hn : n ≠ "None".toList)
    (v : SV) {ts : List TT} (hf : Follow ts) : munchList es trail (.ident n v :: ts) = after (es ++ [.convert v]) ts := by
  rw [munchList.eq_def]; simp only [ht, if_true, hn, if_false]
  cases hf <;> rfl

theorem list_expr (es : List MacroCode) {trail : Bool} (ht : (trail || es.isEmpty) = true)
    (v : SV) {ts : List TT} (hf : Follow ts) : munchList es trail (.expr v :: ts) = after (es ++ [.convert v]) ts := by
  rw [munchList.eq_def]; simp only [ht, if_true]
  cases hf <;> rfl

mutual
theorem list_value {w : Written} {t : TT} (h : Spelled w t) {es : List MacroCode} {trail : Bool} (ht : (trail || es.isEmpty) = true)
    {ts : List TT} (hf : Follow ts) : munchList es trail (t :: ts) = after (es ++ [w.code]) ts := by
  match h with
  | .none => rw [list_none es ht, open_after _ hf]; rfl
  | .word hn => exact list_word es ht hn _ hf
  | .expr => exact list_expr es ht _ hf
  | .list (n := n) (ts := us) hl =>
    rw [munchList, if_pos ht, munch_commas, list_elems hl rfl]
    exact open_after _ hf
  | .map hl =>
    rw [munchList, if_pos ht, map_entries hl]
    exact open_after _ hf
theorem list_elems {ws : List Written} {ts : List TT} (h : Elems ws ts) {es : List MacroCode} {trail : Bool}
    (ht : (trail || es.isEmpty) = true) : munchList es trail ts = some (es ++ Written.codes ws) := by
  match h with
  | .nil => rw [munchList]; simp [Written.codes]
  | .last h => rw [list_value h ht .nil]; rfl
  | .more h h' =>
    rw [list_value h ht .comma, after, list_elems h' rfl]
    simp [Written.codes]
theorem map_value {w : Written} {t : TT} (h : Spelled w t) (k : Str) {ts : List TT} (hf : Follow ts) :
    munchEntry k (.colon :: t :: ts) = munchInsert k w.code ts := by
  match h with
  | .none => rw [munchEntry.eq_def]; simp only [if_true]; rfl
  | .word hn =>
    rw [munchEntry.eq_def]; simp only [hn, if_false]
    cases hf <;> rfl
  | .expr =>
    rw [munchEntry.eq_def]
    cases hf <;> rfl
  | .list (n := n) (ts := us) hl =>
    rw [munchEntry, munch_commas, list_elems hl rfl]; rfl
  | .map hl =>
    rw [munchEntry, map_entries hl]; rfl
theorem map_entries {ws : List (Str × Written)} {ts : List TT} (h : Entries ws ts) : munchMap ts = some (Written.entryCodes ws) := by
  match h with
  | .nil => rw [munchMap]; rfl
  | .last h => rw [munchMap, map_value h _ .nil, munchInsert]; rfl
  | .more h h' =>
    rw [munchMap, map_value h _ .comma, munchInsert, map_entries h']
    rfl
end

/-! ### Everything else is rejected -/

theorem open_sound {es : List MacroCode} (he : es ≠ []) {ts : List TT} {r : List MacroCode} (h : munchList es false ts = some r) :
    Follow ts ∧ after es ts = some r := by
  have hf : es.isEmpty = false := by simpa using he
  match ts with
  | [] => rw [munchList] at h; exact ⟨.nil, h⟩
  | .comma :: ts => rw [munchList, if_pos (by simp)] at h; exact ⟨.comma, h⟩
  | .ident n v :: ts => rw [munchList.eq_def] at h; simp [hf] at h
  | .expr v :: ts => rw [munchList.eq_def] at h; simp [hf] at h
  | .brackets l :: ts => rw [munchList.eq_def] at h; simp [hf] at h
  | .braces l :: ts => rw [munchList.eq_def] at h; simp [hf] at h
  | .colon :: ts => rw [munchList.eq_def] at h; simp at h
  | .other :: ts => rw [munchList.eq_def] at h; simp at h

/-- A list's tokens: elements, after commas if none came before. -/
def Sound (es : List MacroCode) (ts : List TT) (r : List MacroCode) : Prop :=
  ∃ n ws ts', ts = List.replicate n TT.comma ++ ts' ∧ (es ≠ [] → n = 0) ∧ Elems ws ts' ∧ r = es ++ Written.codes ws

theorem sound_step {w : Written} {t : TT} (hw : Spelled w t) {es : List MacroCode} {ts : List TT} {r : List MacroCode} (hf : Follow ts)
    (h : after (es ++ [w.code]) ts = some r)
    (ih : ∀ ts', ts = .comma :: ts' → munchList (es ++ [w.code]) true ts' = some r → Sound (es ++ [w.code]) ts' r) :
    Sound es (t :: ts) r := by
  cases hf with
  | nil => cases h; exact ⟨0, [w], [t], rfl, fun _ => rfl, .last hw, rfl⟩
  | comma =>
    obtain ⟨n, ws, ts', e, hn, hl, e'⟩ := ih _ rfl h
    have := hn (by simp); subst this; subst e; subst e'
    exact ⟨0, w :: ws, _, rfl, fun _ => rfl, .more hw hl, by simp [Written.codes]⟩

theorem insert_sound {k : Str} {v : SV} {w : Written} {t : TT} (hw : Spelled w t) {ts : List TT} {r : List (Str × MacroCode)}
    (h : munchInsert k w.code ts = some r)
    (ih : ∀ ts' r', ts = .comma :: ts' → munchMap ts' = some r' → ∃ ws, Entries ws ts' ∧ r' = Written.entryCodes ws) :
    ∃ ws, Entries ws (.ident k v :: .colon :: t :: ts) ∧ r = Written.entryCodes ws := by
  rw [munchInsert.eq_def] at h
  match ts with
  | [] => cases h; exact ⟨[(k, w)], .last hw, rfl⟩
  | .comma :: ts =>
    cases h' : munchMap ts with
    | none => simp [h'] at h
    | some r' =>
      simp [h'] at h; subst h
      obtain ⟨ws, hl, e⟩ := ih _ _ rfl h'
      subst e
      exact ⟨(k, w) :: ws, .more hw hl, rfl⟩
  | .ident n v :: ts => simp at h
  | .expr v :: ts => simp at h
  | .brackets l :: ts => simp at h
  | .braces l :: ts => simp at h
  | .colon :: ts => simp at h
  | .other :: ts => simp at h

mutual
theorem list_sound (es : List MacroCode) (trail : Bool) (ts : List TT) (r : List MacroCode) (ht : (trail || es.isEmpty) = true)
    (h : munchList es trail ts = some r) : Sound es ts r := by
  match ts with
  | [] => rw [munchList] at h; cases h; exact ⟨0, [], [], rfl, fun _ => rfl, .nil, by simp [Written.codes]⟩
  | .ident n v :: rest =>
    by_cases hn : n = "None".toList
    · subst hn
      rw [list_none es ht] at h
      obtain ⟨hf, h⟩ := open_sound (by simp) h
      exact sound_step (w := .none) .none hf h fun ts' e h' => list_sound _ true ts' r rfl h'
    · have hf : Follow rest := by
        rw [munchList.eq_def] at h; simp only [ht, hn, if_true, if_false] at h
        match rest, h with
        | [], _ => exact .nil
        | .comma :: _, _ => exact .comma
      rw [list_word es ht hn _ hf] at h
      exact sound_step (w := .expr v) (.word hn) hf h fun ts' e h' => list_sound _ true ts' r rfl h'
  | .expr v :: rest =>
    have hf : Follow rest := by
      rw [munchList.eq_def] at h; simp only [ht, if_true] at h
      match rest, h with
      | [], _ => exact .nil
      | .comma :: _, _ => exact .comma
    rw [list_expr es ht _ hf] at h
    exact sound_step (w := .expr v) .expr hf h fun ts' e h' => list_sound _ true ts' r rfl h'
  | .brackets l :: rest =>
    rw [munchList, if_pos ht] at h
    cases hc : munchList [] false l with
    | none => simp [hc] at h
    | some c =>
      simp [hc] at h
      obtain ⟨n, ws, us, e, -, hl, e'⟩ := list_sound [] false l c rfl hc
      simp at e'; subst e; subst e'
      obtain ⟨hf, h⟩ := open_sound (by simp) h
      exact sound_step (w := .list ws) (.list hl) hf h fun ts' e h' => list_sound _ true ts' r rfl h'
  | .braces l :: rest =>
    rw [munchList, if_pos ht] at h
    cases hc : munchMap l with
    | none => simp [hc] at h
    | some c =>
      simp [hc] at h
      obtain ⟨ws, hl, e⟩ := map_sound l c hc
      subst e
      obtain ⟨hf, h⟩ := open_sound (by simp) h
      exact sound_step (w := .map ws) (.map hl) hf h fun ts' e h' => list_sound _ true ts' r rfl h'
  | .comma :: rest =>
    rw [munchList] at h
    by_cases he : es = []
    · subst he
      rw [if_pos (by simp)] at h
      obtain ⟨n, ws, us, e, -, hl, e'⟩ := list_sound [] true rest r rfl h
      exact ⟨n + 1, ws, us, by rw [e]; rfl, fun h => absurd rfl h, hl, e'⟩
    · have : es.isEmpty = false := by simpa using he
      simp [this] at ht
      simp [this, ht] at h
  | .colon :: _ => rw [munchList] at h; cases h
  | .other :: _ => rw [munchList] at h; cases h
termination_by sizeOf ts
decreasing_by all_goals (subst_vars; simp; try omega)
theorem map_sound (ts : List TT) (r : List (Str × MacroCode)) (h : munchMap ts = some r) :
    ∃ ws, Entries ws ts ∧ r = Written.entryCodes ws := by
  match ts with
  | [] => rw [munchMap] at h; cases h; exact ⟨[], .nil, rfl⟩
  | .ident k kv :: .colon :: .ident n v :: rest =>
    rw [munchMap, munchEntry.eq_def] at h
    by_cases hn : n = "None".toList
    · subst hn
      simp only [if_true] at h
      exact insert_sound (w := .none) .none h fun ts' r' e h' => map_sound ts' r' h'
    · simp only [hn, if_false] at h
      refine insert_sound (w := .expr v) (.word hn) (ts := rest) ?_ fun ts' r' e h' => map_sound ts' r' h'
      match rest, h with
      | [], h => exact h
      | .comma :: _, h => exact h
  | .ident k kv :: .colon :: .expr v :: rest =>
    rw [munchMap, munchEntry.eq_def] at h
    refine insert_sound (w := .expr v) .expr (ts := rest) ?_ fun ts' r' e h' => map_sound ts' r' h'
    match rest, h with
    | [], h => exact h
    | .comma :: _, h => exact h
  | .ident k kv :: .colon :: .brackets l :: rest =>
    rw [munchMap, munchEntry] at h
    cases hc : munchList [] false l with
    | none => simp [hc] at h
    | some c =>
      simp [hc] at h
      obtain ⟨n, ws, us, e, -, hl, e'⟩ := list_sound [] false l c rfl hc
      simp at e'; subst e; subst e'
      exact insert_sound (w := .list ws) (.list hl) h fun ts' r' e h' => map_sound ts' r' h'
  | .ident k kv :: .colon :: .braces l :: rest =>
    rw [munchMap, munchEntry] at h
    cases hc : munchMap l with
    | none => simp [hc] at h
    | some c =>
      simp [hc] at h
      obtain ⟨ws, hl, e⟩ := map_sound l c hc
      subst e
      exact insert_sound (w := .map ws) (.map hl) h fun ts' r' e h' => map_sound ts' r' h'
  | [.ident k kv] => simp [munchMap.eq_def, munchEntry.eq_def] at h
  | [.ident k kv, .colon] => simp [munchMap.eq_def, munchEntry.eq_def] at h
  | .ident k kv :: .colon :: .comma :: _ => simp [munchMap.eq_def, munchEntry.eq_def] at h
  | .ident k kv :: .colon :: .colon :: _ => simp [munchMap.eq_def, munchEntry.eq_def] at h
  | .ident k kv :: .colon :: .other :: _ => simp [munchMap.eq_def, munchEntry.eq_def] at h
  | .ident k kv :: .comma :: _ => simp [munchMap.eq_def, munchEntry.eq_def] at h
  | .ident k kv :: .other :: _ => simp [munchMap.eq_def, munchEntry.eq_def] at h
  | .ident k kv :: .ident _ _ :: _ => simp [munchMap.eq_def, munchEntry.eq_def] at h
  | .ident k kv :: .expr _ :: _ => simp [munchMap.eq_def, munchEntry.eq_def] at h
  | .ident k kv :: .brackets _ :: _ => simp [munchMap.eq_def, munchEntry.eq_def] at h
  | .ident k kv :: .braces _ :: _ => simp [munchMap.eq_def, munchEntry.eq_def] at h
  | .expr v :: _ => simp [munchMap.eq_def] at h
  | .brackets l :: _ => simp [munchMap.eq_def] at h
  | .braces l :: _ => simp [munchMap.eq_def] at h
  | .comma :: _ => simp [munchMap.eq_def] at h
  | .colon :: _ => simp [munchMap.eq_def] at h
  | .other :: _ => simp [munchMap.eq_def] at h
termination_by sizeOf ts
decreasing_by all_goals (subst_vars; simp; try omega)
end

/-! ### Nothing is written in two ways -/

mutual
theorem code_inj : ∀ {w w' : Written}, w.code = w'.code → w = w'
  | .none, .none, _ => rfl
  | .expr _, .expr _, h => by rw [Written.code, Written.code] at h; cases h; rfl
  | .list l, .list l', h => by
    rw [Written.code, Written.code] at h
    rw [codes_inj (MacroCode.list.inj h)]
  | .map l, .map l', h => by
    rw [Written.code, Written.code] at h
    rw [entryCodes_inj (MacroCode.map.inj h)]
  | .none, .list _, h | .none, .map _, h | .none, .expr _, h | .list _, .none, h | .list _, .map _, h | .list _, .expr _, h
  | .map _, .none, h | .map _, .list _, h | .map _, .expr _, h | .expr _, .none, h | .expr _, .list _, h | .expr _, .map _, h => by
    rw [Written.code, Written.code] at h; cases h
theorem codes_inj : ∀ {l l' : List Written}, Written.codes l = Written.codes l' → l = l'
  | [], [], _ => rfl
  | [], _ :: _, h | _ :: _, [], h => by rw [Written.codes, Written.codes] at h; cases h
  | w :: l, w' :: l', h => by
    rw [Written.codes, Written.codes] at h
    rw [code_inj (List.cons.inj h).1, codes_inj (List.cons.inj h).2]
theorem entryCodes_inj : ∀ {l l' : List (Str × Written)}, Written.entryCodes l = Written.entryCodes l' → l = l'
  | [], [], _ => rfl
  | [], (_, _) :: _, h | (_, _) :: _, [], h => by rw [Written.entryCodes, Written.entryCodes] at h; cases h
  | (k, w) :: l, (k', w') :: l', h => by
    rw [Written.entryCodes, Written.entryCodes] at h
    obtain ⟨h1, h2⟩ := List.cons.inj h
    obtain ⟨h3, h4⟩ := Prod.mk.inj h1
    rw [h3, code_inj h4, entryCodes_inj h2]
end

/-! ### What the expansion does -/

variable {env : Env}

/-- The outcomes of the expanded program. -/
def Does {α : Type} (r : Res α) (P : α → Prop) (bad : Prop) : Prop :=
  (∀ v, r = .ok v ↔ P v) ∧ (r = .crash ↔ bad) ∧ ∀ e, r ≠ .err e

/-- A part's outcomes, in terms of what was written. -/
theorem does_ok {α : Type} (v : α) {P : α → Prop} {bad : Prop} (hp : ∀ x, P x ↔ v = x) (hb : ¬ bad) : Does (.ok v) P bad :=
  ⟨fun x => by rw [hp]; exact ⟨fun h => by cases h; rfl, fun h => by rw [h]⟩,
   ⟨fun h => (by cases h), fun h => absurd h hb⟩, fun e h => (by cases h)⟩

theorem does_bind {α β : Type} {r : Res α} {P : α → Prop} {b : Prop} (h : Does r P b) {f : α → Res β} {Q : β → Prop} {b' : Prop}
    {R : α → β → Prop} (hf : ∀ v, P v → Does (f v) (R v) b') (hq : ∀ x, Q x ↔ ∃ v, P v ∧ R v x) :
    Does (r >>= f) Q (b ∨ b') := by
  obtain ⟨h1, h2, h3⟩ := h
  cases r with
  | err e => exact absurd rfl (h3 e)
  | crash =>
    refine ⟨fun v => ⟨fun h => (by cases h), fun h => ?_⟩, ⟨fun _ => .inl (h2.mp rfl), fun _ => rfl⟩, fun e h => (by cases h)⟩
    obtain ⟨x, hx, -⟩ := (hq v).mp h
    exact absurd ((h1 x).mpr hx) (by simp)
  | ok x =>
    have hx : P x := (h1 x).mp rfl
    obtain ⟨g1, g2, g3⟩ := hf x hx
    have hb : ¬ b := fun h => by have := h2.mpr h; cases this
    refine ⟨fun v => ?_, ?_, g3⟩
    · rw [hq]
      show f x = .ok v ↔ _
      rw [g1]
      refine ⟨fun h => ⟨x, hx, h⟩, fun ⟨y, hy, h⟩ => ?_⟩
      have := (h1 y).mpr hy
      cases this
      exact h
    · show f x = .crash ↔ _
      rw [g2]
      exact ⟨.inr, fun h => h.resolve_left hb⟩

/-- The expressions without a value. -/
def Bad (env : Env) (P : SV → Prop) : Prop := ∃ s, P s ∧ ∀ v, ¬ Becomes env s v

mutual
theorem eval_does (hu : env.usizeBits ≤ 64) : ∀ (w : Written), (∀ s, Mentions w s → Typed env s) →
    Does (w.code.eval env) (Means env w) (Bad env (Mentions w))
  | .none, _ => by
    rw [Written.code, MacroCode.eval]
    exact does_ok _ (fun x => ⟨fun h => by cases h; rfl, fun h => by cases h; exact .none⟩) fun ⟨s, h, _⟩ => by cases h
  | .expr s, ht => by
    rw [Written.code, MacroCode.eval]
    have hm : ∀ v, Means env (.expr s) v ↔ s.toValue env = .ok v := fun v => by
      rw [C33_becomes hu (ht s .expr)]
      exact ⟨fun h => by cases h; assumption, .expr⟩
    rcases toValue_total (env := env) s with ⟨v, h⟩ | ⟨m, h⟩
    · rw [h]
      refine does_ok v (fun x => by rw [hm, h]; exact ⟨fun h => by cases h; rfl, fun h => by rw [h]⟩) fun ⟨s', h', hn⟩ => ?_
      cases h'
      exact hn v ((C33_becomes hu (ht s .expr) v).mp h)
    · rw [h]
      refine ⟨fun v => ?_, ⟨fun _ => ⟨s, .expr, fun v hv => ?_⟩, fun _ => rfl⟩, fun e h => (by cases h)⟩
      · rw [hm, h]; simp
      · rw [(C33_becomes hu (ht s .expr) v).mpr hv] at h; cases h
  | .list l, ht => by
    rw [Written.code, MacroCode.eval]
    have := does_bind (evalList_does hu l fun s h => ht s (.list h)) (f := fun vs => .ok (Value.list vs)) (b' := False)
      (Q := Means env (.list l)) (R := fun vs x => Value.list vs = x)
      (fun vs _ => does_ok _ (fun _ => Iff.rfl) id)
      (fun x => ⟨fun h => by cases h with | list h => exact ⟨_, h, rfl⟩, fun ⟨vs, h, e⟩ => e ▸ .list h⟩)
    refine ⟨this.1, this.2.1.trans ?_, this.2.2⟩
    simp only [or_false, Bad]
    exact ⟨fun ⟨s, h, hn⟩ => ⟨s, .list h, hn⟩, fun ⟨s, h, hn⟩ => by cases h with | list h => exact ⟨s, h, hn⟩⟩
  | .map l, ht => by
    rw [Written.code, MacroCode.eval]
    have := does_bind (evalMap_does hu l (fun s h => ht s (.map h)) []) (f := fun m => .ok (Value.map m)) (b' := False)
      (Q := Means env (.map l)) (R := fun m x => Value.map m = x)
      (fun m _ => does_ok _ (fun _ => Iff.rfl) id)
      (fun x => ⟨fun h => by cases h with | map h hm => exact ⟨_, ⟨_, h, mapOf_iff.mp hm⟩, rfl⟩,
        fun ⟨m, ⟨ps, h, hm⟩, e⟩ => e ▸ .map h (mapOf_iff.mpr hm)⟩)
    refine ⟨this.1, this.2.1.trans ?_, this.2.2⟩
    simp only [or_false, Bad]
    exact ⟨fun ⟨s, h, hn⟩ => ⟨s, .map h, hn⟩, fun ⟨s, h, hn⟩ => by cases h with | map h => exact ⟨s, h, hn⟩⟩
theorem evalList_does (hu : env.usizeBits ≤ 64) : ∀ (l : List Written), (∀ s, MentionsAny l s → Typed env s) →
    Does (MacroCode.evalList env (Written.codes l)) (MeansAll env l) (Bad env (MentionsAny l))
  | [], _ => by
    rw [Written.codes, MacroCode.evalList]
    exact does_ok _ (fun x => ⟨fun h => by cases h; rfl, fun h => by cases h; exact .nil⟩) fun ⟨s, h, _⟩ => by cases h
  | w :: l, ht => by
    rw [Written.codes, MacroCode.evalList]
    have := does_bind (eval_does hu w fun s h => ht s (.head h)) (Q := MeansAll env (w :: l))
      (R := fun v x => ∃ vs, MeansAll env l vs ∧ v :: vs = x)
      (fun v _ => does_bind (evalList_does hu l fun s h => ht s (.tail h)) (f := fun vs => .ok (v :: vs)) (b' := False)
        (R := fun vs x => v :: vs = x) (fun vs _ => does_ok _ (fun _ => Iff.rfl) id) (fun x => Iff.rfl))
      (fun x => ⟨fun h => by cases h with | cons h h' => exact ⟨_, h, _, h', rfl⟩, fun ⟨v, h, vs, h', e⟩ => e ▸ .cons h h'⟩)
    refine ⟨this.1, this.2.1.trans ?_, this.2.2⟩
    simp only [or_false, Bad]
    exact ⟨fun h => h.elim (fun ⟨s, h, hn⟩ => ⟨s, .head h, hn⟩) fun ⟨s, h, hn⟩ => ⟨s, .tail h, hn⟩,
      fun ⟨s, h, hn⟩ => by
        cases h with
        | head h => exact .inl ⟨s, h, hn⟩
        | tail h => exact .inr ⟨s, h, hn⟩⟩
theorem evalMap_does (hu : env.usizeBits ≤ 64) : ∀ (l : List (Str × Written)), (∀ s, MentionsEntry l s → Typed env s) →
    ∀ m, Does (MacroCode.evalMap env m (Written.entryCodes l))
      (fun m' => ∃ ps, MeansEntries env l ps ∧ m' = ps.foldl (fun m p => BMap.insert m p.1 p.2) m) (Bad env (MentionsEntry l))
  | [], _, m => by
    rw [Written.entryCodes, MacroCode.evalMap]
    exact does_ok _ (fun x => ⟨fun ⟨ps, h, e⟩ => by cases h; exact e.symm, fun h => ⟨[], .nil, h.symm⟩⟩) fun ⟨s, h, _⟩ => by cases h
  | (k, w) :: l, ht, m => by
    rw [Written.entryCodes, MacroCode.evalMap]
    have := does_bind (eval_does hu w fun s h => ht s (.head h))
      (Q := fun m' => ∃ ps, MeansEntries env ((k, w) :: l) ps ∧ m' = ps.foldl (fun m p => BMap.insert m p.1 p.2) m)
      (fun v _ => evalMap_does hu l (fun s h => ht s (.tail h)) (BMap.insert m k v))
      (fun x => ⟨fun ⟨ps, h, e⟩ => by cases h with | cons h h' => exact ⟨_, h, _, h', e⟩,
        fun ⟨v, h, vs, h', e⟩ => ⟨_, .cons h h', e⟩⟩)
    refine ⟨this.1, this.2.1.trans ?_, this.2.2⟩
    simp only [Bad]
    exact ⟨fun h => h.elim (fun ⟨s, h, hn⟩ => ⟨s, .head h, hn⟩) fun ⟨s, h, hn⟩ => ⟨s, .tail h, hn⟩,
      fun ⟨s, h, hn⟩ => by
        cases h with
        | head h => exact .inl ⟨s, h, hn⟩
        | tail h => exact .inr ⟨s, h, hn⟩⟩
end

theorem expands {ts : List TT} {c : MacroCode} : valueMacro ts = some c ↔ ∃ ws, Entries ws ts ∧ c = (Written.map ws).code := by
  rw [valueMacro, Option.map_eq_some_iff]
  constructor
  · rintro ⟨es, h, rfl⟩
    obtain ⟨ws, hl, rfl⟩ := map_sound ts es h
    exact ⟨ws, hl, rfl⟩
  · rintro ⟨ws, hl, rfl⟩
    exact ⟨_, map_entries hl, rfl⟩

end Macro

variable {env : Env}

/-- **C42** `value!` compiles exactly for entries `key: value` separated by commas, the last comma optional, where a value
is `None`, a list in brackets, entries in braces, or an expression. (A list may also begin with commas.) -/
theorem C42_accepts (ts : List TT) : (valueMacro ts).isSome ↔ ∃ ws, Entries ws ts := by
  rw [Option.isSome_iff_exists]
  exact ⟨fun ⟨c, h⟩ => let ⟨ws, hl, _⟩ := Macro.expands.mp h; ⟨ws, hl⟩, fun ⟨ws, hl⟩ => ⟨_, Macro.expands.mpr ⟨ws, hl, rfl⟩⟩⟩

/-- **C42** No tokens can be read in two ways. -/
theorem C42_unambiguous {ws ws' : List (Str × Written)} {ts : List TT} (h : Entries ws ts) (h' : Entries ws' ts) : ws = ws' := by
  have := Macro.map_entries h
  rw [Macro.map_entries h'] at this
  exact (Macro.entryCodes_inj (Option.some.inj this)).symm

/-- **C42** The program that `value!` expands to gives the value that is written: maps with their entries, of
which the last one with a given key counts, lists with their elements in order, and each expression's serialised value. -/
theorem C42_value (hu : env.usizeBits ≤ 64) {ws : List (Str × Written)} {ts : List TT} (h : Entries ws ts)
    (ht : ∀ s, MentionsEntry ws s → Typed env s) :
    ∃ c, valueMacro ts = some c ∧ ∀ v, c.eval env = .ok v ↔ Means env (.map ws) v :=
  ⟨_, Macro.expands.mpr ⟨ws, h, rfl⟩, (Macro.eval_does hu (.map ws) fun s h => by cases h with | map h => exact ht s h).1⟩

/-- **C42** It panics exactly if one of the expressions has no value, and never fails in another way. -/
theorem C42_panics (hu : env.usizeBits ≤ 64) {ws : List (Str × Written)} {ts : List TT} (h : Entries ws ts)
    (ht : ∀ s, MentionsEntry ws s → Typed env s) :
    ∃ c, valueMacro ts = some c ∧ (c.eval env = .crash ↔ ∃ s, MentionsEntry ws s ∧ ∀ v, ¬ Becomes env s v) ∧
      ∀ e, c.eval env ≠ .err e := by
  have := Macro.eval_does hu (.map ws) fun s h => by cases h with | map h => exact ht s h
  refine ⟨_, Macro.expands.mpr ⟨ws, h, rfl⟩, this.2.1.trans ?_, this.2.2⟩
  exact ⟨fun ⟨s, h, hn⟩ => by cases h with | map h => exact ⟨s, h, hn⟩, fun ⟨s, h, hn⟩ => ⟨s, .map h, hn⟩⟩

/-! `value!{ a: [, 1, None, { b: "x", },], c: y, a: [[]] }` -/

/-- A variable. -/
def aWord (n : String) : TT := .ident n.toList .unit

/-- The tokens. -/
def someTokens : List TT :=
  [aWord "a", .colon, .brackets [.comma, .expr (.int .i32 1), .comma, aWord "None", .comma,
      .braces [aWord "b", .colon, .expr (.str "x".toList), .comma], .comma], .comma,
   aWord "c", .colon, .ident "y".toList (.int .u64 7), .comma,
   aWord "a", .colon, .brackets [.brackets []]]

/-- What they say. -/
def someWritten : List (Str × Written) :=
  [("a".toList, .list [.expr (.int .i32 1), .none, .map [("b".toList, .expr (.str "x".toList))]]),
   ("c".toList, .expr (.int .u64 7)), ("a".toList, .list [.list []])]

theorem some_entries : Entries someWritten someTokens :=
  .more (.list (n := 1) (.more .expr (.more .none (.more (.map (.more .expr .nil)) .nil))))
    (.more (.word (by decide)) (.last (.list (n := 0) (.last (.list (n := 0) .nil)))))

theorem some_typed : ∀ s, MentionsEntry someWritten s → Typed asciiEnv s := by
  intro s h
  have : s = .int .i32 1 ∨ s = .str "x".toList ∨ s = .int .u64 7 := by
    rcases h with h | h
    · rcases h with h | h | h
      rcases h with h | h
      · cases h; exact .inl rfl
      · rcases h with h | h
        · cases h
        · rcases h with h | h
          · rcases h with h | h | h
            rcases h with h | h
            · cases h; exact .inr (.inl rfl)
            · cases h
          · cases h
    · rcases h with h | h
      · cases h; exact .inr (.inr rfl)
      · rcases h with h | h
        · rcases h with h | h | h
          rcases h with h | h
          · rcases h with h | h | h; cases h
          · cases h
        · cases h
  rcases this with rfl | rfl | rfl
  · unfold Typed Fits; decide
  · simp [Typed]
  · unfold Typed Fits; decide

/-- The second `a` counts. -/
example : ∃ c, valueMacro someTokens = some c ∧
    c.eval asciiEnv = .ok (.map [("a".toList, .list [.list []]), ("c".toList, .integer 7)]) := by
  obtain ⟨c, h, h'⟩ := C42_value (env := asciiEnv) (by decide) some_entries some_typed
  refine ⟨c, h, (h' _).mpr (.map (.cons (.list (.cons (.expr (.int nofun (by unfold FitsI64; decide))) (.cons .none
    (.cons (.map (.cons (.expr .str) .nil) (mapOf_iff.mpr rfl)) .nil)))) (.cons (.expr (.int nofun (by unfold FitsI64; decide)))
    (.cons (.list (.cons (.list .nil) .nil)) .nil))) (mapOf_iff.mpr ?_))⟩
  rfl

/-- An unsigned integer that no value can hold: the program panics. -/
example : ∃ c, valueMacro [aWord "a", .colon, .expr (.int .u64 (2 ^ 63))] = some c ∧ c.eval asciiEnv = .crash := by
  obtain ⟨c, h, h', -⟩ := C42_panics (env := asciiEnv) (by decide)
    (ws := [("a".toList, .expr (.int .u64 (2 ^ 63)))]) (.last .expr) (fun s h => by
      rcases h with h | h
      · cases h; unfold Typed Fits; decide
      · cases h)
  refine ⟨c, h, h'.mpr ⟨_, .head .expr, fun v hv => ?_⟩⟩
  cases hv with
  | int _ hf => revert hf; unfold FitsI64; decide

/-- `a: [1,,]`, `a: 1 b: 2` and `a: None.is_some()` do not compile. -/
example : valueMacro [aWord "a", .colon, .brackets [.expr .unit, .comma, .comma]] = none ∧
    valueMacro [aWord "a", .colon, .expr .unit, aWord "b", .colon, .expr .unit] = none ∧
    valueMacro [aWord "a", .colon, aWord "None", .other, aWord "is_some", .other] = none := by
  refine ⟨?_, ?_, ?_⟩ <;>
    simp [valueMacro, munchMap, munchEntry.eq_def, munchInsert.eq_def, munchList.eq_def, aWord]

end Upon
