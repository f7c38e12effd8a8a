import Verif.Proofs.Globals
/-
C48: the globals can be given as data, as a value, or by a function.
-/
namespace Upon
open Spec
variable {env : Env} {tree : Template → Tree} {T : Tree} {r : Renderer} {v : Value} {f : ValueFn}

/-- **C48** It makes no difference whether the globals are given as a value or as data that is converted to that value. -/
theorem C48_data (r : Renderer) (v : Value) (res : Res Str) :
    ({ r with globals := .owned (.ok v) } : Renderer).ToString env res ↔ ({ r with globals := .borrowed v } : Renderer).ToString env res := by
  constructor <;> intro h <;> cases h with
  | globalsErr e h => cases h
  | globalsCrash h => cases h
  | ok b w h1 h2 => cases h1; exact .ok _ w rfl h2
  | err b e w h1 h2 => cases h1; exact .err _ e w rfl h2
  | crash b h1 h2 => cases h1; exact .crash _ rfl h2

namespace Given

theorem base_of (h : GivenAs r.globals v) : r.base = .ok (.scope (.borrowed v)) := by
  rcases h with h | h <;> rw [Renderer.base, h] <;> rfl

theorem fn_base : ({ r with globals := .fn f } : Renderer).base = .ok (.valueFn f) := rfl

end Given

section
variable (hg : GivenAs r.globals v) (hf : AnswersFrom f v)
include hg hf

theorem Given.to_string {L : Prop} (hr : Given.Refs L (r.cfg env stringSink)) (hT : Parsed env r.template T)
    (ht : ∀ t, Includable (r.cfg env stringSink) t → Parsed env t (tree t)) :
    ∃ m m', Given.RU L m m' ∧ (∀ res, r.ToString env res ↔ res = stringResult m) ∧
      ∀ res, ({ r with globals := .fn f } : Renderer).ToString env res ↔ res = stringResult m' :=
  ⟨_, _, Given.render_rel (q := asBuilt) hr ht hT r.name (c := .borrowed v) hf ⟨[], []⟩,
    fun res => C16_to_string (r := r) ht hT (Given.base_of hg) res,
    fun res => C16_to_string (r := { r with globals := .fn f }) ht hT Given.fn_base res⟩

/-- **C48** If a function answers from a value, what is rendered with the function is rendered with the value. -/
theorem C48_to_string (hT : Parsed env r.template T) (ht : ∀ t, Includable (r.cfg env stringSink) t → Parsed env t (tree t)) {s : Str}
    (h : ({ r with globals := .fn f } : Renderer).ToString env (.ok s)) : r.ToString env (.ok s) := by
  obtain ⟨m, m', h1, h2, h3⟩ := Given.to_string (L := True) (r := r) hg hf (fun _ _ _ _ _ _ => trivial) hT ht
  rw [h3] at h
  rw [h2]
  cases h1 with
  | ok => exact h
  | err => cases h
  | crash => cases h
  | lost => cases h

theorem Given.owned (ho : OwnedArgs r.engine) : Given.Refs False (r.cfg env stringSink) := fun n f h t ht h' => ho n f h t ht h'

/-- **C48** If moreover no filter takes arguments by reference, the two render the same text… -/
theorem C48_same_text (ho : OwnedArgs r.engine) (hT : Parsed env r.template T)
    (ht : ∀ t, Includable (r.cfg env stringSink) t → Parsed env t (tree t)) (s : Str) :
    ({ r with globals := .fn f } : Renderer).ToString env (.ok s) ↔ r.ToString env (.ok s) := by
  obtain ⟨m, m', h1, h2, h3⟩ := Given.to_string (r := r) hg hf (Given.owned hg hf ho) hT ht
  rw [h3, h2]
  cases h1 with
  | ok => exact Iff.rfl
  | err => simp [stringResult]
  | crash => exact Iff.rfl
  | lost h => exact h.elim

/-- **C48** … or both fail, with errors of the same kind that name the same template, and are the same except for what a lookup of a
variable says… -/
theorem C48_same_error (ho : OwnedArgs r.engine) (hT : Parsed env r.template T)
    (ht : ∀ t, Includable (r.cfg env stringSink) t → Parsed env t (tree t)) {e e' : Err}
    (h : r.ToString env (.err e)) (h' : ({ r with globals := .fn f } : Renderer).ToString env (.err e')) :
    e.kind = e'.kind ∧ e.name = e'.name ∧ (e.kind = .render ∨ e = e') := by
  obtain ⟨m, m', h1, h2, h3⟩ := Given.to_string (r := r) hg hf (Given.owned hg hf ho) hT ht
  rw [h2] at h
  rw [h3] at h'
  cases h1 with
  | ok => cases h
  | err h1 => cases h; cases h'; exact h1
  | crash => cases h
  | lost h => exact h.elim

/-- **C48** … and one fails exactly if the other does, and panics exactly if the other does. -/
theorem C48_fails (ho : OwnedArgs r.engine) (hT : Parsed env r.template T)
    (ht : ∀ t, Includable (r.cfg env stringSink) t → Parsed env t (tree t)) :
    ((∃ e, ({ r with globals := .fn f } : Renderer).ToString env (.err e)) ↔ ∃ e, r.ToString env (.err e)) ∧
    (({ r with globals := .fn f } : Renderer).ToString env .crash ↔ r.ToString env .crash) := by
  obtain ⟨m, m', h1, h2, h3⟩ := Given.to_string (r := r) hg hf (Given.owned hg hf ho) hT ht
  simp only [h2, h3]
  cases h1 with
  | ok => simp [stringResult]
  | err h1 => simp [stringResult]
  | crash => simp [stringResult]
  | lost h => exact h.elim

end

/-! To a writer -/

/-- **C48** With data and with the value, a writer ends in the same state with the same outcome. -/
theorem C48_data_writer {ω : Type} (r : Renderer) (v : Value) (io : IoWriter ω) (w₀ : ω) (res : Res Unit) (w : ω) :
    ({ r with globals := .owned (.ok v) } : Renderer).ToWriter env io w₀ res w ↔
      ({ r with globals := .borrowed v } : Renderer).ToWriter env io w₀ res w := by
  constructor <;> intro h <;> cases h with
  | globalsErr e h => cases h
  | globalsCrash h => cases h
  | ok b w h1 h2 => cases h1; exact .ok _ w rfl h2
  | err b e w h1 h2 => cases h1; exact .err _ e w rfl h2
  | crash b w h1 h2 => cases h1; exact .crash _ w rfl h2

/-- **C48** With the value and with a function that answers from it, a writer (of any behaviour, which may also fail) ends in the same
state: both renders succeed, or both panic, or both fail with errors that are the same except for what a lookup of a variable says. -/
theorem C48_to_writer {ω : Type} (hg : GivenAs r.globals v) (hf : AnswersFrom f v) (ho : OwnedArgs r.engine) {io : IoWriter ω}
    (hT : Parsed env r.template T) (ht : ∀ t, Includable (r.cfg env (writerSink io)) t → Parsed env t (tree t)) {w₀ : ω}
    {res : Res Unit} {w : ω} (h : r.ToWriter env io w₀ res w) :
    ∃ res', ({ r with globals := .fn f } : Renderer).ToWriter env io w₀ res' w ∧
      ((res = .ok () ∧ res' = .ok ()) ∨ (res = .crash ∧ res' = .crash) ∨
        ∃ e e', res = .err e ∧ res' = .err e' ∧ e.kind = e'.kind ∧ e.name = e'.name ∧ (e.kind = .render ∨ e = e')) := by
  have h1 := Given.render_rel (L := False) (q := asBuilt) (cfg := r.cfg env (writerSink io)) (fun n f h t ht h' => ho n f h t ht h') ht hT
    r.name (c := .borrowed v) hf ⟨(w₀, none), []⟩
  have h2 := fun res x => C16_to_writer (r := r) ht hT (Given.base_of hg) w₀ res x
  have h3 := fun res x => C16_to_writer (r := { r with globals := .fn f }) ht hT Given.fn_base w₀ res x
  rw [h2] at h
  simp only [h3]
  change WriterEnds (Spec.render asBuilt (r.cfg env (writerSink io)) tree T r.name [.globals (.borrowed v)] ⟨(w₀, none), []⟩) _ _ at h
  change ∃ res', WriterEnds (Spec.render asBuilt (r.cfg env (writerSink io)) tree T r.name [.provider f] ⟨(w₀, none), []⟩) res' w ∧ _
  revert h
  generalize Spec.render asBuilt (r.cfg env (writerSink io)) tree T r.name [.globals (.borrowed v)] ⟨(w₀, none), []⟩ = m at h1
  generalize Spec.render asBuilt (r.cfg env (writerSink io)) tree T r.name [.provider f] ⟨(w₀, none), []⟩ = m' at h1
  intro h
  cases h1 with
  | ok => obtain ⟨rfl, rfl⟩ := h; exact ⟨_, ⟨rfl, rfl⟩, .inl ⟨rfl, rfl⟩⟩
  | crash => cases h; exact ⟨_, rfl, .inr (.inl ⟨rfl, rfl⟩)⟩
  | err h1 =>
    obtain ⟨rfl, rfl⟩ := h
    refine ⟨_, ⟨rfl, rfl⟩, .inr (.inr ⟨_, _, rfl, rfl, ?_⟩)⟩
    split
    · exact ⟨rfl, rfl, .inr rfl⟩
    · exact h1
  | lost h => exact h.elim

/-! There is such a function for every value -/

/-- Follow a path. -/
def Given.reach : Value → List ValueMember → Option Value
  | v, [] => some v
  | .map m, ⟨op, .key k⟩ :: p =>
    match BMap.get m k with
    | some x => reach x p
    | none => if op = .optional then some .none else none
  | .list l, ⟨op, .index i⟩ :: p =>
    match l[i]? with
    | some x => reach x p
    | none => if op = .optional then some .none else none
  | _, _ :: _ => none

theorem Given.reach_iff (p : List ValueMember) : ∀ v x, Given.reach v p = some x ↔ GoesTo v p x := by
  induction p with
  | nil => intro v x; rw [Given.reach]; exact ⟨fun h => by cases h; exact .here, fun h => by cases h; rfl⟩
  | cons m p ih =>
    intro v x
    obtain ⟨op, acc⟩ := m
    constructor
    · intro h
      cases v with
      | map l =>
        cases acc with
        | index i => rw [Given.reach.eq_def] at h; cases h
        | key k =>
          rw [Given.reach] at h
          cases hg : BMap.get l k with
          | some y => rw [hg] at h; exact .key hg ((ih _ _).mp h)
          | none =>
            rw [hg] at h
            cases op with
            | direct => cases h
            | optional => cases h; exact .noKey hg
      | list l =>
        cases acc with
        | key k => rw [Given.reach.eq_def] at h; cases h
        | index i =>
          rw [Given.reach] at h
          cases hg : l[i]? with
          | some y => rw [hg] at h; exact .index hg ((ih _ _).mp h)
          | none =>
            rw [hg] at h
            cases op with
            | direct => cases h
            | optional => cases h; exact .noIndex hg
      | _ => cases acc <;> simp [Given.reach] at h
    · intro h
      cases h with
      | key h1 h2 => rw [Given.reach, h1]; exact (ih _ _).mpr h2
      | index h1 h2 => rw [Given.reach, h1]; exact (ih _ _).mpr h2
      | noKey h1 => rw [Given.reach, h1]; rfl
      | noIndex h1 => rw [Given.reach, h1]; rfl

/-- A function that answers from a value. -/
def Given.answering (v : Value) : ValueFn
  | [] => .error "no path"
  | m :: ms =>
    match Given.reach v [⟨.direct, m.access⟩] with
    | none => .error "not found"
    | some y =>
      match Given.reach y ms with
      | some x => .ok x
      | none => .error "not found"

theorem Given.answers (v : Value) : AnswersFrom (Given.answering v) v := by
  intro m ms x
  simp only [Given.answering, ← Given.reach_iff]
  cases h1 : Given.reach v [⟨.direct, m.access⟩] with
  | none => simp
  | some y => cases h2 : Given.reach y ms <;> simp [h2]

/-- **C48** For every value there is a function that answers from it. -/
theorem C48_exists (v : Value) : ∃ f, AnswersFrom f v := ⟨_, Given.answers v⟩

end Upon
