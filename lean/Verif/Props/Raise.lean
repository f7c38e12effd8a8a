import Verif.Props.Depth
import Verif.Props.Ways
import Verif.Props.Related
import Verif.Props.Output
/-
C23 between two limits, as a caller sees it; C61 and C62 for `to_writer`.
-/
namespace Upon
open Spec Rel
variable {env : Env} {tree : Template → Tree} {T : Tree} {r : Renderer} {ω : Type}

namespace Raise

/-- What a machine does under one limit it does under a higher one, unless it is stopped by the limit. -/
theorem halts {σ : Type} (sink : Sink σ) {d d' : Nat} (hd : d ≤ d') {b : SState} {o : σ} {res : RunRes σ}
    (h : Halts ((r.withMaxIncludeDepth d).cfg env sink) (initVM r.template r.name b o) res) (hne : ∀ w, res ≠ .err (depthErr d) w) :
    Halts ((r.withMaxIncludeDepth d').cfg env sink) (initVM r.template r.name b o) res :=
  C23_raise (cfg := (r.withMaxIncludeDepth d).cfg env sink) (Nat.le_max_left _ _) h hne hd

/-- `to_string` under a higher limit. -/
theorem to_string {d d' : Nat} (hd : d ≤ d') {res : Res Str} (h : (r.withMaxIncludeDepth d).ToString env res) :
    res = .err (depthErr d) ∨ (r.withMaxIncludeDepth d').ToString env res := by
  cases h with
  | globalsErr e h => exact .inr (.globalsErr e h)
  | globalsCrash h => exact .inr (.globalsCrash h)
  | ok b w h hh => exact .inr (.ok b w h (halts stringSink hd hh fun _ => by simp))
  | err b e w h hh =>
    by_cases he : e = depthErr d
    · exact .inl (by rw [he])
    · exact .inr (.err b e w h (halts stringSink hd hh fun w' he' => he (by cases he'; rfl)))
  | crash b h hh => exact .inr (.crash b h (halts stringSink hd hh fun _ => by simp))

/-- A limit that is exceeded is so if it is lower. -/
theorem exceeds {σ : Type} {cfg : RenderCfg σ} {vm : VM σ} (hl : vm.frames.length ≤ max 1 cfg.maxIncludeDepth) {d : Nat} (hd : cfg.maxIncludeDepth ≤ d)
    (h : WouldExceed (limited cfg d) vm d) : WouldExceed cfg vm cfg.maxIncludeDepth := by
  refine Classical.byContradiction fun hn => ?_
  obtain ⟨vm', n, src, w, t, hr, hi, hg, hlt⟩ := h
  have key : Reachable cfg vm vm' := by
    clear hi hg hlt
    induction hr with
    | refl => exact .refl
    | @step v v' _ hs ih =>
      refine .step ih ?_
      rw [← limited_step hd (C23_bound hl ih) fun n src w t hi hg hlt => hn ⟨_, n, src, w, t, ih, hi, hg, hlt⟩]
      exact hs
  exact hn ⟨vm', n, src, w, t, key, hi, hg, Nat.lt_of_le_of_lt hd hlt⟩

end Raise

/-- **C23** A render under the limit `d` and the same render under a higher limit end in the same way, unless the first is refused by its limit: the limit never
has any other effect on what `to_string` returns. -/
theorem C23_limits {d d' : Nat} (hd : d ≤ d') {res res' : Res Str} (h : (r.withMaxIncludeDepth d).ToString env res)
    (h' : (r.withMaxIncludeDepth d').ToString env res') : res' = res ∨ res = .err (depthErr d) :=
  (Raise.to_string hd h).symm.imp_left (to_string_unique h')

/-- **C23** In particular, a text that is returned under a limit is returned under each higher limit … -/
theorem C23_limits_ok {d d' : Nat} (hd : d ≤ d') {s : Str} (h : (r.withMaxIncludeDepth d).ToString env (.ok s)) :
    (r.withMaxIncludeDepth d').ToString env (.ok s) :=
  (Raise.to_string hd h).resolve_left (by simp)

/-- **C23** … and one that is refused under a limit is refused under each lower limit, with that limit in the message. (If the data could be serialized:
without them nothing is rendered.) -/
theorem C23_limits_refused {b : SState} (hb : r.base = .ok b) {d d' : Nat} (hd : d ≤ d')
    (h : (r.withMaxIncludeDepth d').ToString env (.err (depthErr d'))) : (r.withMaxIncludeDepth d).ToString env (.err (depthErr d)) :=
  (C23_to_string (r := r.withMaxIncludeDepth d) hb).mpr
    (Raise.exceeds (cfg := (r.withMaxIncludeDepth d).cfg env stringSink) (Nat.le_max_left _ _) hd ((C23_to_string (r := r.withMaxIncludeDepth d') hb).mp h))

/-- **C23** The same for `to_writer`, with whatever writer: what it wrote and returned in success under a limit it writes and returns under each higher limit. -/
theorem C23_limits_to_writer {d d' : Nat} (hd : d ≤ d') {io : IoWriter ω} {w₀ w : ω} (h : (r.withMaxIncludeDepth d).ToWriter env io w₀ (.ok ()) w) :
    (r.withMaxIncludeDepth d').ToWriter env io w₀ (.ok ()) w := by
  cases h with
  | ok b w h hh => exact .ok b w h (Raise.halts (writerSink io) hd hh fun _ => by simp)

/-- **C23** … and, with a writer that accepts everything, the results differ only if the first is refused by its limit. -/
theorem C23_limits_accepting {d d' : Nat} (hd : d ≤ d') {io : IoWriter ω} {log : ω → List UInt8} (ha : Accepts io log) {w₀ w w' : ω} {res res' : Res Unit}
    (h : (r.withMaxIncludeDepth d).ToWriter env io w₀ res w) (h' : (r.withMaxIncludeDepth d').ToWriter env io w₀ res' w') :
    res' = res ∨ res = .err (depthErr d) := by
  rcases to_string_of_writer ha w₀ h with ⟨s, rfl, h1, _⟩ | ⟨e, rfl, h1⟩ | ⟨rfl, h1⟩ <;>
    rcases to_string_of_writer ha w₀ h' with ⟨s', rfl, h2, _⟩ | ⟨e', rfl, h2⟩ | ⟨rfl, h2⟩ <;>
    rcases C23_limits hd h1 h2 with h3 | h3 <;> cases h3 <;> simp

/-- **C61** The same for `to_writer` on a writer that accepts everything: the bytes are those of two texts that correspond piece by piece. -/
theorem C61_to_writer {S P : Str → Str → Prop} (hS : ∀ s, S s s) (he : ∀ s s', S s s' → (s = [] ↔ s' = []))
    (ht : ∀ t, Includable (r.cfg env stringSink) t → Parsed env t (tree t)) (hT : Parsed env r.template T)
    (hfs : FiltersFollow (Recoded S) r.engine.functions) (hfm : FormattersFollow (Recoded S) P r.engine) {g g' : Globals}
    (hg : GlobalsAlike (Recoded S) g g') {io : IoWriter ω} {log : ω → List UInt8} (ha : Accepts io log) {w₀ w : ω}
    (h : ({ r with globals := g } : Renderer).ToWriter env io w₀ (.ok ()) w) :
    ∃ w' o o', ({ r with globals := g' } : Renderer).ToWriter env io w₀ (.ok ()) w' ∧ log w = log w₀ ++ utf8 o ∧ log w' = log w₀ ++ utf8 o' ∧
      Pieces P o o' := by
  rcases to_string_of_writer ha w₀ h with ⟨o, _, h1, h2⟩ | ⟨e, h1, _⟩ | ⟨h1, _⟩
  · obtain ⟨o', h3, h4⟩ := C61_recoded hS he ht hT hfs hfm hg h1
    obtain ⟨w', h5, h6⟩ := (C25_output env _ ha w₀ o').mp h3
    exact ⟨w', o, o', h5, h2, h6, h4⟩
  · cases h1
  · cases h1

/-- **C62** The same for `to_writer` on a writer that accepts everything: the same bytes are written. -/
theorem C62_to_writer {K : Str → Prop} (ht : ∀ t, Includable (r.cfg env stringSink) t → Parsed env t (tree t)) (hT : Parsed env r.template T)
    (hu : Unaware K T) (hus : ∀ t, Includable (r.cfg env stringSink) t → Unaware K (tree t))
    (hfs : FiltersFollow (Extends K) r.engine.functions) (hfm : FormattersFollow (Extends K) Eq r.engine) {g g' : Globals}
    (hg : GlobalsExtended K g g') {io : IoWriter ω} {log : ω → List UInt8} (ha : Accepts io log) {w₀ w : ω}
    (h : ({ r with globals := g } : Renderer).ToWriter env io w₀ (.ok ()) w) :
    ∃ w', ({ r with globals := g' } : Renderer).ToWriter env io w₀ (.ok ()) w' ∧ log w' = log w := by
  rcases to_string_of_writer ha w₀ h with ⟨o, _, h1, h2⟩ | ⟨e, h1, _⟩ | ⟨h1, _⟩
  · obtain ⟨w', h5, h6⟩ := (C25_output env _ ha w₀ o).mp (C62_extended ht hT hu hus hfs hfm hg h1)
    exact ⟨w', h5, h6.trans h2.symm⟩
  · cases h1
  · cases h1

end Upon
