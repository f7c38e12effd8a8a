import Verif.Props.Refactor
import Verif.Props.Compose
import Verif.Props.Writers
/-
C66: what a render that fails leaves on the writer.
-/
namespace Upon
open Spec
variable {ω : Type}

namespace Partial

/-- A run ends with this result, and with this on the writer. -/
def Leaves (log : ω → List UInt8) (w₀ w : ω) (res : Res Unit) : RunRes Str → Prop
  | .ok o => res = .ok () ∧ log w = log w₀ ++ utf8 o.out
  | .err e o => res = .err e ∧ log w = log w₀ ++ utf8 o.out
  | .crash => res = .crash

theorem Leaves.run {log : ω → List UInt8} {w₀ w : ω} {res : Res Unit} {x : RunRes Str} (h : Leaves log w₀ w res x) :
    Leaves log w₀ w (Unplaced res) (Plain.Run x) := by
  cases x with
  | ok o => obtain ⟨rfl, h⟩ := h; exact ⟨rfl, h⟩
  | err e o => obtain ⟨rfl, h⟩ := h; exact ⟨rfl, h⟩
  | crash => obtain rfl := h; exact rfl

theorem unplaced_crash {α : Type} {res : Res α} (h : Unplaced res = .crash) : res = .crash := by
  cases res <;> simp_all [Unplaced]

/-- Runs with the same result leave the same. -/
theorem Leaves.same {ω' : Type} {log : ω → List UInt8} {w₀ w : ω} {log' : ω' → List UInt8} {w₀' w' : ω'} {res res' : Res Unit} {x : RunRes Str}
    (h : Leaves log w₀ w res x) (h' : Leaves log' w₀' w' res' x) :
    res = res' ∧ (res ≠ .crash → ∃ s, log w = log w₀ ++ utf8 s ∧ log' w' = log' w₀' ++ utf8 s) := by
  cases x with
  | ok o => exact ⟨h.1.trans h'.1.symm, fun _ => ⟨_, h.2, h'.2⟩⟩
  | err e o => exact ⟨h.1.trans h'.1.symm, fun _ => ⟨_, h.2, h'.2⟩⟩
  | crash => exact ⟨h.trans h'.symm, fun k => absurd h k⟩

/-- How a render on a writer that takes everything ends. -/
theorem writer_run {env : Env} {r : Renderer} {io : IoWriter ω} {log : ω → List UInt8} (ha : Accepts io log) {w₀ : ω} {res : Res Unit} {w : ω}
    (h : r.ToWriter env io w₀ res w) :
    (∃ e, r.base = .err e ∧ res = .err e ∧ w = w₀) ∨ (r.base = .crash ∧ res = .crash) ∨
      ∃ b x, r.base = .ok b ∧ Halts (r.cfg env stringSink) (initVM r.template r.name b []) x ∧ Leaves log w₀ w res x := by
  have key := fun (b : SState) (x : RunRes (ω × Option Nat)) =>
    halts_alike (cfg := r.cfg env (writerSink io)) (s' := stringSink)
    (R := fun x s => Mirror log w₀ s x) (fun a b t h => by
      obtain ⟨h1, h2⟩ := mirror_write ha w₀ b a t h
      exact ⟨h1.symm, h2⟩) (t := r.template) (n := r.name) (base := b) (a := (w₀, none)) (b := [])
    ⟨by simp [utf8], rfl⟩ (r := x)
  cases h with
  | globalsErr e h => exact .inl ⟨e, h, rfl, rfl⟩
  | globalsCrash h => exact .inr (.inl ⟨h, rfl⟩)
  | ok b o h1 h2 =>
    obtain ⟨r', h3, h4⟩ := key b _ h2
    cases h4 with
    | @ok _ w' hw => exact .inr (.inr ⟨b, _, h1, h3, rfl, hw.out.1⟩)
    | broken h => obtain ⟨_, h⟩ := h; exact h.elim
  | err b e o h1 h2 =>
    obtain ⟨r', h3, h4⟩ := key b _ h2
    cases h4 with
    | @err _ _ w' hw =>
      refine .inr (.inr ⟨b, _, h1, h3, ?_, hw.out.1⟩)
      rw [hw.out.2]; rfl
    | broken h => obtain ⟨_, h⟩ := h; exact h.elim
  | crash b w h1 h2 =>
    obtain ⟨r', h3, h4⟩ := key b _ h2
    cases h4 with
    | crash => exact .inr (.inr ⟨b, _, h1, h3, rfl⟩)
    | broken h => obtain ⟨_, h⟩ := h; exact h.elim

theorem globals_or {b : SState} {r : Renderer} (hb : r.base = .ok b) : (∃ c, ofBase b = .globals c) ∨ ∃ f, ofBase b = .provider f := by
  rcases base_cases hb with ⟨f, _, e⟩ | ⟨c, _, e⟩
  · exact .inr ⟨f, e⟩
  · exact .inl ⟨c, e⟩

/-- … in terms of trees without byte ranges. -/
theorem writer_plain {env : Env} {r : Renderer} {io : IoWriter ω} {log : ω → List UInt8} (ha : Accepts io log) {w₀ : ω} {res : Res Unit} {w : ω}
    {tree : Template → Tree} (hall : ∀ t, Includable (r.cfg env stringSink) t → Parsed env t (tree t) ∧ Plain.Fine (tree t)) {T : Tree}
    (hT : Parsed env r.template T ∧ Plain.Fine T) {b : SState} (hb : r.base = .ok b) (h : r.ToWriter env io w₀ res w) :
    Leaves log w₀ w (Unplaced res) (Plain.render (Plain.ofCfg (r.cfg env stringSink) tree) (Plain.ofStmts T.source T.body) r.name [ofBase b] ⟨[], []⟩) := by
  rcases writer_run ha h with ⟨e, h1, _⟩ | ⟨h1, _⟩ | ⟨b', x, h1, h2, h3⟩
  · rw [hb] at h1; cases h1
  · rw [hb] at h1; cases h1
  · rw [hb] at h1; cases h1
    rw [← Plain.render_plain rfl (fun t ht => (hall t ht).2) hT.2 _ (globals_or hb),
      ← (C16_render (fun t ht => (hall t ht).1) hT.1 hb _ _).mp h2]
    exact h3.run

/-- Two renders whose globals are the same, and whose runs are alike if they run. -/
theorem same_ends {ω' : Type} {env : Env} {r r' : Renderer} (eb : r.base = r'.base) {io : IoWriter ω} {log : ω → List UInt8} (ha : Accepts io log)
    {io' : IoWriter ω'} {log' : ω' → List UInt8} (ha' : Accepts io' log') {w₀ w : ω} {w₀' w' : ω'}
    {res res' : Res Unit} (h1 : r.ToWriter env io w₀ res w) (h2 : r'.ToWriter env io' w₀' res' w')
    (hk : ∀ b, r.base = .ok b → Unplaced res = Unplaced res' ∧ (res ≠ .crash → ∃ s, log w = log w₀ ++ utf8 s ∧ log' w' = log' w₀' ++ utf8 s)) :
    Unplaced res = Unplaced res' ∧ (res ≠ .crash → ∃ s, log w = log w₀ ++ utf8 s ∧ log' w' = log' w₀' ++ utf8 s) := by
  rcases writer_run ha h1 with ⟨e, k1, rfl, rfl⟩ | ⟨k1, rfl⟩ | ⟨b, x, k1, _⟩
  · rcases writer_run ha' h2 with ⟨e', k2, rfl, rfl⟩ | ⟨k2, rfl⟩ | ⟨b', x', k2, _⟩
    · rw [← eb, k1] at k2; cases k2
      exact ⟨rfl, fun _ => ⟨[], by simp [utf8], by simp [utf8]⟩⟩
    · rw [← eb, k1] at k2; cases k2
    · rw [← eb, k1] at k2; cases k2
  · rcases writer_run ha' h2 with ⟨e', k2, rfl, rfl⟩ | ⟨k2, rfl⟩ | ⟨b', x', k2, _⟩
    · rw [← eb, k1] at k2; cases k2
    · exact ⟨rfl, fun k => absurd rfl k⟩
    · rw [← eb, k1] at k2; cases k2
  · exact hk b k1

theorem unplaced_ne {α : Type} {res : Res α} (h : res ≠ .crash) : Unplaced res ≠ .crash := fun k => h (unplaced_crash k)

end Partial
open Partial

section
variable {env : Env} {io : IoWriter ω} {log : ω → List UInt8}

/-- **C66** All writers that take what they are given get the same bytes, also when the render fails. -/
theorem C66_any_writer {ω' : Type} {r : Renderer} (ha : Accepts io log) {io' : IoWriter ω'} {log' : ω' → List UInt8} (ha' : Accepts io' log')
    {w₀ w : ω} {w₀' w' : ω'} {res res' : Res Unit} (h1 : r.ToWriter env io w₀ res w) (h2 : r.ToWriter env io' w₀' res' w') :
    res = res' ∧ (res ≠ .crash → ∃ s, log w = log w₀ ++ utf8 s ∧ log' w' = log' w₀' ++ utf8 s) := by
  rcases writer_run ha h1 with ⟨e, k1, rfl, rfl⟩ | ⟨k1, rfl⟩ | ⟨b, x, k1, k2, k3⟩
  · rcases writer_run ha' h2 with ⟨e', l1, rfl, rfl⟩ | ⟨l1, rfl⟩ | ⟨b', x', l1, _⟩
    · rw [k1] at l1; cases l1
      exact ⟨rfl, fun _ => ⟨[], by simp [utf8], by simp [utf8]⟩⟩
    · rw [k1] at l1; cases l1
    · rw [k1] at l1; cases l1
  · rcases writer_run ha' h2 with ⟨e', l1, rfl, rfl⟩ | ⟨l1, rfl⟩ | ⟨b', x', l1, _⟩
    · rw [k1] at l1; cases l1
    · exact ⟨rfl, fun k => absurd rfl k⟩
    · rw [k1] at l1; cases l1
  · rcases writer_run ha' h2 with ⟨e', l1, rfl, rfl⟩ | ⟨l1, rfl⟩ | ⟨b', x', l1, l2, l3⟩
    · rw [k1] at l1; cases l1
    · rw [k1] at l1; cases l1
    · rw [k1] at l1; cases l1
      rw [l2.unique k2] at l3
      exact k3.same l3

theorem same_logs {w₀ w w' : ω} (h : ∃ s, log w = log w₀ ++ utf8 s ∧ log w' = log w₀ ++ utf8 s) : log w = log w' := by
  obtain ⟨s, h1, h2⟩ := h
  rw [h1, h2]

/-- **C66** Templates that say the same, in whatever layout and syntax, leave the same on a writer, also when they fail. -/
theorem C66_relaid {tree tree' : Template → Tree} {T T' : Tree} {r r' : Renderer} (h : Relaid env tree tree' T T' r r') (ha : Accepts io log)
    {w₀ w w' : ω} {res res' : Res Unit} (h1 : r.ToWriter env io w₀ res w) (h2 : r'.ToWriter env io w₀ res' w') :
    Unplaced res = Unplaced res' ∧ (res ≠ .crash → log w = log w') := by
  have eb : r.base = r'.base := by unfold Renderer.base; rw [h.globals]
  have k := same_ends eb ha ha h1 h2 fun b hb => by
    have k1 := writer_plain ha (Plain.left_all h) (Plain.left_of h.template) hb h1
    have k2 := writer_plain ha (Plain.right_all h) (Plain.right_of h.template) (eb ▸ hb) h2
    rw [← Plain.cfg_same h, ← Plain.same_of h.template, ← h.name] at k2
    exact ⟨(k1.same k2).1, fun hc => (k1.same k2).2 (unplaced_ne hc)⟩
  exact ⟨k.1, fun hc => same_logs (k.2 hc)⟩

/-- For every sound way to rewrite templates. -/
theorem rewritten_leaves {P : Plain.Cfg → Prop} {E : _} (hE : Plain.SoundFor P E) {tree tree' : Template → Tree} {T T' : Tree} {r r' : Renderer} (hP : P (Plain.ofCfg (r.cfg env stringSink) tree)) (h : Rewritten E env tree tree' T T' r r')
    (ha : Accepts io log) {w₀ w w' : ω} {res res' : Res Unit} (h1 : r.ToWriter env io w₀ res w) (h2 : r'.ToWriter env io w₀ res' w') :
    Unplaced res = Unplaced res' ∧ (res ≠ .crash → log w = log w') := by
  have eb : r.base = r'.base := by unfold Renderer.base; rw [h.globals]
  have k := same_ends eb ha ha h1 h2 fun b hb => by
    have k1 := writer_plain ha (Plain.old_all h) (Plain.Related.left h.template) hb h1
    have k2 := writer_plain ha (Plain.new_all h) (Plain.Related.right h.template) (eb ▸ hb) h2
    obtain ⟨l1, l2, l3, l4⟩ := Plain.cfg_related h
    rw [Plain.render_sound hE hP l1 l2 l3 l4 h.template.related, h.name] at k1
    exact ⟨(k1.same k2).1, fun hc => (k1.same k2).2 (unplaced_ne hc)⟩
  exact ⟨k.1, fun hc => same_logs (k.2 hc)⟩

/-- **C66** Rewriting templates by the laws of C49 changes nothing on the writer, also when the render fails. -/
theorem C66_refactored {tree tree' : Template → Tree} {T T' : Tree} {r r' : Renderer} (h : Rewritten Plain.Refactored env tree tree' T T' r r')
    (ha : Accepts io log) {w₀ w w' : ω} {res res' : Res Unit} (h1 : r.ToWriter env io w₀ res w) (h2 : r'.ToWriter env io w₀ res' w') :
    Unplaced res = Unplaced res' ∧ (res ≠ .crash → log w = log w') := rewritten_leaves Plain.sound_refactored trivial h ha h1 h2

/-- **C66** Nor does giving other names to the variables that templates bind. -/
theorem C66_renamed {tree tree' : Template → Tree} {T T' : Tree} {r r' : Renderer} (h : Rewritten (Plain.Renamed []) env tree tree' T T' r r')
    (ha : Accepts io log) {w₀ w w' : ω} {res res' : Res Unit} (h1 : r.ToWriter env io w₀ res w) (h2 : r'.ToWriter env io w₀ res' w') :
    Unplaced res = Unplaced res' ∧ (res ≠ .crash → log w = log w') := rewritten_leaves Plain.sound_renamed trivial h ha h1 h2

variable {tree : Template → Tree} {r : Renderer}

theorem Spec.Steady.all (h : Steady env tree r) (t : Template) (ht : Includable (r.cfg env stringSink) t) : Parsed env t (tree t) ∧ Plain.Fine (tree t) :=
  ⟨h.parsed t ht, .of (h.parsed t ht) (h.tame t ht)⟩

/-- A template that does what two others do one after the other. -/
theorem Partial.in_turn (h : Steady env tree r) {ta tb tc : Template} {A B C : Tree} (pa : Parsed env ta A) (pb : Parsed env tb B) (pc : Parsed env tc C)
    (na : Tame A.body) (nb : Tame B.body) (nc : Tame C.body)
    (he : ∀ b, r.base = .ok b → Plain.render (Plain.ofCfg (r.cfg env stringSink) tree) (Plain.ofStmts C.source C.body) r.name [ofBase b] ⟨[], []⟩ =
      Plain.render (Plain.ofCfg (r.cfg env stringSink) tree) (Plain.ofStmts A.source A.body ++ Plain.ofStmts B.source B.body) r.name [ofBase b] ⟨[], []⟩)
    (hl : Accepts io log) {w₀ w₁ w₂ w : ω} {ra rb rc : Res Unit} (h1 : { r with template := ta }.ToWriter env io w₀ ra w₁)
    (h2 : { r with template := tb }.ToWriter env io w₁ rb w₂) (h3 : { r with template := tc }.ToWriter env io w₀ rc w) :
    (ra = .ok () → Unplaced rc = Unplaced rb ∧ (rc ≠ .crash → log w = log w₂)) ∧
      (ra ≠ .ok () → Unplaced rc = Unplaced ra ∧ (rc ≠ .crash → log w = log w₁)) := by
  rcases writer_run hl h1 with ⟨e, k1, rfl, rfl⟩ | ⟨k1, rfl⟩ | ⟨b, x, k1, _⟩
  · refine ⟨nofun, fun _ => ?_⟩
    rcases writer_run hl h3 with ⟨e', l1, rfl, rfl⟩ | ⟨l1, rfl⟩ | ⟨b', x', l1, _⟩
    · cases k1.symm.trans l1; exact ⟨rfl, fun _ => rfl⟩
    · cases k1.symm.trans l1
    · cases k1.symm.trans l1
  · refine ⟨nofun, fun _ => ?_⟩
    rcases writer_run hl h3 with ⟨e', l1, rfl, rfl⟩ | ⟨l1, rfl⟩ | ⟨b', x', l1, _⟩
    · cases k1.symm.trans l1
    · exact ⟨rfl, fun k => absurd rfl k⟩
    · cases k1.symm.trans l1
  · have k1 : r.base = .ok b := k1
    have m1 := writer_plain hl (h.change ta).all ⟨pa, .of pa na⟩ k1 h1
    have m2 := writer_plain hl (h.change tb).all ⟨pb, .of pb nb⟩ k1 h2
    have m3 := writer_plain hl (h.change tc).all ⟨pc, .of pc nc⟩ k1 h3
    have he := he b k1
    rw [Plain.render_append h.cfg] at he
    have m3 : Leaves log w₀ w (Unplaced rc) (seq (Plain.render (Plain.ofCfg (r.cfg env stringSink) tree) (Plain.ofStmts A.source A.body) r.name [ofBase b] ⟨[], []⟩)
      fun v => Plain.Shift v.out v.asked (Plain.render (Plain.ofCfg (r.cfg env stringSink) tree) (Plain.ofStmts B.source B.body) r.name [ofBase b] ⟨[], []⟩)) := he ▸ m3
    have m1 : Leaves log w₀ w₁ (Unplaced ra) (Plain.render (Plain.ofCfg (r.cfg env stringSink) tree) (Plain.ofStmts A.source A.body) r.name [ofBase b] ⟨[], []⟩) := m1
    have m2 : Leaves log w₁ w₂ (Unplaced rb) (Plain.render (Plain.ofCfg (r.cfg env stringSink) tree) (Plain.ofStmts B.source B.body) r.name [ofBase b] ⟨[], []⟩) := m2
    generalize Plain.render (Plain.ofCfg (r.cfg env stringSink) tree) (Plain.ofStmts A.source A.body) r.name [ofBase b] ⟨[], []⟩ = p at m1 m3
    generalize Plain.render (Plain.ofCfg (r.cfg env stringSink) tree) (Plain.ofStmts B.source B.body) r.name [ofBase b] ⟨[], []⟩ = q at m2 m3
    cases p with
    | crash =>
      obtain rfl := unplaced_crash m1
      obtain rfl := unplaced_crash m3
      exact ⟨nofun, fun _ => ⟨rfl, fun k => absurd rfl k⟩⟩
    | err e o =>
      refine ⟨fun k => ?_, fun _ => ⟨m3.1.trans m1.1.symm, fun _ => m3.2.trans m1.2.symm⟩⟩
      subst k; cases m1.1
    | ok o =>
      refine ⟨fun _ => ?_, fun k => ?_⟩
      · cases q with
        | crash =>
          obtain rfl := unplaced_crash m2
          obtain rfl := unplaced_crash m3
          exact ⟨rfl, fun k => absurd rfl k⟩
        | ok o' =>
          refine ⟨m3.1.trans m2.1.symm, fun _ => ?_⟩
          rw [m3.2, m2.2, m1.2, List.append_assoc, ← utf8_append]; rfl
        | err e o' =>
          refine ⟨m3.1.trans m2.1.symm, fun _ => ?_⟩
          rw [m3.2, m2.2, m1.2, List.append_assoc, ← utf8_append]; rfl
      · refine absurd ?_ k
        have := m1.1
        cases ra <;> simp_all [Unplaced]

/-- **C66** Rendering a template that says what two others say one after the other is rendering the first and then, on the same writer and if the first
succeeded, the second. -/
theorem C66_in_turn (h : Steady env tree r) {ta tb tc : Template} {A B C : Tree} {wa wb : List Item}
    (ha : Says env ta A wa) (hb : Says env tb B wb) (hc : Says env tc C (wa ++ wb)) (na : Tame A.body) (nb : Tame B.body)
    (hl : Accepts io log) {w₀ w₁ w₂ w : ω} {ra rb rc : Res Unit} (h1 : { r with template := ta }.ToWriter env io w₀ ra w₁)
    (h2 : { r with template := tb }.ToWriter env io w₁ rb w₂) (h3 : { r with template := tc }.ToWriter env io w₀ rc w) :
    (ra = .ok () → Unplaced rc = Unplaced rb ∧ (rc ≠ .crash → log w = log w₂)) ∧
      (ra ≠ .ok () → Unplaced rc = Unplaced ra ∧ (rc ≠ .crash → log w = log w₁)) :=
  Partial.in_turn h ha.parsed hb.parsed hc.parsed na nb
    ((Plain.tame_append ha.body hb.body hc.body).mpr ⟨na, nb⟩)
    (fun b _ => by rw [Plain.stmts_unique hc.body (Plain.wappend ha.body hb.body)]) hl h1 h2 h3

/-- **C66** Replacing tags `{% include "b" %}` by what the template `b` says changes nothing on the writer, also when the render fails, unless the includes reach
the limit. -/
theorem C66_inlined (h : Steady env tree r) {b : Str} {tb tc td : Template} {C D : Tree} {wb wc wd : List Item}
    (hp : Provides r b tb) (hb : Says env tb (tree tb) wb) (hc : Says env tc C wc) (hd : Says env td D wd) (nc : Tame C.body)
    (nd : Tame D.body) (hi : Inlined b wb wc wd) (hl : Accepts io log) {w₀ w w' : ω} {rc rd : Res Unit}
    (h1 : { r with template := tc }.ToWriter env io w₀ rc w) (h2 : { r with template := td }.ToWriter env io w₀ rd w') :
    Unplaced rc = .err (depthErr (r.maxIncludeDepth.getD r.engine.maxIncludeDepth)) ∨ (Bare rc = Bare rd ∧ (rc ≠ .crash → log w = log w')) := by
  rcases writer_run hl h1 with ⟨e, k1, rfl, rfl⟩ | ⟨k1, rfl⟩ | ⟨b, x, k1, _⟩
  · rcases writer_run hl h2 with ⟨e', l1, rfl, rfl⟩ | ⟨l1, rfl⟩ | ⟨b', x', l1, _⟩
    · cases k1.symm.trans l1; exact .inr ⟨rfl, fun _ => rfl⟩
    · cases k1.symm.trans l1
    · cases k1.symm.trans l1
  · rcases writer_run hl h2 with ⟨e', l1, rfl, rfl⟩ | ⟨l1, rfl⟩ | ⟨b', x', l1, _⟩
    · cases k1.symm.trans l1
    · exact .inr ⟨rfl, fun k => absurd rfl k⟩
    · cases k1.symm.trans l1
  · have k1 : r.base = .ok b := k1
    have m1 := writer_plain hl (h.change tc).all ⟨hc.parsed, .of hc.parsed nc⟩ k1 h1
    have m2 := writer_plain hl (h.change td).all ⟨hd.parsed, .of hd.parsed nd⟩ k1 h2
    have hs := Plain.sub_of hb.body hi hc.body hd.body
    have hn := Plain.render_inline h.cfg (provides_find h hp) hs r.name r.name [ofBase b] (w := ⟨[], []⟩) (w' := ⟨[], []⟩) rfl
    have bare_of : ∀ {x : Res Unit} {e : Err}, Unplaced x = .err e → ∃ e', x = .err e' ∧ Plain.bare e' = Plain.bare e := by
      intro x e k
      cases x with
      | err e' => exact ⟨e', rfl, by cases k; rfl⟩
      | ok => cases k
      | crash => cases k
    have m1 : Leaves log w₀ w (Unplaced rc) (Plain.render (Plain.ofCfg (r.cfg env stringSink) tree) (Plain.ofStmts C.source C.body) r.name [ofBase b] ⟨[], []⟩) := m1
    have m2 : Leaves log w₀ w' (Unplaced rd) (Plain.render (Plain.ofCfg (r.cfg env stringSink) tree) (Plain.ofStmts D.source D.body) r.name [ofBase b] ⟨[], []⟩) := m2
    generalize Plain.render (Plain.ofCfg (r.cfg env stringSink) tree) (Plain.ofStmts C.source C.body) r.name [ofBase b] ⟨[], []⟩ = p at m1 hn
    generalize Plain.render (Plain.ofCfg (r.cfg env stringSink) tree) (Plain.ofStmts D.source D.body) r.name [ofBase b] ⟨[], []⟩ = q at m2 hn
    cases hn with
    | ok h =>
      refine .inr ⟨?_, fun _ => by rw [m1.2, m2.2, h]⟩
      have a1 := m1.1
      have a2 := m2.1
      cases rc <;> cases rd <;> simp_all [Unplaced]
    | err h h' =>
      refine .inr ⟨?_, fun _ => by rw [m1.2, m2.2, h']⟩
      obtain ⟨e1, rfl, k1⟩ := bare_of m1.1
      obtain ⟨e2, rfl, k2⟩ := bare_of m2.1
      exact congrArg Res.err ((k1.trans h).trans k2.symm)
    | crash =>
      obtain rfl := unplaced_crash m1
      obtain rfl := unplaced_crash m2
      exact .inr ⟨rfl, fun k => absurd rfl k⟩
    | deep => exact .inl m1.1

end
end Upon
