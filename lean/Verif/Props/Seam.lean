import Verif.Spec.Seam
import Verif.Proofs.Seam
import Verif.Props.Partial
/-
C69: template texts written one after the other.
-/
namespace Upon
open Spec

section
variable {env : Env} {b : SyntaxBuilder} {a : AC.Auto} {x y : Str}

theorem Seam.tree (s : Setup b ⟨env, a, x⟩) (hx : Tidy b.build x) {t : Template} (h : compileSource ⟨env, a, x⟩ = .ok t) :
    ∃ ts as, Parser.parseTemplate ⟨env, a, x⟩ = .ok as ∧ Layout b.build env x (.text false) 0 ts ∧ GStmts env x ts as := by
  obtain ⟨ts, as, k1, k2, k3⟩ := (C09_grammar s hx t).mp h
  exact ⟨ts, as, (parseTemplate_iff (good s hx) as).mpr ⟨ts, ((C06_layout s hx ts).mpr k1).1, k2⟩, k1, k2⟩

/-- **C69** If two texts are templates and nothing new comes about at the seam, then one text followed by the other is a template, which says what the two say
one after the other. -/
theorem C69_says (s : Setup b ⟨env, a, x⟩) (hx : Tidy b.build x) (hy : Tidy b.build y) (hs : Seamless b.build x y) {ta tb : Template}
    (ha : compileSource ⟨env, a, x⟩ = .ok ta) (hb : compileSource ⟨env, a, y⟩ = .ok tb) :
    ∃ tc as bs cs wa wb, compileSource ⟨env, a, x ++ y⟩ = .ok tc ∧ Parser.parseTemplate ⟨env, a, x⟩ = .ok as ∧ Parser.parseTemplate ⟨env, a, y⟩ = .ok bs ∧
      Says env ta ⟨x, as⟩ wa ∧ Says env tb ⟨y, bs⟩ wb ∧ Says env tc ⟨x ++ y, cs⟩ (wa ++ wb) := by
  have hn := build_nonEmpty (built_valid s.built)
  have s' : Setup b ⟨env, a, y⟩ := ⟨s.built, s.searcher⟩
  obtain ⟨ts, as, k0, k1, k2⟩ := Seam.tree s hx ha
  obtain ⟨us, bs, l0, l1, l2⟩ := Seam.tree s' hy hb
  obtain ⟨vs, m1, m2⟩ := Seam.layout_append hn hs k1 l1
  have sa : Says env ta ⟨x, as⟩ (words x ts) := ⟨b, a, ts, s, hx, ha, k1, k2, rfl⟩
  have sb : Says env tb ⟨y, bs⟩ (words y us) := ⟨b, a, us, s', hy, hb, l1, l2, rfl⟩
  obtain ⟨tc, ⟨_, cs⟩, n1, rfl, n3⟩ := C45_accepts sa sb (src := x ++ y) ⟨s.built, s.searcher⟩ (Seam.tidy_append hn hs hx hy) m1 m2
  exact ⟨tc, as, bs, cs, _, _, n1, k0, l0, sa, sb, n3⟩

/-- **C69** If two texts are templates and nothing new comes about at the seam, then one text followed by the other is a template. -/
theorem C69_compiles (s : Setup b ⟨env, a, x⟩) (hx : Tidy b.build x) (hy : Tidy b.build y) (hs : Seamless b.build x y)
    (ha : ∃ t, compileSource ⟨env, a, x⟩ = .ok t) (hb : ∃ t, compileSource ⟨env, a, y⟩ = .ok t) : ∃ t, compileSource ⟨env, a, x ++ y⟩ = .ok t := by
  obtain ⟨ta, ha⟩ := ha
  obtain ⟨tb, hb⟩ := hb
  obtain ⟨tc, _, _, _, _, _, hc, _⟩ := C69_says s hx hy hs ha hb
  exact ⟨tc, hc⟩

variable {tree : Template → Tree} {r : Renderer}

/-- **C69** and renders the two texts one after the other, or fails as the first of them that fails. -/
theorem C69_to_string (h : Steady env tree r) (s : Setup b ⟨env, a, x⟩) (hx : Tidy b.build x) (hy : Tidy b.build y) (hs : Seamless b.build x y)
    {ta tb tc : Template} (ha : compileSource ⟨env, a, x⟩ = .ok ta) (hb : compileSource ⟨env, a, y⟩ = .ok tb) (hc : compileSource ⟨env, a, x ++ y⟩ = .ok tc)
    (na : ∀ ss, Parser.parseTemplate ⟨env, a, x⟩ = .ok ss → Tame ss) (nb : ∀ ss, Parser.parseTemplate ⟨env, a, y⟩ = .ok ss → Tame ss)
    {ra rb rc : Res Str} (h1 : { r with template := ta }.ToString env ra) (h2 : { r with template := tb }.ToString env rb)
    (h3 : { r with template := tc }.ToString env rc) : Unplaced rc = Unplaced (OneByOne ra rb) := by
  obtain ⟨tc', as, bs, cs, wa, wb, k1, k2, k3, sa, sb, sc⟩ := C69_says s hx hy hs ha hb
  cases k1.symm.trans hc
  exact C45_to_string h sa sb sc (na as k2) (nb bs k3) h1 h2 h3

/-- **C69** On a writer too, and then what a failed render leaves there is what the renders of the two leave, one after the other. -/
theorem C69_to_writer {ω : Type} {io : IoWriter ω} {log : ω → List UInt8} (h : Steady env tree r) (s : Setup b ⟨env, a, x⟩) (hx : Tidy b.build x)
    (hy : Tidy b.build y) (hs : Seamless b.build x y) {ta tb tc : Template} (ha : compileSource ⟨env, a, x⟩ = .ok ta)
    (hb : compileSource ⟨env, a, y⟩ = .ok tb) (hc : compileSource ⟨env, a, x ++ y⟩ = .ok tc)
    (na : ∀ ss, Parser.parseTemplate ⟨env, a, x⟩ = .ok ss → Tame ss) (nb : ∀ ss, Parser.parseTemplate ⟨env, a, y⟩ = .ok ss → Tame ss)
    (hl : Accepts io log) {w₀ w₁ w₂ w : ω} {ra rb rc : Res Unit} (h1 : { r with template := ta }.ToWriter env io w₀ ra w₁)
    (h2 : { r with template := tb }.ToWriter env io w₁ rb w₂) (h3 : { r with template := tc }.ToWriter env io w₀ rc w) :
    (ra = .ok () → Unplaced rc = Unplaced rb ∧ (rc ≠ .crash → log w = log w₂)) ∧
      (ra ≠ .ok () → Unplaced rc = Unplaced ra ∧ (rc ≠ .crash → log w = log w₁)) := by
  obtain ⟨tc', as, bs, cs, wa, wb, k1, k2, k3, sa, sb, sc⟩ := C69_says s hx hy hs ha hb
  cases k1.symm.trans hc
  exact C66_in_turn h sa sb sc (na as k2) (nb bs k3) hl h1 h2 h3

/-- **C69** Nothing new comes about at the seam if the second text begins with a character that is neither whitespace nor part of a delimiter. -/
theorem C69_seam_start {syn : Syn} (hn : NonEmptyDelims syn) {c : Char} {u : Str} (hw : isWhite c = false) (hd : ∀ p ∈ syn, c ∉ p.2) :
    Seamless syn x (c :: u) where
  across p hp d e he _ h := by
    cases e with
    | nil => exact .inr rfl
    | cons f e =>
      cases (List.cons_prefix_cons.mp h).1
      exact absurd (by rw [he]; simp) (hd p hp)
  before p hp _ _ white rest h hwh := by
    exfalso
    cases white with
    | cons f white =>
      have h := List.cons.inj h
      rw [hwh c (by rw [h.1]; simp)] at hw
      cases hw
    | nil =>
      obtain ⟨k, d⟩ := p
      cases d with
      | nil => exact hn _ hp rfl
      | cons f d => exact hd _ hp (by rw [(List.cons.inj h).1]; simp)
  after p hp _ _ _ _ _ _ c' u' h := by cases h; exact hw

/-- **C69** Or if the first text ends with such a character. -/
theorem C69_seam_end {syn : Syn} (hn : NonEmptyDelims syn) {c : Char} {u : Str} (hw : isWhite c = false) (hd : ∀ p ∈ syn, c ∉ p.2) :
    Seamless syn (u ++ [c]) y where
  across p hp d e he h _ := by
    cases d using List.reverseRecOn with
    | nil => exact .inl rfl
    | append_singleton d f _ =>
      obtain ⟨z, h⟩ := h
      have h := List.append_inj_right' (s₁ := z ++ d) (t₁ := [f]) (s₂ := u) (t₂ := [c]) (by simpa using h) rfl
      cases h
      exact absurd (by rw [he]; simp) (hd p hp)
  before p hp _ _ _ _ _ _ u' c' h := by
    have h := List.append_inj_right' h rfl
    cases h
    exact hw
  after p hp _ _ white rest h hwh := by
    exfalso
    cases white using List.reverseRecOn with
    | append_singleton white f _ =>
      have h := List.append_inj_right' (s₁ := u) (t₁ := [c]) (s₂ := rest ++ p.2 ++ white) (t₂ := [f]) (by simpa using h) rfl
      cases h
      rw [hwh c (by simp)] at hw
      cases hw
    | nil =>
      obtain ⟨k, d⟩ := p
      cases d using List.reverseRecOn with
      | nil => exact hn _ hp rfl
      | append_singleton d f _ =>
        have h := List.append_inj_right' (s₁ := u) (t₁ := [c]) (s₂ := rest ++ d) (t₂ := [f]) (by simpa using h) rfl
        cases h
        exact hd _ hp (by simp)

end
end Upon
