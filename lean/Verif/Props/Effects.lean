import Verif.Proofs.EffectsSafe
import Verif.Props.Writers
/-
C58: filters, formatters and value functions that have effects, or answer the same call differently each time.
-/
namespace Upon
open Spec Compiler
variable {σ ω : Type} {env : Env} {r : Renderer} {bs : Nat → Behaviour} {tree : Template → Tree} {T : Tree} {b : SState}

/-- **C58** Whatever the functions do, each time they are used: a render ends, in one way, which is what the template says when each use
of a function gets its own answer, in the order in which the template uses them. -/
theorem C58_render {sink : Sink σ} (ht : ∀ t, Includable (r.cfg env sink) t → Parsed env t (tree t)) (hT : Parsed env r.template T)
    (hb : r.base = .ok b) (bs : Nat → Behaviour) (out : σ) :
    ∃ res, HaltsActing (r.cfg env sink) bs (initVM r.template r.name b out) res ∧
      (∀ res', HaltsActing (r.cfg env sink) bs (initVM r.template r.name b out) res' → res' = res) ∧
      ∃ z, renderAt asBuilt (r.cfg env sink) bs tree T r.name [ofBase b] ⟨out, []⟩ 0 res z := by
  have hc : compileTemplate r.template.source T.body = some r.template := by
    rw [← hT.source]; exact hT.code
  have hc' := base_cases hb
  obtain ⟨res, h1, z, h2⟩ := Eff.renders (cfg := r.cfg env sink) (bs := bs) (tree := tree) (fun t h => (ht t h).code) hc (base := b)
    (b := ofBase b) (by
      rcases hc' with ⟨f, h1, h2⟩ | ⟨c, h1, h2⟩
      · exact Or.inl ⟨f, h1, h2⟩
      · exact Or.inr ⟨c, h1, h2⟩) r.name out
  rw [show (⟨r.template.source, T.body⟩ : Tree) = T by rw [← hT.source]] at h2
  exact ⟨res, h1, fun res' h => Eff.halts_unique h h1, z, h2⟩

/-- **C58** `to_string` returns, and returns only one thing, whatever the functions do. -/
theorem C58_to_string (h : Healthy env r) (bs : Nat → Behaviour) :
    ∃ res, r.ToStringActing env bs res ∧ ∀ res', r.ToStringActing env bs res' → res' = res := by
  cases hb : r.base with
  | ok b =>
    obtain ⟨tree, ht⟩ := trees_exist (h.all stringSink)
    obtain ⟨T, hT⟩ := compiled_parsed h.main
    obtain ⟨m, h1, h2, _⟩ := C58_render ht hT hb bs []
    have key : ∀ res, r.ToStringActing env bs res ↔ res = stringResult m := by
      intro res
      constructor
      · intro h
        cases h with
        | globalsErr e h => rw [hb] at h; cases h
        | globalsCrash h => rw [hb] at h; cases h
        | ok b' w g1 g2 => rw [hb] at g1; cases g1; rw [← h2 _ g2]; rfl
        | err b' e w g1 g2 => rw [hb] at g1; cases g1; rw [← h2 _ g2]; rfl
        | crash b' g1 g2 => rw [hb] at g1; cases g1; rw [← h2 _ g2]; rfl
      · rintro rfl
        cases m with
        | ok w => exact .ok b w hb h1
        | err e w => exact .err b e w hb h1
        | crash => exact .crash b hb h1
    exact ⟨_, (key _).mpr rfl, fun res' h => (key _).mp h⟩
  | err e =>
    refine ⟨_, .globalsErr e hb, fun r' h' => ?_⟩
    cases h' with
    | globalsErr e' h => rw [hb] at h; cases h; rfl
    | globalsCrash h => rw [hb] at h; cases h
    | ok b' w h1 h2 => rw [hb] at h1; cases h1
    | err b' e w h1 h2 => rw [hb] at h1; cases h1
    | crash b' h1 h2 => rw [hb] at h1; cases h1
  | crash =>
    refine ⟨_, .globalsCrash hb, fun r' h' => ?_⟩
    cases h' with
    | globalsErr e' h => rw [hb] at h; cases h
    | globalsCrash h => rfl
    | ok b' w h1 h2 => rw [hb] at h1; cases h1
    | err b' e w h1 h2 => rw [hb] at h1; cases h1
    | crash b' h1 h2 => rfl

/-- **C58** What `to_string` returns is what the template says when each use of a function gets its own answer. -/
theorem C58_string_meaning (ht : ∀ t, Includable (r.cfg env stringSink) t → Parsed env t (tree t)) (hT : Parsed env r.template T)
    (hb : r.base = .ok b) {res : Res Str} (h : r.ToStringActing env bs res) :
    ∃ m z, renderAt asBuilt (r.cfg env stringSink) bs tree T r.name [ofBase b] ⟨[], []⟩ 0 m z ∧ res = stringResult m := by
  obtain ⟨m, h1, h2, z, hz⟩ := C58_render ht hT hb bs []
  refine ⟨m, z, hz, ?_⟩
  cases h with
  | globalsErr e h => rw [hb] at h; cases h
  | globalsCrash h => rw [hb] at h; cases h
  | ok b' w g1 g2 => rw [hb] at g1; cases g1; rw [← h2 _ g2]; rfl
  | err b' e w g1 g2 => rw [hb] at g1; cases g1; rw [← h2 _ g2]; rfl
  | crash b' g1 g2 => rw [hb] at g1; cases g1; rw [← h2 _ g2]; rfl

/-- **C58** The same for `to_writer`. -/
theorem C58_writer_meaning {io : IoWriter ω} (ht : ∀ t, Includable (r.cfg env (writerSink io)) t → Parsed env t (tree t))
    (hT : Parsed env r.template T) (hb : r.base = .ok b) (bs : Nat → Behaviour) (w₀ : ω) :
    ∃ m z, renderAt asBuilt (r.cfg env (writerSink io)) bs tree T r.name [ofBase b] ⟨(w₀, none), []⟩ 0 m z ∧
      ∀ res x, r.ToWriterActing env bs io w₀ res x ↔ WriterEnds m res x := by
  obtain ⟨m, h1, h2, z, hz⟩ := C58_render ht hT hb bs (w₀, none)
  refine ⟨m, z, hz, fun res x => ⟨fun h => ?_, fun h => ?_⟩⟩
  · cases h with
    | globalsErr e h => rw [hb] at h; cases h
    | globalsCrash h => rw [hb] at h; cases h
    | ok b' w g1 g2 => rw [hb] at g1; cases g1; rw [← h2 _ g2]; exact ⟨rfl, rfl⟩
    | err b' e w g1 g2 => rw [hb] at g1; cases g1; rw [← h2 _ g2]; exact ⟨by cases w.out.2 <;> rfl, rfl⟩
    | crash b' w' g1 g2 => rw [hb] at g1; cases g1; rw [← h2 _ g2]; rfl
  · cases m with
    | ok w => obtain ⟨rfl, rfl⟩ := h; exact .ok b w hb h1
    | err e w => 
      obtain ⟨rfl, rfl⟩ := h
      have := Renderer.ToWriterActing.err (io := io) b e w hb h1
      revert this
      cases w.out.2 <;> exact id
    | crash => cases h; exact .crash b x hb h1

/-! Functions that always do the same -/

theorem acting_base (act : Behaviour) (hb : r.base = .ok b) :
    (r.acting act).base = .ok (b.acting act) ∧ Scope.acting act [ofBase b] = [ofBase (b.acting act)] := by
  unfold Renderer.base at hb
  unfold Renderer.base Renderer.acting
  cases hg : r.globals with
  | owned res =>
    rw [hg] at hb
    cases res with
    | ok v => cases hb; exact ⟨rfl, rfl⟩
    | err e => cases hb
    | crash => cases hb
  | borrowed v => rw [hg] at hb; cases hb; exact ⟨rfl, rfl⟩
  | fn f => rw [hg] at hb; cases hb; exact ⟨rfl, rfl⟩

/-- **C58** When the functions always do the same, so does the render: it is the render with functions that do just this. -/
theorem C58_same (h : Healthy env r) (act : Behaviour) (res : Res Str) :
    r.ToStringActing env (fun _ => act) res ↔ (r.acting act).ToString env res := by
  cases hb : r.base with
  | ok b =>
    obtain ⟨tree, ht⟩ := trees_exist (h.all stringSink)
    obtain ⟨T, hT⟩ := compiled_parsed h.main
    obtain ⟨hb', hs⟩ := acting_base act hb
    have e2 := C16_to_string (env := env) (r := r.acting act) (tree := tree) ht hT hb'
    obtain ⟨res', h1, h2⟩ := C58_to_string h (fun _ => act)
    obtain ⟨m, z, hz, h3⟩ := C58_string_meaning ht hT hb h1
    have := Eff.render_same hz
    rw [hs] at this
    rw [e2]
    subst h3
    have : stringResult m = stringResult (render asBuilt ((r.acting act).cfg env stringSink) tree T (r.acting act).name [ofBase (b.acting act)] ⟨[], []⟩) := by
      rw [this]; rfl
    rw [← this]
    exact ⟨fun h => h2 _ h, fun h => h ▸ h1⟩
  | err e =>
    have hb' : (r.acting act).base = .err e := by
      unfold Renderer.base at hb ⊢
      unfold Renderer.acting
      cases hg : r.globals with
      | owned res => rw [hg] at hb; exact hb
      | borrowed v => rw [hg] at hb; cases hb
      | fn f => rw [hg] at hb; cases hb
    constructor
    · intro h
      cases h with
      | globalsErr e h => rw [hb] at h; cases h; exact .globalsErr _ hb'
      | globalsCrash h => rw [hb] at h; cases h
      | ok b' w h1 h2 => rw [hb] at h1; cases h1
      | err b' e w h1 h2 => rw [hb] at h1; cases h1
      | crash b' h1 h2 => rw [hb] at h1; cases h1
    · intro h
      cases h with
      | globalsErr e h => rw [hb'] at h; cases h; exact .globalsErr _ hb
      | globalsCrash h => rw [hb'] at h; cases h
      | ok b' w h1 h2 => rw [hb'] at h1; cases h1
      | err b' e w h1 h2 => rw [hb'] at h1; cases h1
      | crash b' h1 h2 => rw [hb'] at h1; cases h1
  | crash =>
    have hb' : (r.acting act).base = .crash := by
      unfold Renderer.base at hb ⊢
      unfold Renderer.acting
      cases hg : r.globals with
      | owned res => rw [hg] at hb; exact hb
      | borrowed v => rw [hg] at hb; cases hb
      | fn f => rw [hg] at hb; cases hb
    constructor
    · intro h
      cases h with
      | globalsErr e h => rw [hb] at h; cases h
      | globalsCrash h => exact .globalsCrash hb'
      | ok b' w h1 h2 => rw [hb] at h1; cases h1
      | err b' e w h1 h2 => rw [hb] at h1; cases h1
      | crash b' h1 h2 => exact .globalsCrash hb'
    · intro h
      cases h with
      | globalsErr e h => rw [hb'] at h; cases h
      | globalsCrash h => exact .globalsCrash hb
      | ok b' w h1 h2 => rw [hb'] at h1; cases h1
      | err b' e w h1 h2 => rw [hb'] at h1; cases h1
      | crash b' h1 h2 => exact .globalsCrash hb

theorem acting_own (r : Renderer) : r.acting r.own = r := by
  obtain ⟨g, e, t, n, d, f⟩ := r
  cases g <;> rfl

/-- **C58** In particular, with the functions given to the engine and the renderer, if they have no effects. -/
theorem C58_pure (h : Healthy env r) (res : Res Str) : r.ToStringActing env (fun _ => r.own) res ↔ r.ToString env res := by
  rw [C58_same h, acting_own]

/-! No panics -/

/-- **C58** Effects of functions cause no panics: the only cause is the one of C14. -/
theorem C58_panics {sink : Sink σ} (ht : ∀ t, Includable (r.cfg env sink) t → Parsed env t (tree t)) (hT : Parsed env r.template T)
    (hb : r.base = .ok b) {out : σ} (h : HaltsActing (r.cfg env sink) bs (initVM r.template r.name b out) .crash) :
    Unreadable (r.cfg env sink) tree T.source T.body [] := by
  obtain ⟨res, _, h2, z, hz⟩ := C58_render ht hT hb bs out
  rw [← h2 _ h, renderAt] at hz
  by_cases h0 : T.source = []
  · rw [hT.empty h0, stmtsAt] at hz; exact nomatch hz.1
  · have hr : Rel [b] [ofBase b] ∧ withNames (inSight [b]) = [] := by
      rcases base_cases hb with ⟨f, rfl, he⟩ | ⟨c, rfl, he⟩
      · exact ⟨.valueFn f .nil, rfl⟩
      · exact ⟨.scope c .nil, rfl⟩
    have := Eff.panicsAt ht _ h0 hT.inside hr.1 (Eff.sight_iff.mpr (by rw [hr.2]; intro _ h; cases h)) hz
    rwa [hr.2] at this

/-- **C58** So there is no panic when neither the template nor those it may include have a plain `include` inside a `with` block. -/
theorem C58_tame {sink : Sink σ} (ht : ∀ t, Includable (r.cfg env sink) t → Parsed env t (tree t) ∧ Tame (tree t).body)
    (hT : Parsed env r.template T) (hm : Tame T.body) (hb : r.base = .ok b) (bs : Nat → Behaviour) (out : σ) :
    ∃ res, HaltsActing (r.cfg env sink) bs (initVM r.template r.name b out) res ∧ res ≠ .crash := by
  obtain ⟨res, h1, _, _⟩ := C58_render (fun t h => (ht t h).1) hT hb bs out
  refine ⟨res, h1, fun hc => ?_⟩
  subst hc
  exact tame_readable (fun t h => (ht t h).2) hm (C58_panics (fun t h => (ht t h).1) hT hb h1)

/-! What reaches the output -/

theorem Spec.AlwaysAirtight.sound {P : Str → Prop} {sink : Sink σ} (h : AlwaysAirtight env tree T r bs P) (t : Nat) :
    Escaping.Sound (Needs (r.cfg env stringSink) tree T) P ((r.cfg env sink).acting (bs t)) tree :=
  ⟨h.text, h.shown t, h.named t, fun _ hU _ _ hi h1 h2 => .registered hU hi h1 h2, fun _ hU _ _ _ _ hi h1 h2 => .provided hU hi h1 h2⟩

/-- **C58** As in C47: if all that the formatters ever write satisfies `P`, then so does the rendered text, whatever the effects. -/
theorem C58_output {P : Str → Prop} (h : AlwaysAirtight env tree T r bs P)
    (ht : ∀ t, Includable (r.cfg env stringSink) t → Parsed env t (tree t)) (hT : Parsed env r.template T) (h0 : P [])
    (happ : ∀ x y, P x → P y → P (x ++ y)) {s : Str} (hs : r.ToStringActing env bs (.ok s)) : P s := by
  have hb : ∃ b, r.base = .ok b := by cases hs with | ok b w h => exact ⟨b, h⟩
  obtain ⟨b, hb⟩ := hb
  obtain ⟨m, z, hz, he⟩ := C58_string_meaning ht hT hb hs
  have key := Eff.afterAt_render (J := P) (P := P) (fun s t h1 h2 => happ s t h1 h2) (fun t => h.sound t) .self r.name [ofBase b]
    (w := ⟨[], []⟩) h0 hz
  cases m with
  | ok w => cases he; exact key
  | err e w => cases he
  | crash => cases he

end Upon
