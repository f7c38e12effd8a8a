import Verif.Proofs.Related
import Verif.Props.Writers
import Verif.Props.Render
/-
C61: strings in the data are opaque. C62: entries added to the data do not matter.
-/
namespace Upon
open Spec Rel
variable {env : Env} {tree : Template → Tree} {T : Tree} {r : Renderer}

namespace Rel

/-! Output on strings -/

theorem run_text (p : FmtProg) : ∃ t res, ∀ o : Str, p.run stringSink o = (o ++ t, res) := by
  induction p with
  | done res => exact ⟨[], res, fun o => by rw [FmtProg.run, List.append_nil]⟩
  | write s k ih =>
    obtain ⟨t, res, h⟩ := ih true
    exact ⟨s ++ t, res, fun o => by rw [FmtProg.run]; show (k true).run stringSink (o ++ s) = _; rw [h, List.append_assoc]⟩

theorem appends_of {f : Formatter} {v : Value} {o o₁ : Str} (h : (f v).run stringSink o = (o₁, .ok ())) : ∃ t, Appends f v t ∧ o₁ = o ++ t := by
  obtain ⟨t, res, ht⟩ := run_text (f v)
  have := (ht o).symm.trans h
  cases this
  exact ⟨t, ht, rfl⟩

theorem Pieces.nil {P : Str → Str → Prop} : Pieces P [] [] := ⟨[], by simp, rfl, rfl⟩

theorem Pieces.add {P : Str → Str → Prop} {o o' t t' : Str} (h : Pieces P o o') (ht : t = t' ∨ P t t') : Pieces P (o ++ t) (o' ++ t') := by
  obtain ⟨ps, h1, rfl, rfl⟩ := h
  refine ⟨ps ++ [(t, t')], ?_, by simp, by simp⟩
  intro p hp
  rcases List.mem_append.mp hp with hp | hp
  · exact h1 p hp
  · cases List.mem_singleton.mp hp; exact ht

theorem follows_run {R : Value → Value → Prop} {P : Str → Str → Prop} {f : Formatter} (h : Follows R P f) :
    ∀ o o' v v' o₁, Pieces P o o' → R v v' → (f v).run stringSink o = (o₁, .ok ()) → ∃ o₁', (f v').run stringSink o' = (o₁', .ok ()) ∧ Pieces P o₁ o₁' := by
  intro o o' v v' o₁ ho hv hr
  obtain ⟨t, ht, rfl⟩ := appends_of hr
  obtain ⟨t', ht', hp⟩ := h v v' t hv ht
  exact ⟨o' ++ t', ht' o', Pieces.add ho (.inr hp)⟩

theorem outMatch {R : Value → Value → Prop} {P : Str → Str → Prop} (h : FormattersFollow R P r.engine) : OutMatch R (r.cfg env stringSink) (Pieces P) where
  raw o o' t ho _ := ⟨rfl, Pieces.add ho (.inl rfl)⟩
  shown := follows_run h.1
  named n f hf := follows_run (h.2 n f hf)

/-! The general statement -/

theorem to_string {R : Value → Value → Prop} {opt : Str → Prop} {pairs : Prop} {P : Str → Str → Prop} (hR : Matching R opt pairs)
    (ht : ∀ t, Includable (r.cfg env stringSink) t → Parsed env t (tree t)) (hT : Parsed env r.template T)
    (hto : ∀ t, Includable (r.cfg env stringSink) t → SsOk opt pairs (tree t).source (tree t).body) (hTo : SsOk opt pairs T.source T.body)
    (hfs : FiltersFollow R r.engine.functions) (hfm : FormattersFollow R P r.engine) {g : Globals} {b b' : SState}
    (hb : r.base = .ok b) (hb' : ({ r with globals := g } : Renderer).base = .ok b') (hbb : Scoped R opt asBuilt env [ofBase b] [ofBase b'])
    {o : Str} (h : r.ToString env (.ok o)) : ∃ o', ({ r with globals := g } : Renderer).ToString env (.ok o') ∧ Pieces P o o' := by
  have key := render_fol hR (q := asBuilt) (cfg := r.cfg env stringSink) hfs (outMatch hfm) hto hTo r.name (b := ofBase b) (b' := ofBase b') hbb
    (w := ⟨[], []⟩) (w' := ⟨[], []⟩) ⟨Pieces.nil, rfl⟩
  rw [C16_to_string ht hT hb] at h
  have h2 := C16_to_string (r := { r with globals := g }) ht hT hb'
  simp only [h2]
  change ∃ o', _ = stringResult (Spec.render asBuilt (r.cfg env stringSink) tree T r.name [ofBase b'] ⟨[], []⟩) ∧ _
  revert h key
  cases Spec.render asBuilt (r.cfg env stringSink) tree T r.name [ofBase b] ⟨[], []⟩ with
  | err e w => intro h; cases h
  | crash => intro h; cases h
  | ok w =>
    intro h key
    cases h
    obtain ⟨w', hw', hww⟩ := key w rfl
    rw [hw']
    exact ⟨_, rfl, hww.1⟩

/-! Strings -/

variable {S : Str → Str → Prop}

mutual
theorem recoded_refl (hS : ∀ s, S s s) : ∀ v, Recoded S v v
  | .none => .none
  | .bool _ => .bool
  | .integer _ => .integer
  | .float _ => .float
  | .string s => .string (hS s)
  | .list l => .list (recodedList_refl hS l)
  | .map m => .map (recodedMap_refl hS m)
theorem recodedList_refl (hS : ∀ s, S s s) : ∀ l, RecodedList S l l
  | [] => .nil
  | v :: l => .cons (recoded_refl hS v) (recodedList_refl hS l)
theorem recodedMap_refl (hS : ∀ s, S s s) : ∀ m, RecodedMap S m m
  | [] => .nil
  | (_, v) :: m => .cons (recoded_refl hS v) (recodedMap_refl hS m)
end

mutual
theorem recoded_symm (hS : ∀ s s', S s s' → S s' s) : ∀ {v v'}, Recoded S v v' → Recoded S v' v
  | _, _, .none => .none
  | _, _, .bool => .bool
  | _, _, .integer => .integer
  | _, _, .float => .float
  | _, _, .string h => .string (hS _ _ h)
  | _, _, .list h => .list (recodedList_symm hS h)
  | _, _, .map h => .map (recodedMap_symm hS h)
theorem recodedList_symm (hS : ∀ s s', S s s' → S s' s) : ∀ {l l'}, RecodedList S l l' → RecodedList S l' l
  | _, _, .nil => .nil
  | _, _, .cons h h' => .cons (recoded_symm hS h) (recodedList_symm hS h')
theorem recodedMap_symm (hS : ∀ s s', S s s' → S s' s) : ∀ {l l'}, RecodedMap S l l' → RecodedMap S l' l
  | _, _, .nil => .nil
  | _, _, .cons h h' => .cons (recoded_symm hS h) (recodedMap_symm hS h')
end

theorem recodedList_forall {l l' : List Value} (h : RecodedList S l l') : List.Forall₂ (Recoded S) l l' := by
  induction l generalizing l' with
  | nil => cases h; exact .nil
  | cons v l ih => cases h with | cons h1 h2 => exact .cons h1 (ih h2)

theorem recodedMap_forall {l l' : List (Str × Value)} (h : RecodedMap S l l') :
    List.Forall₂ (fun p p' => p.1 = p'.1 ∧ Recoded S p.2 p'.2) l l' := by
  induction l generalizing l' with
  | nil => cases h; exact .nil
  | cons v l ih => cases h with | cons h1 h2 => exact .cons ⟨rfl, h1⟩ (ih h2)

theorem pairs_get {R : Value → Value → Prop} {l l' : List (Str × Value)} (h : List.Forall₂ (fun p p' => p.1 = p'.1 ∧ R p.2 p'.2) l l') (k : Str) :
    OptRel R (BMap.get l k) (BMap.get l' k) := by
  induction h with
  | nil => exact .none
  | @cons p p' l l' h _ ih =>
    obtain ⟨k1, v1⟩ := p
    obtain ⟨k2, v2⟩ := p'
    obtain ⟨rfl, h⟩ : k1 = k2 ∧ R v1 v2 := h
    rw [BMap.get, BMap.get]
    split
    · exact .some h
    · exact ih

theorem recoded_matching (hS : ∀ s, S s s) (he : ∀ s s', S s s' → (s = [] ↔ s' = [])) : Matching (Recoded S) (fun _ => True) True where
  refl := recoded_refl hS
  truthy := by
    intro v v' h
    cases h with
    | string h => have := he _ _ h; simp only [Spec.truthy, ne_eq, this]
    | list h => simp only [Spec.truthy, forall₂_length (recodedList_forall h)]
    | map h => simp only [Spec.truthy, forall₂_length (recodedMap_forall h)]
    | _ => rfl
  none h := by cases h; rfl
  bool h := by cases h; rfl
  integer h := by cases h; rfl
  float h := by cases h; rfl
  string h := by cases h; exact ⟨_, rfl⟩
  list h := by cases h with | list h => exact ⟨_, rfl, recodedList_forall h⟩
  map h := by
    cases h with
    | map h =>
      have h := recodedMap_forall h
      refine ⟨_, rfl, fun k x hx => ?_, fun k _ hx => ?_, fun _ => h⟩
      · rcases pairs_get h k with ⟨h1, _⟩ | ⟨a, b, h1, h2, hab⟩
        · rw [h1] at hx; cases hx
        · rw [h1] at hx; cases hx; exact ⟨b, h2, hab⟩
      · rcases pairs_get h k with ⟨_, h1⟩ | ⟨a, b, h1, h2, hab⟩
        · exact h1
        · rw [h1] at hx; cases hx

theorem vok_true {src : Str} {v : Var} : VOk (fun _ => True) src v := fun _ _ _ _ _ _ _ => trivial

mutual
theorem sok_true {src : Str} : ∀ s, SOk (fun _ => True) True src s
  | .raw _ => by rw [SOk]; trivial
  | .inlineExpr _ _ => by rw [SOk]; exact fun _ _ => vok_true
  | .include_ _ none => by rw [SOk]; trivial
  | .include_ _ (some _) => by rw [SOk]; exact fun _ _ => vok_true
  | .ifElse _ _ t none => by rw [SOk]; exact ⟨fun _ _ => vok_true, ssok_true t⟩
  | .ifElse _ _ t (some f) => by rw [SOk]; exact ⟨fun _ _ => vok_true, ssok_true t, ssok_true f⟩
  | .forLoop vars _ b => by rw [SOk]; exact ⟨by cases vars <;> exact trivial, fun _ _ => vok_true, ssok_true b⟩
  | .with_ _ _ b => by rw [SOk]; exact ⟨fun _ _ => vok_true, ssok_true b⟩
theorem ssok_true {src : Str} : ∀ ss, SsOk (fun _ => True) True src ss
  | [] => by rw [SsOk]; trivial
  | s :: ss => by rw [SsOk]; exact ⟨sok_true s, ssok_true ss⟩
end

/-! The bottom of the scopes -/

theorem base_globals {R : Value → Value → Prop} {opt : Str → Prop} {pairs : Prop} (hR : Matching R opt pairs) {v v' : Value}
    (h : ∀ src m x, MOk opt src m → lookup env src v m = .ok (some x) → ∃ x', lookup env src v' m = .ok (some x') ∧ R x x') :
    Scoped R opt asBuilt env [.globals (.borrowed v)] [.globals (.borrowed v')] := by
  refine .base fun src u hu x hx => ?_
  rw [resolve] at hx
  obtain ⟨o, ho, hx⟩ := bind_ok.mp hx
  cases o with
  | none => exact absurd hx fault_ok
  | some y =>
    cases hx
    obtain ⟨z, hz, hzz⟩ := globals_fol hR (q := asBuilt) (env := env) (c := .borrowed v) (c' := .borrowed v') (fun m x hm hx => h src m x hm hx) rfl hu _ ho
    exact ⟨z, resolve_one _ _ _ _ _ _ _ hz, hzz⟩

theorem base_fn {R : Value → Value → Prop} {opt : Str → Prop} {f f' : ValueFn} (h : ∀ p v, f p = .ok v → ∃ v', f' p = .ok v' ∧ R v v') :
    Scoped R opt asBuilt env [.provider f] [.provider f'] := by
  refine .base fun src u hu x hx => ?_
  rw [resolve] at hx
  obtain ⟨o, ho, hx⟩ := bind_ok.mp hx
  rw [Binding.get] at ho
  obtain ⟨p, hp, ho⟩ := bind_ok.mp ho
  cases hf : f p with
  | error e => rw [hf] at ho; exact absurd ho fault_ok
  | ok y =>
    rw [hf] at ho
    cases ho
    cases hx
    obtain ⟨y', hy', hyy⟩ := h p y hf
    refine ⟨.owned y', resolve_one _ _ _ _ _ _ _ ?_, hyy, rfl⟩
    rw [Binding.get, hp]
    simp only [Res.ok_bind, hy']

theorem base_alike {R : Value → Value → Prop} {opt : Str → Prop} {pairs : Prop} (hR : Matching R opt pairs) {g g' : Globals} (h : GlobalsAlike R g g') :
    ∃ b b', ({ r with globals := g } : Renderer).base = .ok b ∧ ({ r with globals := g' } : Renderer).base = .ok b' ∧
      Scoped R opt asBuilt env [ofBase b] [ofBase b'] := by
  have hl : ∀ {v v'}, R v v' → ∀ src m x, MOk opt src m → lookup env src v m = .ok (some x) → ∃ x', lookup env src v' m = .ok (some x') ∧ R x x' := by
    intro v v' hv src m x hm hx
    obtain ⟨o, ho, hoo⟩ := lookup_fol hR hv hm _ hx
    rcases hoo with ⟨h1, _⟩ | ⟨a, b, h1, rfl, hab⟩
    · cases h1
    · cases h1; exact ⟨b, ho, hab⟩
  cases h with
  | borrowed h => exact ⟨_, _, rfl, rfl, base_globals hR (hl h)⟩
  | owned h => exact ⟨_, _, rfl, rfl, base_globals hR (hl h)⟩
  | fn h => exact ⟨_, _, rfl, rfl, base_fn h⟩

/-! Added entries -/

variable {K : Str → Prop}

mutual
theorem extends_refl : ∀ v, Extends K v v
  | .none => .none
  | .bool _ => .bool
  | .integer _ => .integer
  | .float _ => .float
  | .string s => .string
  | .list l => .list (extendsList_refl l)
  | .map m => .map id (extendsMap_refl m)
theorem extendsList_refl : ∀ l, ExtendsList K l l
  | [] => .nil
  | v :: l => .cons (extends_refl v) (extendsList_refl l)
theorem extendsMap_refl : ∀ m, ExtendsMap K m m
  | [] => .nil
  | (_, v) :: m => .keep (extends_refl v) (extendsMap_refl m)
end

theorem extendsList_forall {l l' : List Value} (h : ExtendsList K l l') : List.Forall₂ (Extends K) l l' := by
  induction l generalizing l' with
  | nil => cases h; exact .nil
  | cons v l ih => cases h with | cons h1 h2 => exact .cons h1 (ih h2)

theorem extendsMap_get : ∀ {m m' : List (Str × Value)}, ExtendsMap K m m' → (m' = [] → m = []) ∧ ∀ k,
    (∀ x, BMap.get m k = some x → ∃ x', BMap.get m' k = some x' ∧ Extends K x x') ∧ (¬ K k → BMap.get m k = none → BMap.get m' k = none)
  | _, _, .nil => ⟨id, fun k => ⟨fun x hx => (by cases hx), fun _ _ => rfl⟩⟩
  | _, _, .keep (k := k0) (v := v) (v' := v') h h' => by
    have ih := (extendsMap_get h').2
    refine ⟨fun h => (by cases h), fun k => ?_⟩
    rw [BMap.get, BMap.get]
    split
    · exact ⟨fun x hx => (by cases hx; exact ⟨_, rfl, h⟩), fun _ hx => (by cases hx)⟩
    · exact ih k
  | _, _, .new (k := k0) (v := v) (m := m) hk hn h' => by
    have ih := (extendsMap_get h').2
    refine ⟨fun h => (by cases h), fun k => ?_⟩
    have e : ∀ m', BMap.get ((k0, v) :: m') k = if k0 = k then some v else BMap.get m' k := fun m' => by rw [BMap.get]
    rw [e]
    split
    · rename_i hkk
      subst hkk
      exact ⟨fun x hx => (by rw [hn] at hx; cases hx), fun h => absurd hk h⟩
    · exact ih k

theorem extends_matching : Matching (Extends K) (fun n => ¬ K n) False where
  refl := extends_refl
  truthy := by
    intro v v' h
    cases h with
    | list h => simp only [Spec.truthy, forall₂_length (extendsList_forall h)]
    | @map m m' h h' =>
      have := (extendsMap_get h').1
      have : m.length = 0 ↔ m'.length = 0 := by
        rw [List.length_eq_zero_iff, List.length_eq_zero_iff]; exact ⟨h, this⟩
      simp only [Spec.truthy, ne_eq, this]
    | _ => rfl
  none h := by cases h; rfl
  bool h := by cases h; rfl
  integer h := by cases h; rfl
  float h := by cases h; rfl
  string h := by cases h; exact ⟨_, rfl⟩
  list h := by cases h with | list h => exact ⟨_, rfl, extendsList_forall h⟩
  map h := by
    cases h with
    | map _ h =>
      have h := (extendsMap_get h).2
      exact ⟨_, rfl, fun k x hx => (h k).1 x hx, fun k hk hx => (h k).2 hk hx, False.elim⟩

theorem base_extended {g g' : Globals} (h : GlobalsExtended K g g') :
    ∃ b b', ({ r with globals := g } : Renderer).base = .ok b ∧ ({ r with globals := g' } : Renderer).base = .ok b' ∧
      Scoped (Extends K) (fun n => ¬ K n) asBuilt env [ofBase b] [ofBase b'] := by
  have hl : ∀ {m m'}, ExtendsMap K m m' → ∀ src mb x, MOk (fun n => ¬ K n) src mb → lookup env src (.map m) mb = .ok (some x) →
      ∃ x', lookup env src (.map m') mb = .ok (some x') ∧ Extends K x x' := by
    intro m m' hv src mb x hm hx
    by_cases he : m = []
    · subst he
      rw [lookup.eq_def] at hx
      obtain ⟨op, acc, sp⟩ := mb
      cases acc with
      | index i => exact absurd hx errRender_ok
      | key k =>
        dsimp only at hx
        obtain ⟨n, _, hx⟩ := bind_ok.mp hx
        simp only [BMap.get] at hx
        cases op with
        | direct => exact absurd hx errRender_ok
        | optional => cases hx
    · obtain ⟨o, ho, hoo⟩ := lookup_fol extends_matching (.map (fun h => absurd h he) hv) hm _ hx
      rcases hoo with ⟨h1, _⟩ | ⟨a, b, h1, rfl, hab⟩
      · cases h1
      · cases h1; exact ⟨b, ho, hab⟩
  cases h with
  | borrowed h => exact ⟨_, _, rfl, rfl, base_globals extends_matching (hl h)⟩
  | owned h => exact ⟨_, _, rfl, rfl, base_globals extends_matching (hl h)⟩
  | fn h => exact ⟨_, _, rfl, rfl, base_fn h⟩

section
variable {opt : Str → Prop} {src : Str}

mutual
theorem sok_of : ∀ s, stmtNoPairs s → (∀ e ∈ stmtExprs s, ∀ v ∈ exprVars e, VOk opt src v) → SOk opt False src s
  | .raw _, _, _ => by rw [SOk]; trivial
  | .inlineExpr e _, _, h => by rw [SOk]; exact h e (by simp [stmtExprs])
  | .include_ _ none, _, _ => by rw [SOk]; trivial
  | .include_ _ (some e), _, h => by rw [SOk]; exact h e (by simp [stmtExprs])
  | .ifElse _ e t none, hp, h => by
    rw [SOk]
    rw [stmtNoPairs] at hp
    exact ⟨h e (by simp [stmtExprs]), ssok_of t hp fun x hx => h x (by simp [stmtExprs, hx])⟩
  | .ifElse _ e t (some f), hp, h => by
    rw [SOk]
    rw [stmtNoPairs] at hp
    exact ⟨h e (by simp [stmtExprs]), ssok_of t hp.1 fun x hx => h x (by simp [stmtExprs, hx]), ssok_of f hp.2 fun x hx => h x (by simp [stmtExprs, hx])⟩
  | .forLoop (.item _) e b, hp, h => by
    rw [SOk]
    rw [stmtNoPairs] at hp
    exact ⟨trivial, h e (by simp [stmtExprs]), ssok_of b hp fun x hx => h x (by simp [stmtExprs, hx])⟩
  | .forLoop (.keyValue _ _ _) e b, hp, h => by
    rw [stmtNoPairs] at hp
    exact hp.elim
  | .with_ e _ b, hp, h => by
    rw [SOk]
    rw [stmtNoPairs] at hp
    exact ⟨h e (by simp [stmtExprs]), ssok_of b hp fun x hx => h x (by simp [stmtExprs, hx])⟩
theorem ssok_of : ∀ ss, stmtsNoPairs ss → (∀ e ∈ stmtsExprs ss, ∀ v ∈ exprVars e, VOk opt src v) → SsOk opt False src ss
  | [], _, _ => by rw [SsOk]; trivial
  | s :: ss, hp, h => by
    rw [SsOk]
    rw [stmtsNoPairs] at hp
    exact ⟨sok_of s hp.1 fun x hx => h x (by simp [stmtsExprs, hx]), ssok_of ss hp.2 fun x hx => h x (by simp [stmtsExprs, hx])⟩
end
end

theorem ssok_unaware {T : Tree} (h : Unaware K T) : SsOk (fun n => ¬ K n) False T.source T.body :=
  ssok_of _ h.1 fun e he v hv m hm ho k n hk hn => h.2 v ⟨e, he, hv⟩ m hm ho k n hk hn

theorem pieces_eq {o o' : Str} (h : Pieces Eq o o') : o = o' := by
  obtain ⟨ps, h1, rfl, rfl⟩ := h
  congr 1
  exact List.map_congr_left fun p hp => (or_self_iff.mp (h1 p hp))

/-! The default formatter -/

theorem appends_writeAll {f : Formatter} {v : Value} {ts : List Str} (h : f v = .writeAll ts) : Appends f v ts.flatten := by
  intro o
  rw [h]
  clear h
  induction ts generalizing o with
  | nil => rw [FmtProg.writeAll, FmtProg.run]; simp
  | cons t ts ih => rw [FmtProg.writeAll, FmtProg.run]; show FmtProg.run _ (FmtProg.writeAll ts) (o ++ t) = _; rw [ih]; simp

theorem appends_unique {f : Formatter} {v : Value} {t t' : Str} (h : Appends f v t) (h' : Appends f v t') : t = t' := by
  have := (h []).symm.trans (h' [])
  simpa using this

theorem not_appends {f : Formatter} {v : Value} {m : Option String} (h : f v = .done (.error m)) {t : Str} : ¬ Appends f v t := by
  intro ht
  have := ht []
  rw [h, FmtProg.run] at this
  cases this

theorem default_same {P : Str → Str → Prop} (hP : ∀ t, P t t) {v : Value} {t : Str} (h : Appends (fmtDefault env) v t) :
    ∃ t', Appends (fmtDefault env) v t' ∧ P t t' := ⟨t, h, hP t⟩

end Rel

/-- The default formatter writes corresponding strings as such, and everything else alike. -/
theorem Rel.default_recoded {S : Str → Str → Prop} (hS : ∀ s, S s s) : Follows (Recoded S) S (fmtDefault env) := by
  intro v v' t hv ht
  cases hv with
  | string h =>
    rename_i s s'
    have h1 : Appends (fmtDefault env) (.string s) s := by simpa using appends_writeAll (f := fmtDefault env) (v := .string s) (ts := [s]) rfl
    have h2 : Appends (fmtDefault env) (.string s') s' := by simpa using appends_writeAll (f := fmtDefault env) (v := .string s') (ts := [s']) rfl
    rw [appends_unique ht h1]
    exact ⟨s', h2, h⟩
  | list => exact absurd ht (not_appends rfl)
  | map => exact absurd ht (not_appends rfl)
  | _ => exact default_same hS ht

theorem Rel.default_extends {K : Str → Prop} : Follows (Extends K) Eq (fmtDefault env) := by
  intro v v' t hv ht
  cases hv with
  | list => exact absurd ht (not_appends rfl)
  | map => exact absurd ht (not_appends rfl)
  | _ => exact default_same (fun _ => rfl) ht

/-- **C61** Strings in the data are opaque. Replace strings in the data, at any depth, by others (empty ones only by empty ones), where the filters turn
corresponding values into corresponding ones and the formatters write them as corresponding texts. If a template renders with the one then also with the
other, and the two texts consist of corresponding pieces. -/
theorem C61_recoded {S P : Str → Str → Prop} (hS : ∀ s, S s s) (he : ∀ s s', S s s' → (s = [] ↔ s' = []))
    (ht : ∀ t, Includable (r.cfg env stringSink) t → Parsed env t (tree t)) (hT : Parsed env r.template T)
    (hfs : FiltersFollow (Recoded S) r.engine.functions) (hfm : FormattersFollow (Recoded S) P r.engine) {g g' : Globals}
    (hg : GlobalsAlike (Recoded S) g g') {o : Str} (h : ({ r with globals := g } : Renderer).ToString env (.ok o)) :
    ∃ o', ({ r with globals := g' } : Renderer).ToString env (.ok o') ∧ Pieces P o o' := by
  have hR := recoded_matching hS he
  obtain ⟨b, b', h1, h2, h3⟩ := base_alike (r := r) (env := env) hR hg
  exact Rel.to_string (r := { r with globals := g }) hR ht hT (fun t _ => ssok_true _) (ssok_true _) hfs hfm h1 h2 h3 h

/-- **C61** In particular, with the default formatter and no others, each string that is shown is shown as it is: the two texts differ only in that some
pieces `s` of the first are pieces `s'` of the second, for corresponding strings `s` and `s'`. -/
theorem C61_default {S : Str → Str → Prop} (hS : ∀ s, S s s) (he : ∀ s s', S s s' → (s = [] ↔ s' = []))
    (ht : ∀ t, Includable (r.cfg env stringSink) t → Parsed env t (tree t)) (hT : Parsed env r.template T)
    (hfs : FiltersFollow (Recoded S) r.engine.functions) (hd : r.engine.defaultFormatter = fmtDefault env)
    (hn : ∀ n f, BMap.get r.engine.functions n ≠ some (.formatter f)) {g g' : Globals}
    (hg : GlobalsAlike (Recoded S) g g') {o : Str} (h : ({ r with globals := g } : Renderer).ToString env (.ok o)) :
    ∃ o', ({ r with globals := g' } : Renderer).ToString env (.ok o') ∧ Pieces S o o' :=
  C61_recoded hS he ht hT hfs ⟨by rw [hd]; exact default_recoded hS, fun n f hf => absurd hf (hn n f)⟩ hg h

/-- **C61** And if the replacement can be undone then the template renders with the one if and only if it does with the other: whether a template renders at
all does not depend on what the strings are. -/
theorem C61_both {S : Str → Str → Prop} (hS : ∀ s, S s s) (hs : ∀ s s', S s s' → S s' s) (he : ∀ s s', S s s' → (s = [] ↔ s' = []))
    (ht : ∀ t, Includable (r.cfg env stringSink) t → Parsed env t (tree t)) (hT : Parsed env r.template T)
    (hfs : FiltersFollow (Recoded S) r.engine.functions) (hd : r.engine.defaultFormatter = fmtDefault env)
    (hn : ∀ n f, BMap.get r.engine.functions n ≠ some (.formatter f)) {v v' : Value} (hv : Recoded S v v') :
    (∃ o, ({ r with globals := .borrowed v } : Renderer).ToString env (.ok o)) ↔
      ∃ o', ({ r with globals := .borrowed v' } : Renderer).ToString env (.ok o') :=
  ⟨fun ⟨_, h⟩ => let ⟨o', h', _⟩ := C61_default hS he ht hT hfs hd hn (.borrowed hv) h; ⟨o', h'⟩,
    fun ⟨_, h⟩ => let ⟨o', h', _⟩ := C61_default hS he ht hT hfs hd hn (.borrowed (recoded_symm hs hv)) h; ⟨o', h'⟩⟩

/-- **C62** Entries added to the data do not matter. If a template renders, and neither it nor the templates it may include ask whether maps have entries
with keys in `K`, then it renders to the same text when maps in the data are given more entries, with keys in `K`. -/
theorem C62_extended {K : Str → Prop} (ht : ∀ t, Includable (r.cfg env stringSink) t → Parsed env t (tree t)) (hT : Parsed env r.template T)
    (hu : Unaware K T) (hus : ∀ t, Includable (r.cfg env stringSink) t → Unaware K (tree t))
    (hfs : FiltersFollow (Extends K) r.engine.functions) (hfm : FormattersFollow (Extends K) Eq r.engine) {g g' : Globals}
    (hg : GlobalsExtended K g g') {o : Str} (h : ({ r with globals := g } : Renderer).ToString env (.ok o)) :
    ({ r with globals := g' } : Renderer).ToString env (.ok o) := by
  obtain ⟨b, b', h1, h2, h3⟩ := base_extended (r := r) (env := env) hg
  obtain ⟨o', ho', hp⟩ := Rel.to_string (r := { r with globals := g }) extends_matching ht hT (fun t h => ssok_unaware (hus t h)) (ssok_unaware hu)
    hfs hfm h1 h2 h3 h
  rw [pieces_eq hp]
  exact ho'

/-- **C62** In particular with the default formatter and no others. -/
theorem C62_default {K : Str → Prop} (ht : ∀ t, Includable (r.cfg env stringSink) t → Parsed env t (tree t)) (hT : Parsed env r.template T)
    (hu : Unaware K T) (hus : ∀ t, Includable (r.cfg env stringSink) t → Unaware K (tree t))
    (hfs : FiltersFollow (Extends K) r.engine.functions) (hd : r.engine.defaultFormatter = fmtDefault env)
    (hn : ∀ n f, BMap.get r.engine.functions n ≠ some (.formatter f)) {g g' : Globals}
    (hg : GlobalsExtended K g g') {o : Str} (h : ({ r with globals := g } : Renderer).ToString env (.ok o)) :
    ({ r with globals := g' } : Renderer).ToString env (.ok o) :=
  C62_extended ht hT hu hus hfs ⟨by rw [hd]; exact default_extends, fun n f hf => absurd hf (hn n f)⟩ hg h

end Upon
