import Verif.Proofs.OrderedRun
import Verif.Proofs.Demo
/-
Loops over maps go through the keys in order (C19).
-/
namespace Upon
open Spec
variable {σ : Type} {cfg : RenderCfg σ} {k : Nat} {st : Stack} {name : Option Str} {src : Str}

/-- **C19** A loop over a map has one round for each key of the map, in ascending order of the keys; in
round `j` the first variable stands for the key, the second for the value stored under it. -/
theorem C19_map (hl : Live cfg k st) {e : Expr} {v : Cow} (hv : valueOf cfg src st e = .ok v) {m : List (Str × Value)}
    (hmap : v.val = .map m) (ho : Ordered v.val) {ki vi : Ident} {kn vn : Str} (hk : ki.span.of src = some kn)
    (hn : vi.span.of src = some vn) (hkl : kn ≠ "loop".toList) (hvl : vn ≠ "loop".toList) (hkv : vn ≠ kn)
    (sp : Span) (body : List Stmt) :
    ∃ keys : List Str, keys.Pairwise Before ∧ (∀ key, key ∈ keys ↔ ∃ x, BMap.get m key = some x) ∧
      ∃ rounds : Nat → SState,
        (∀ (w : World σ) (res : RunRes σ), Piece cfg k name src [.forLoop (.keyValue ki vi sp) e body] st w res ↔
          InTurn (fun j => Piece cfg k name src body (rounds j :: st)) keys.length 0 w res) ∧
        ∀ (j : Nat) (key : Str), keys[j]? = some key → ∀ x : Var, x.rest = [] →
          (Named src x kn → lookupVar cfg.env src (rounds j :: st) x = .ok (.owned (.string key))) ∧
          (Named src x vn → ∃ c : Cow, BMap.get m key = some c.val ∧ lookupVar cfg.env src (rounds j :: st) x = .ok c) := by
  rw [hmap] at ho
  have ha : Ascending m := ho.1
  refine ⟨m.map Prod.fst, ha, ?_, fun j => .loop (mapRound kn vn (isOwned v) m j), ?_, ?_⟩
  · intro key
    constructor
    · intro h
      obtain ⟨⟨a, b⟩, hm, rfl⟩ := List.mem_map.mp h
      exact ⟨b, (get_mem ha).mpr hm⟩
    · rintro ⟨x, hx⟩
      exact List.mem_map.mpr ⟨_, get_some_mem hx, rfl⟩
  · intro w res
    rw [List.length_map]
    exact C18_map hl hv hmap hk hn sp body w res
  · intro j key hj x hr
    rw [List.getElem?_map] at hj
    obtain ⟨⟨a, b⟩, hx, rfl⟩ := Option.map_eq_some_iff.mp hj
    refine ⟨fun h => C18_key hx h hkl hr st, fun h => ?_⟩
    obtain ⟨c, hc, hlook⟩ := C18_value (env := cfg.env) (owned := isOwned v) hx h hvl hkv (by rw [hr]; exact .inl (fun _ h => by cases h)) st
    refine ⟨c, ?_, ?_⟩
    · rw [hc]; exact (get_mem ha).mpr (List.mem_of_getElem? hx)
    · rw [hlook, hr]
      cases c <;> rfl

/-- **C19** If the globals are ordered and the filters return ordered maps, then so are all values
in all states of a render: in particular every map a loop goes through. -/
theorem C19_reachable {env : Env} {r : Renderer} (h : Healthy env r) {sink : Sink σ} (hg : OrderedGlobals r.globals)
    (hf : OrderedFilters r.engine.functions) {b : SState} (hb : r.base = .ok b) (out : σ) {vm : VM σ}
    (hr : Reachable (r.cfg env sink) (initVM r.template r.name b out) vm) : OrderedVM vm := by
  induction hr with
  | refl =>
    refine ⟨?_, ?_, fun c hc => by cases hc⟩
    · intro fr hfr
      rcases List.mem_cons.mp hfr with rfl | hfr
      · exact h.main.ordered
      · cases hfr
    · intro s hs
      rcases List.mem_cons.mp hs with rfl | hs
      · unfold Renderer.base at hb
        split at hb
        · next res hres =>
          rw [hres] at hg
          obtain ⟨v, hv, hb⟩ := bind_ok.mp hb
          cases hb
          exact hg v hv
        · next v hres => rw [hres] at hg; cases hb; exact hg
        · next f hres => rw [hres] at hg; cases hb; exact hg
      · cases hs
  | step _ hs ih =>
    exact ordered_step hf (fun t ht => (h.all sink t ht).ordered) ih hs

/-- **C19** The value of any expression in a parsed template is ordered if the bindings are. -/
theorem C19_value (hf : OrderedFilters cfg.functions) (hst : OrderedStack st) {ts : List Tok} {e : Expr}
    (he : GExpr cfg.env src ts e) {v : Cow} (hv : valueOf cfg src st e = .ok v) : Ordered v.val := by
  replace he := ordered_gexpr he
  clear ts
  induction e generalizing v with
  | base b =>
    cases b with
    | var x => exact (ordered_lookupVar hst x).of v hv
    | lit l => cases hv; exact he
  | call f args recv sp ih =>
    rw [valueOf] at hv
    obtain ⟨c, hc, hv⟩ := bind_ok.mp hv
    obtain ⟨n, _, hv⟩ := bind_ok.mp hv
    have hc := ih hc he.2
    cases hg : BMap.get cfg.functions n with
    | none => rw [hg] at hv; simp only [fault] at hv; split at hv <;> cases hv
    | some g =>
      rw [hg] at hv
      cases g with
      | formatter _ => simp only [fault] at hv; split at hv <;> cases hv
      | filter g =>
        obtain ⟨r, hr, hv⟩ := bind_ok.mp hv
        cases hv
        exact ordered_call hf hg hst hc he.1 hr

/-- The hypotheses of `C19_reachable` hold for a render of a loop over a map with a filter in it. -/
example (a : AC.Auto) : Healthy asciiEnv (Demo.renderer a 64 Demo.j none (Demo.globals [("m", Demo.globals [("p", .integer 3), ("q", .integer 4)])])) ∧
    OrderedGlobals (Demo.renderer a 64 Demo.j none (Demo.globals [("m", Demo.globals [("p", .integer 3), ("q", .integer 4)])])).globals ∧
    OrderedFilters (Demo.renderer a 64 Demo.j none .none).engine.functions := by
  refine ⟨Demo.healthy a 64 (by simp [Demo.all]) none _, ?_, ?_⟩
  · refine ⟨by simp [Ascending], ⟨⟨?_, by simp [OrderedMap, Ordered]⟩, trivial⟩⟩
    simp only [Ascending, List.map, List.pairwise_cons, List.mem_cons, List.not_mem_nil, or_false]
    refine ⟨fun b hb => ?_, fun b hb => absurd hb id, .nil⟩
    subst hb; exact strLt_iff.mp (by decide)
  · intro n f a as v hf _ _ hc
    have hf : (n, EngFn.filter f) ∈ [("add".toList, EngFn.filter Demo.add)] := get_some_mem hf
    simp only [List.mem_cons, Prod.mk.injEq, List.not_mem_nil, or_false, EngFn.filter.injEq] at hf
    obtain ⟨_, rfl⟩ := hf
    simp only [Demo.add] at hc
    split at hc <;> cases hc
    trivial

/-- The loop in it goes through `p` and `q` in this order, whatever the order of insertion. -/
example : BMap.ofList [("q".toList, Value.integer 4), ("p".toList, .integer 3)] = [("p".toList, .integer 3), ("q".toList, .integer 4)] := by decide

end Upon
