import Verif.Proofs.Chains
import Mathlib.Data.List.Duplicate
import Mathlib.Data.List.Nodup
/-
C73: the include limit can be judged from the include tags.
-/
namespace Upon
open Spec

namespace Chains
variable {σ : Type} {cfg : RenderCfg σ} {tree : Template → Tree}

theorem exact_length (htr : ∀ t, Includable cfg t → Parsed cfg.env t (tree t)) {T : Tree} {t : Template} (hp : Parsed cfg.env t T) {name : Option Str} {b : SState} {out : σ}
    {w : World σ} (h : Halts cfg (initVM t name b out) (.err (depthErr cfg.maxIncludeDepth) w)) :
    ∃ ns U, ChainTo cfg tree T ns U ∧ ns.length = max 1 cfg.maxIncludeDepth := by
  have hx := (C23_exact (vm := initVM t name b out) (Nat.le_max_left _ _)).mp ⟨w, h⟩
  obtain ⟨ns, U, hl, hd, hne⟩ := exceed_leads htr (T := T) ⟨[], T, .root hp⟩ hx
  have h1 : 1 ≤ ns.length := List.length_pos_iff.mpr hne
  obtain ⟨V, hv⟩ := leads_take hl (max 1 cfg.maxIncludeDepth) (by omega)
  exact ⟨_, V, hv, by rw [List.length_take]; omega⟩

theorem height {T U : Tree} {ns : List Str} {rank : Tree → Nat}
    (hr : ∀ U n t, (∃ ns, ChainTo cfg tree T ns U) → HasInclude U n → MayFind cfg n t → rank (tree t) < rank U) (h : ChainTo cfg tree T ns U) :
    ns.length + rank U ≤ rank T := by
  induction h with
  | here => simp
  | on h h1 h2 ih =>
    have := hr _ _ _ ⟨_, h⟩ h1 h2
    simp only [List.length_append, List.length_singleton]
    omega

/-- Every name of a chain is the name of a registered template. -/
theorem names_registered (hf : cfg.templateFn = none) {T U : Tree} {ns : List Str} (h : ChainTo cfg tree T ns U) :
    ∀ n ∈ ns, n ∈ cfg.templates.map Prod.fst := by
  induction h with
  | here => simp
  | @on ns U n t _ _ h2 ih =>
    intro m hm
    rcases List.mem_append.mp hm with hm | hm
    · exact ih m hm
    · obtain rfl := List.mem_singleton.mp hm
      unfold MayFind at h2
      rw [hf] at h2
      exact List.mem_map.mpr ⟨_, get_some_mem h2, rfl⟩

/-- The part of a chain from the template of a name on. -/
theorem split_at (hf : cfg.templateFn = none) {T U : Tree} {as bs : List Str} {n : Str} (h : ChainTo cfg tree T (as ++ n :: bs) U) :
    ∃ t, BMap.get cfg.templates n = some t ∧ ChainTo cfg tree (tree t) bs U := by
  generalize e : as ++ n :: bs = ns at h
  induction h generalizing bs with
  | here => simp at e
  | @on ns V m t h h1 h2 ih =>
    rcases List.eq_nil_or_concat bs with rfl | ⟨cs, c, rfl⟩
    · obtain ⟨_, e2⟩ := List.append_inj' e rfl
      cases e2
      unfold MayFind at h2
      rw [hf] at h2
      exact ⟨t, h2, .here⟩
    · rw [List.concat_eq_append, ← List.cons_append, ← List.append_assoc] at e
      obtain ⟨e1, e2⟩ := List.append_inj' e rfl
      cases e2
      obtain ⟨t', ht, hc⟩ := ih e1
      exact ⟨t', ht, by rw [List.concat_eq_append]; exact .on hc h1 h2⟩

theorem start {T U : Tree} {as bs : List Str} (h : ChainTo cfg tree T (as ++ bs) U) : ∃ V, ChainTo cfg tree T as V := by
  obtain ⟨V, hv⟩ := leads_take h as.length (by simp)
  exact ⟨V, by simpa using hv⟩

theorem nil_eq {T U : Tree} {ns : List Str} (h : ChainTo cfg tree T ns U) (hn : ns = []) : U = T := by
  cases h with
  | here => rfl
  | on => simp at hn

/-- A chain longer than there are templates goes round in a circle. -/
theorem circle (hf : cfg.templateFn = none) {T U : Tree} {ns : List Str} (h : ChainTo cfg tree T ns U) (hl : cfg.templates.length < ns.length) :
    ∃ n t ms V, BMap.get cfg.templates n = some t ∧ ChainTo cfg tree (tree t) (ms ++ [n]) V ∧ V = tree t := by
  have hd : ¬ ns.Nodup := by
    intro hn
    have := (List.subperm_of_subset hn (fun n hm => names_registered hf h n hm)).length_le
    rw [List.length_map] at this
    omega
  obtain ⟨n, hn⟩ := List.exists_duplicate_iff_not_nodup.mpr hd
  obtain ⟨as, bs, e, hb⟩ : ∃ as bs, ns = as ++ n :: bs ∧ n ∈ bs := by
    clear h hl hd
    induction hn with
    | cons_mem hm => exact ⟨[], _, rfl, hm⟩
    | cons_duplicate _ ih => obtain ⟨as, bs, rfl, hb⟩ := ih; exact ⟨_ :: as, bs, rfl, hb⟩
  obtain ⟨ms, cs, rfl⟩ := List.append_of_mem hb
  rw [e] at h
  obtain ⟨t, ht, hc⟩ := split_at hf h
  rw [show ms ++ n :: cs = (ms ++ [n]) ++ cs by simp] at hc
  obtain ⟨V, hv⟩ := start hc
  obtain ⟨t', ht', hh⟩ := split_at hf (bs := []) hv
  rw [ht] at ht'
  cases ht'
  exact ⟨n, t, ms, V, ht, hv, nil_eq hh rfl⟩

end Chains

section
variable {env : Env} {tree : Template → Tree} {T : Tree} {r : Renderer}

/-- **C73** The error that the limit of includes is reached is returned only if there are as many include tags as the limit allows, each in the
template the one before includes. -/
theorem C73_chain (htr : ∀ t, Includable (r.cfg env stringSink) t → Parsed env t (tree t)) (hp : Parsed env r.template T) {b : SState} (hb : r.base = .ok b)
    (h : r.ToString env (.err (depthErr (r.cfg env stringSink).maxIncludeDepth))) :
    ∃ ns U, ChainTo (r.cfg env stringSink) tree T ns U ∧ ns.length = max 1 (r.cfg env stringSink).maxIncludeDepth := by
  generalize hr : (Res.err (depthErr (r.cfg env stringSink).maxIncludeDepth) : Res Str) = x at h
  cases h with
  | globalsErr e h => rw [hb] at h; cases h
  | globalsCrash h => cases hr
  | ok b' w h1 h2 => cases hr
  | err b' e w h1 h2 => cases hr; exact Chains.exact_length htr hp h2
  | crash b' h1 h2 => cases hr

/-- **C73** The same on a writer, whatever it does. -/
theorem C73_chain_writer {ω : Type} {io : IoWriter ω} (htr : ∀ t, Includable (r.cfg env stringSink) t → Parsed env t (tree t)) (hp : Parsed env r.template T)
    {b : SState} (hb : r.base = .ok b) {w₀ w : ω} (h : r.ToWriter env io w₀ (.err (depthErr (r.cfg env stringSink).maxIncludeDepth)) w) :
    ∃ ns U, ChainTo (r.cfg env stringSink) tree T ns U ∧ ns.length = max 1 (r.cfg env stringSink).maxIncludeDepth := by
  have hc : ∀ {ns U}, ChainTo (r.cfg env (writerSink io)) tree T ns U → ChainTo (r.cfg env stringSink) tree T ns U := by
    intro ns U h
    induction h with
    | here => exact .here
    | on _ h1 h2 ih => exact .on ih h1 h2
  generalize hr : (Res.err (depthErr (r.cfg env stringSink).maxIncludeDepth) : Res Unit) = x at h
  cases h with
  | globalsErr e h => rw [hb] at h; cases h
  | globalsCrash h => cases hr
  | ok b' w h1 h2 => cases hr
  | err b' e w h1 h2 =>
    cases ho : w.out.2 with
    | none =>
      rw [ho] at hr
      cases hr
      obtain ⟨ns, U, h3, h4⟩ := Chains.exact_length (cfg := r.cfg env (writerSink io)) htr hp h2
      exact ⟨ns, U, hc h3, h4⟩
    | some x =>
      rw [ho] at hr
      cases hr
  | crash b' w h1 h2 => cases hr

/-- **C73** If the templates have heights, every included one less than the one that includes it, and the limit is above the height of the template,
the limit is never reached. -/
theorem C73_height (htr : ∀ t, Includable (r.cfg env stringSink) t → Parsed env t (tree t)) (hp : Parsed env r.template T) {b : SState} (hb : r.base = .ok b)
    (rank : Tree → Nat) (hr : ∀ U n t, (∃ ns, ChainTo (r.cfg env stringSink) tree T ns U) → HasInclude U n → MayFind (r.cfg env stringSink) n t →
      rank (tree t) < rank U) (hd : rank T < max 1 (r.cfg env stringSink).maxIncludeDepth) :
    ¬ r.ToString env (.err (depthErr (r.cfg env stringSink).maxIncludeDepth)) := by
  intro h
  obtain ⟨ns, U, h1, h2⟩ := C73_chain htr hp hb h
  have := Chains.height hr h1
  omega

/-- **C73** If the limit is above the number of registered templates, it is reached only if templates include each other in a circle. -/
theorem C73_circle (htr : ∀ t, Includable (r.cfg env stringSink) t → Parsed env t (tree t)) (hp : Parsed env r.template T) {b : SState} (hb : r.base = .ok b)
    (hf : r.templateFn = none) (hd : r.engine.templates.length < (r.cfg env stringSink).maxIncludeDepth)
    (h : r.ToString env (.err (depthErr (r.cfg env stringSink).maxIncludeDepth))) :
    ∃ n t ns, r.engine.getTemplate n = some t ∧ ns ≠ [] ∧ ChainTo (r.cfg env stringSink) tree (tree t) ns (tree t) := by
  obtain ⟨ns, U, h1, h2⟩ := C73_chain htr hp hb h
  obtain ⟨n, t, ms, V, h3, h4, rfl⟩ := Chains.circle (cfg := r.cfg env stringSink) hf h1 (by show r.engine.templates.length < _; omega)
  exact ⟨n, t, ms ++ [n], h3, by simp, h4⟩

end
end Upon
