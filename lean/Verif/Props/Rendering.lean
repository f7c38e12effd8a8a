import Verif.Proofs.Piece
import Verif.Proofs.InSource
/-
C15-C18, C20-C22, C30: what rendering does, statement by statement, on any stack.
-/
namespace Upon
open Spec Compiler
variable {σ : Type} {cfg : RenderCfg σ} {k : Nat} {st : Stack} {name : Option Str} {src : Str}

/-- A render starts in such a state. -/
theorem live_initial {env : Env} {r : Renderer} {sink : Sink σ} (h : AllCompiled (r.cfg env sink)) {b : SState}
    (hb : r.base = .ok b) : Live (r.cfg env sink) 0 [b] := by
  refine ⟨h, inRound_cons inRound_nil ?_, Nat.le_max_left _ _⟩
  intro ls e
  subst e
  unfold Renderer.base at hb
  split at hb
  · rename_i res _
    cases res <;> simp at hb
  · simp at hb
  · simp at hb

/-- The meaning used to derive the theorems on pieces. -/
theorem live_piece (hl : Live cfg k st) : ∃ (tree : Template → Tree) (ρ : Scope), Trees cfg tree ∧ Rel st ρ ∧
    (∀ e, valueOf cfg src st e = evalExpr asBuilt cfg src ρ e) ∧
    ∀ ss w res, Piece cfg k name src ss st w res ↔
      res = evalStmts asBuilt cfg (include_ asBuilt cfg tree (max 1 cfg.maxIncludeDepth - 1 - k)) name src ρ ss w := by
  obtain ⟨tree, ht⟩ := trees_exist hl.compiled
  obtain ⟨ρ, hr⟩ := rel_exists hl.rounds
  exact ⟨tree, ρ, trees_of_parsed ht, hr, valueOf_eq cfg src hr,
    piece_iff (trees_of_parsed ht) hr hl.depth name src⟩

/-- **C15** Every piece of a template ends, in one way. -/
theorem C15_piece (hl : Live cfg k st) (ss : List Stmt) (w : World σ) : ∃ res, Piece cfg k name src ss st w res ∧
    ∀ res', Piece cfg k name src ss st w res' → res' = res := by
  obtain ⟨tree, ρ, _, _, _, h⟩ := live_piece (src := src) (name := name) hl
  exact ⟨_, (h ss w _).mpr rfl, fun _ h' => (h ss w _).mp h'⟩

theorem evalStmts_append (q : Quirks) (inc : Include σ) (ρ : Scope) (ss ss' : List Stmt) (w : World σ) :
    evalStmts q cfg inc name src ρ (ss ++ ss') w =
      Spec.seq (evalStmts q cfg inc name src ρ ss w) (evalStmts q cfg inc name src ρ ss') := by
  induction ss generalizing w with
  | nil => rfl
  | cons s ss ih =>
    rw [List.cons_append, evalStmts, evalStmts]
    cases evalStmt q cfg inc name src ρ s w with
    | ok w' => exact ih w'
    | err e w' => rfl
    | crash => rfl

theorem seq_then {f : World σ → RunRes σ} {r : RunRes σ} {res : RunRes σ} :
    res = Spec.seq r f ↔ (∃ w', .ok w' = r ∧ res = f w') ∨ (res = r ∧ Failed res) := by
  cases r with
  | ok w =>
    simp only [Spec.seq]
    constructor
    · rintro rfl; exact Or.inl ⟨w, rfl, rfl⟩
    · rintro (⟨w', h, rfl⟩ | ⟨rfl, h⟩)
      · cases h; rfl
      · exact absurd rfl (h w)
  | err e w =>
    simp only [Spec.seq]
    constructor
    · rintro rfl; exact Or.inr ⟨rfl, fun _ h => by cases h⟩
    · rintro (⟨w', h, rfl⟩ | ⟨rfl, h⟩)
      · cases h
      · rfl
  | crash =>
    simp only [Spec.seq]
    constructor
    · rintro rfl; exact Or.inr ⟨rfl, fun _ h => by cases h⟩
    · rintro (⟨w', h, rfl⟩ | ⟨rfl, h⟩)
      · cases h
      · rfl

/-- **C20** Statements run one after the other, and on the same stack: whatever the first statements
bind is gone, and whatever they shadow is back, when the following ones run. -/
theorem C20_restored (hl : Live cfg k st) (ss ss' : List Stmt) (w : World σ) (res : RunRes σ) :
    Piece cfg k name src (ss ++ ss') st w res ↔
      Then (Piece cfg k name src ss st) (Piece cfg k name src ss' st) w res := by
  obtain ⟨tree, ρ, _, _, _, h⟩ := live_piece (src := src) (name := name) hl
  simp only [Then, h, evalStmts_append, seq_then]

theorem C20_nil (hl : Live cfg k st) (w : World σ) (res : RunRes σ) :
    Piece cfg k name src [] st w res ↔ res = .ok w := by
  obtain ⟨tree, ρ, _, _, _, h⟩ := live_piece (src := src) (name := name) hl
  rw [h]; rfl

theorem evalStmts_one (q : Quirks) (inc : Include σ) (ρ : Scope) (s : Stmt) (w : World σ) :
    evalStmts q cfg inc name src ρ [s] w = evalStmt q cfg inc name src ρ s w := by
  rw [evalStmts]
  cases evalStmt q cfg inc name src ρ s w <;> rfl

/-- **C16** Text between the tags is written as it is. -/
theorem C16_raw (hl : Live cfg k st) {sp : Span} {t : Str} (ht : sp.of src = some t) (w : World σ) (res : RunRes σ) :
    Piece cfg k name src [.raw sp] st w res ↔
      res = (match cfg.sink.write w.out t with
        | (out, true) => .ok { w with out }
        | (out, false) => .err (formatErr.attachName name) { w with out }) := by
  obtain ⟨tree, ρ, _, _, _, h⟩ := live_piece (src := src) (name := name) hl
  rw [h, evalStmts_one, evalStmt, ht]; rfl

theorem truthy_falsy (v : Value) : truthy v = true ↔ ¬ Falsy v := by
  constructor
  · intro h hf
    cases hf <;> simp [truthy] at h
  · intro h
    cases v with
    | none => exact absurd .none h
    | bool b => cases b; exact absurd .false_ h; rfl
    | integer i =>
      by_cases hi : i = 0
      · subst hi; exact absurd .zero h
      · simp [truthy, hi]
    | float f =>
      by_cases h1 : f = 0#64
      · subst h1; exact absurd .fzero h
      · by_cases h2 : f = 1#64 <<< 63
        · subst h2; exact absurd .fnegZero h
        · unfold truthy; exact decide_eq_true ⟨h1, h2⟩
    | string s => cases s; exact absurd .string h; rfl
    | list s => cases s; exact absurd .list h; rfl
    | map s => cases s; exact absurd .map h; rfl

/-- **C17** `if` (or `if not`, when `neg`) runs the then-branch exactly when its condition holds, and
otherwise the else-branch, or nothing if there is none. -/
theorem C17_if (hl : Live cfg k st) {cond : Expr} {v : Cow} (hv : valueOf cfg src st cond = .ok v) (neg : Bool)
    (thn : List Stmt) (els : Option (List Stmt)) (w : World σ) (res : RunRes σ) :
    (((¬ Falsy v.val ∧ neg = false) ∨ (Falsy v.val ∧ neg = true)) →
      (Piece cfg k name src [.ifElse neg cond thn els] st w res ↔ Piece cfg k name src thn st w res)) ∧
    (((Falsy v.val ∧ neg = false) ∨ (¬ Falsy v.val ∧ neg = true)) →
      (Piece cfg k name src [.ifElse neg cond thn els] st w res ↔ Piece cfg k name src (els.getD []) st w res)) := by
  obtain ⟨tree, ρ, _, _, hx, h⟩ := live_piece (src := src) (name := name) hl
  rw [hx] at hv
  simp only [h, evalStmts_one]
  rw [evalStmt.eq_def]
  simp only [hv, andThen, ne_eq]
  have tf := truthy_falsy v.val
  constructor
  · intro hc
    have : truthy v.val ≠ neg := by
      rcases hc with ⟨h1, rfl⟩ | ⟨h1, rfl⟩
      · simp [tf.mpr h1]
      · intro h'; exact (tf.mp h') h1
    rw [if_pos this]
  · intro hc
    have : truthy v.val = neg := by
      rcases hc with ⟨h1, rfl⟩ | ⟨h1, rfl⟩
      · cases hh : truthy v.val
        · rfl
        · exact absurd h1 (tf.mp hh)
      · exact tf.mpr h1
    rw [if_neg (fun hn => hn this)]
    cases els with
    | none => simp [evalStmts]
    | some els => rfl

/-- **C17** If the condition cannot be evaluated neither branch runs. -/
theorem C17_error (hl : Live cfg k st) {cond : Expr} {e : Err} (hv : valueOf cfg src st cond = .err e) (neg : Bool)
    (thn : List Stmt) (els : Option (List Stmt)) (w : World σ) (res : RunRes σ) :
    Piece cfg k name src [.ifElse neg cond thn els] st w res ↔ res = .err (e.attachName name) w := by
  obtain ⟨tree, ρ, _, _, hx, h⟩ := live_piece (src := src) (name := name) hl
  rw [hx] at hv
  simp only [h, evalStmts_one]
  rw [evalStmt.eq_def]
  simp only [hv, andThen]

/-- `if … else if … else if … else … endif`: conditions with the bodies they guard. -/
def Spec.elseIfs : List (Bool × Expr × List Stmt) → Option (List Stmt) → Option (List Stmt)
  | [], last => last
  | (neg, cond, body) :: rest, last => some [.ifElse neg cond body (elseIfs rest last)]

/-- **C17** A chain of conditions runs the body of the first that holds; the conditions before it do
not hold, those after it are not looked at. If none holds the last `else` runs. -/
theorem C17_chain (hl : Live cfg k st) (holds : Bool × Expr × List Stmt → Prop)
    (hh : ∀ c, holds c ↔ ∃ v, valueOf cfg src st c.2.1 = .ok v ∧ ((¬ Falsy v.val ∧ c.1 = false) ∨ (Falsy v.val ∧ c.1 = true)))
    (before : List (Bool × Expr × List Stmt))
    (hb : ∀ c ∈ before, (∃ v, valueOf cfg src st c.2.1 = .ok v) ∧ ¬ holds c) (last : Option (List Stmt)) (w : World σ)
    (res : RunRes σ) :
    (∀ c after, holds c →
      (Piece cfg k name src ((elseIfs (before ++ c :: after) last).getD []) st w res ↔ Piece cfg k name src c.2.2 st w res)) ∧
    (Piece cfg k name src ((elseIfs before last).getD []) st w res ↔ Piece cfg k name src (last.getD []) st w res) := by
  induction before with
  | nil =>
    refine ⟨fun c after hc => ?_, Iff.rfl⟩
    obtain ⟨v, hv, hd⟩ := (hh c).mp hc
    exact (C17_if hl hv _ _ _ w res).1 hd
  | cons b before ih =>
    have ih := ih (fun c hc => hb c (List.mem_cons_of_mem _ hc))
    obtain ⟨⟨v, hv⟩, hn⟩ := hb b List.mem_cons_self
    have hd : (Falsy v.val ∧ b.1 = false) ∨ (¬ Falsy v.val ∧ b.1 = true) := by
      by_cases hf : Falsy v.val
      · cases hb1 : b.1
        · exact Or.inl ⟨hf, rfl⟩
        · exact absurd ((hh b).mpr ⟨v, hv, Or.inr ⟨hf, hb1⟩⟩) hn
      · cases hb1 : b.1
        · exact absurd ((hh b).mpr ⟨v, hv, Or.inl ⟨hf, hb1⟩⟩) hn
        · exact Or.inr ⟨hf, rfl⟩
    exact ⟨fun c after hc => ((C17_if hl hv _ _ _ w res).2 hd).trans (ih.1 c after hc),
      ((C17_if hl hv _ _ _ w res).2 hd).trans ih.2⟩

/-- **C20** `with e as n` runs its body with one more binding: `n`, standing for the value of `e`. -/
theorem C20_with (hl : Live cfg k st) {e : Expr} {v : Cow} (hv : valueOf cfg src st e = .ok v) (n : Ident)
    (body : List Stmt) (w : World σ) (res : RunRes σ) :
    Piece cfg k name src [.with_ e n body] st w res ↔ Piece cfg k name src body (.var n v :: st) w res := by
  obtain ⟨tree, ht⟩ := trees_exist hl.compiled
  have ht := trees_of_parsed ht
  obtain ⟨ρ, hr⟩ := rel_exists hl.rounds
  rw [valueOf_eq cfg src hr] at hv
  rw [piece_iff ht hr hl.depth, piece_iff ht (Rel.var n v hr) hl.depth, evalStmts_one, evalStmt.eq_def]
  simp only [hv, andThen]; rfl

theorem C20_with_error (hl : Live cfg k st) {e : Expr} {err : Err} (hv : valueOf cfg src st e = .err err) (n : Ident)
    (body : List Stmt) (w : World σ) (res : RunRes σ) :
    Piece cfg k name src [.with_ e n body] st w res ↔ res = .err (err.attachName name) w := by
  obtain ⟨tree, ρ, _, _, hx, h⟩ := live_piece (src := src) (name := name) hl
  rw [hx] at hv
  simp only [h, evalStmts_one]
  rw [evalStmt.eq_def]
  simp only [hv, andThen]

/-- The stack stays in order when a `with` or a round of a loop begins. -/
theorem Spec.Live.var (hl : Live cfg k st) (n : Ident) (v : Cow) : Live cfg k (.var n v :: st) :=
  ⟨hl.compiled, inRound_cons hl.rounds (fun _ h => by cases h), hl.depth⟩

theorem Spec.Live.round (hl : Live cfg k st) {ls : LoopState} (h : ls.indexAndRem ≠ none) :
    Live cfg k (.loop ls :: st) :=
  ⟨hl.compiled, inRound_cons hl.rounds (fun _ e => by cases e; exact h), hl.depth⟩

/-! Loops -/

/-- The state of round `i` of a loop over a list. -/
def Spec.listRound (n : Str) (owned : Bool) (l : List Value) (i : Nat) : LoopState :=
  .list owned n (i + 1) (l.drop (i + 1)) ((l[i]?).map fun x => (i, x))

/-- The state of round `i` of a loop over a map. -/
def Spec.mapRound (kn vn : Str) (owned : Bool) (m : List (Str × Value)) (i : Nat) : LoopState :=
  .map owned kn vn (i + 1) (m.drop (i + 1)) ((m[i]?).map fun x => (i, x))

theorem forEach_inTurn {α : Type} {f : α → World σ → RunRes σ} {round : Nat → World σ → RunRes σ → Prop} (l : List α)
    (i : Nat) (hf : ∀ j a, l[j]? = some a → ∀ w res, round (i + j) w res ↔ res = f a w) (w : World σ) (res : RunRes σ) :
    InTurn round (i + l.length) i w res ↔ res = forEach f l w := by
  induction l generalizing i w with
  | nil =>
    constructor
    · intro h
      cases h with
      | done => rfl
      | next h => simp at h
      | stop h => simp at h
    · rintro rfl; exact InTurn.done
  | cons a l ih =>
    have hf0 : ∀ w res, round i w res ↔ res = f a w := hf 0 a rfl
    have e : i + (a :: l).length = i + 1 + l.length := by simp; omega
    have ih := fun w => ih (i + 1) (fun j b hj => by
      have := hf (j + 1) b (by simpa using hj)
      rwa [show i + (j + 1) = i + 1 + j by omega] at this) w
    rw [forEach, e, seq_then]
    constructor
    · intro h
      generalize hn : i + 1 + l.length = n at h ih
      cases h with
      | done => omega
      | next _ h1 h2 => exact Or.inl ⟨_, (hf0 _ _).mp h1, (ih _).mp h2⟩
      | stop _ h1 h2 => exact Or.inr ⟨(hf0 _ _).mp h1, h2⟩
    · rintro (⟨w', h1, h2⟩ | ⟨h1, h2⟩)
      · exact .next (by omega) ((hf0 _ _).mpr h1) ((ih _).mpr h2)
      · exact .stop (by omega) ((hf0 _ _).mpr h1) h2

theorem listRounds_get (n : Str) (o : Bool) (l : List Value) (i j : Nat) :
    (listRounds n o i l)[j]? = (l[j]?).map fun x => .item n (mkCow o x) (i + j) (l.length - (j + 1)) := by
  induction l generalizing i j with
  | nil => rfl
  | cons x xs ih =>
    cases j with
    | zero => simp [listRounds, mkCow]
    | succ j =>
      rw [listRounds, List.getElem?_cons_succ, List.getElem?_cons_succ, ih]
      congr 1; funext x
      rw [show i + 1 + j = i + (j + 1) by omega, List.length_cons, Nat.add_sub_add_right]

theorem listRounds_length (n : Str) (o : Bool) (l : List Value) (i : Nat) : (listRounds n o i l).length = l.length := by
  induction l generalizing i with
  | nil => rfl
  | cons x xs ih => simp [listRounds, ih]

theorem mapRounds_get (kn vn : Str) (o : Bool) (l : List (Str × Value)) (i j : Nat) :
    (mapRounds kn vn o i l)[j]? = (l[j]?).map fun x => .entry kn vn x.1 (mkCow o x.2) (i + j) (l.length - (j + 1)) := by
  induction l generalizing i j with
  | nil => rfl
  | cons x xs ih =>
    cases j with
    | zero => simp [mapRounds, mkCow]
    | succ j =>
      rw [mapRounds, List.getElem?_cons_succ, List.getElem?_cons_succ, ih]
      congr 1; funext x
      rw [show i + 1 + j = i + (j + 1) by omega, List.length_cons, Nat.add_sub_add_right]

theorem mapRounds_length (kn vn : Str) (o : Bool) (l : List (Str × Value)) (i : Nat) :
    (mapRounds kn vn o i l).length = l.length := by
  induction l generalizing i with
  | nil => rfl
  | cons x xs ih => simp [mapRounds, ih]

/-- **C18** A loop over a list runs its body once for each item, in order; round `i` has the item at
position `i`. It stops at the first round that fails. Afterwards the loop variable is gone. -/
theorem C18_list (hl : Live cfg k st) {e : Expr} {v : Cow} (hv : valueOf cfg src st e = .ok v) {l : List Value}
    (hlist : v.val = .list l) {i : Ident} {n : Str} (hn : i.span.of src = some n) (body : List Stmt) (w : World σ)
    (res : RunRes σ) :
    Piece cfg k name src [.forLoop (.item i) e body] st w res ↔
      InTurn (fun j => Piece cfg k name src body (.loop (listRound n (isOwned v) l j) :: st)) l.length 0 w res := by
  obtain ⟨tree, ht⟩ := trees_exist hl.compiled
  have ht := trees_of_parsed ht
  obtain ⟨ρ, hr⟩ := rel_exists hl.rounds
  rw [valueOf_eq cfg src hr] at hv
  rw [piece_iff ht hr hl.depth, evalStmts_one, evalStmt.eq_def]
  simp only [hv, andThen, rounds, hlist, hn, Res.ofOption, Res.ok_bind]
  have := forEach_inTurn (f := fun b => evalStmts asBuilt cfg (include_ asBuilt cfg tree (max 1 cfg.maxIncludeDepth - 1 - k))
      name src (b :: ρ) body) (round := fun j => Piece cfg k name src body (.loop (listRound n (isOwned v) l j) :: st))
    (listRounds n (isOwned v) 0 l) 0 ?_ w res
  · rw [listRounds_length, Nat.zero_add] at this
    exact this.symm
  · intro j b hj w res
    rw [listRounds_get] at hj
    obtain ⟨x, hx, rfl⟩ := Option.map_eq_some_iff.mp hj
    have h2 := piece_iff ht (Rel.list (isOwned v) n (j + 1) (l.drop (j + 1)) j x hr) hl.depth name src body w res
    rw [List.length_drop] at h2
    rw [Nat.zero_add, listRound, hx]
    exact h2

/-- **C18** The same for maps, with two variables; the rounds follow the order of the map. -/
theorem C18_map (hl : Live cfg k st) {e : Expr} {v : Cow} (hv : valueOf cfg src st e = .ok v) {m : List (Str × Value)}
    (hmap : v.val = .map m) {ki vi : Ident} {kn vn : Str} (hk : ki.span.of src = some kn) (hn : vi.span.of src = some vn)
    (sp : Span) (body : List Stmt) (w : World σ) (res : RunRes σ) :
    Piece cfg k name src [.forLoop (.keyValue ki vi sp) e body] st w res ↔
      InTurn (fun j => Piece cfg k name src body (.loop (mapRound kn vn (isOwned v) m j) :: st)) m.length 0 w res := by
  obtain ⟨tree, ht⟩ := trees_exist hl.compiled
  have ht := trees_of_parsed ht
  obtain ⟨ρ, hr⟩ := rel_exists hl.rounds
  rw [valueOf_eq cfg src hr] at hv
  rw [piece_iff ht hr hl.depth, evalStmts_one, evalStmt.eq_def]
  simp only [hv, andThen, rounds, hmap, hn, hk, Res.ofOption, Res.ok_bind]
  have := forEach_inTurn (f := fun b => evalStmts asBuilt cfg (include_ asBuilt cfg tree (max 1 cfg.maxIncludeDepth - 1 - k))
      name src (b :: ρ) body) (round := fun j => Piece cfg k name src body (.loop (mapRound kn vn (isOwned v) m j) :: st))
    (mapRounds kn vn (isOwned v) 0 m) 0 ?_ w res
  · rw [mapRounds_length, Nat.zero_add] at this
    exact this.symm
  · intro j b hj w res
    rw [mapRounds_get] at hj
    obtain ⟨x, hx, rfl⟩ := Option.map_eq_some_iff.mp hj
    have h2 := piece_iff ht (Rel.map (isOwned v) kn vn (j + 1) (m.drop (j + 1)) j x.1 x.2 hr) hl.depth name src body w res
    rw [List.length_drop] at h2
    rw [Nat.zero_add, mapRound, hx]
    exact h2

theorem errRender_in {α : Type} (env : Env) (m : String) {src : Str} {sp : Span} (hne : src ≠ []) (h : SpanIn src sp) :
    ∃ e, (errRender env m src sp : Res α) = .err e ∧ e.kind = .render ∧ e.reason = some m := by
  obtain ⟨t, ht⟩ := h
  obtain ⟨p, hp⟩ := pretty_isSome env hne ht
  exact ⟨⟨.render, none, some m, some p⟩, by simp only [errRender, throwAt, hp], rfl, rfl⟩

/-- What is wrong with looping over a value with the given variables. -/
def Spec.loopError : Value → LoopVars → Option String
  | .list _, .item _ => none
  | .map _, .keyValue _ _ _ => none
  | .list _, .keyValue _ _ _ => some "cannot unpack list item into two variables"
  | .map _, .item _ => some "cannot unpack map item into one variable"
  | v, _ => some s!"expected iterable, but expression evaluated to {typeName v}"

/-- **C18** Looping over something that is neither a list nor a map is an error, and the body does not
run; so is looping over a list with two variables or over a map with one. -/
theorem C18_error (hl : Live cfg k st) {e : Expr} {v : Cow} (hv : valueOf cfg src st e = .ok v) {vars : LoopVars}
    {msg : String} (hbad : loopError v.val vars = some msg) (body : List Stmt) (hne : src ≠ [])
    (hin : StmtIn src (.forLoop vars e body)) (w : World σ) (res : RunRes σ)
    (hp : Piece cfg k name src [.forLoop vars e body] st w res) :
    ∃ err, res = .err err w ∧ err.kind = .render ∧ err.reason = some msg := by
  obtain ⟨tree, ρ, _, _, hx, h⟩ := live_piece (src := src) (name := name) hl
  rw [hx] at hv
  rw [h, evalStmts_one, evalStmt.eq_def] at hp
  simp only [hv, andThen] at hp
  have hes := expr_span_in hin.2.1
  have hvi := hin.1
  have bad : ∀ (m : String) (sp : Span), rounds cfg.env src vars v e.span = errRender cfg.env m src sp → SpanIn src sp →
      ∃ err, res = .err err w ∧ err.kind = .render ∧ err.reason = some m := by
    intro m sp hr hsp
    obtain ⟨err, he, hk, hm⟩ := errRender_in (α := List Binding) cfg.env m hne hsp
    rw [hr, he] at hp
    refine ⟨_, hp, ?_⟩
    cases name <;> exact ⟨hk, hm⟩
  revert bad hbad
  rw [rounds.eq_def]
  generalize v.val = vv
  intro hbad bad
  cases vv with
  | list l => cases vars with
    | item i => cases hbad
    | keyValue a b sp => cases hbad; exact bad _ _ rfl hvi.2.2
  | map l => cases vars with
    | item i => cases hbad; exact bad _ _ rfl hvi
    | keyValue a b sp => cases hbad
  | none => cases vars <;> cases hbad <;> exact bad _ _ rfl hes
  | bool => cases vars <;> cases hbad <;> exact bad _ _ rfl hes
  | integer => cases vars <;> cases hbad <;> exact bad _ _ rfl hes
  | float => cases vars <;> cases hbad <;> exact bad _ _ rfl hes
  | string => cases vars <;> cases hbad <;> exact bad _ _ rfl hes

end Upon
