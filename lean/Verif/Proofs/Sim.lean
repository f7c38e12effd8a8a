import Verif.Proofs.Code
import Verif.Spec.Semantics
/-
The machine follows the meaning of the syntax tree (with the quirks of the code).
-/
namespace Upon
open Spec
variable {σ : Type}

/-! Running -/

theorem run_mono {cfg : RenderCfg σ} : ∀ {n : Nat} {vm : VM σ} {r : RunRes σ} (k : Nat),
    run cfg n vm = some r → run cfg (n + k) vm = some r := by
  intro n
  induction n with
  | zero => intro vm r k h; simp [run] at h
  | succ n ih =>
    intro vm r k h
    rw [Nat.add_right_comm, run]
    rw [run] at h
    split at h
    · exact h
    · exact ih k h

theorem Halts.unique {cfg : RenderCfg σ} {vm : VM σ} {r r' : RunRes σ} (h : Halts cfg vm r) (h' : Halts cfg vm r') :
    r = r' := by
  obtain ⟨n, h⟩ := h
  obtain ⟨m, h'⟩ := h'
  have a := run_mono m h
  have b := run_mono n h'
  rw [Nat.add_comm] at b
  exact Option.some.inj (a.symm.trans b)

/-- The first state leads to the second. -/
def Steps (cfg : RenderCfg σ) (vm vm' : VM σ) : Prop := ∃ n, ∀ fuel, run cfg (fuel + n) vm = run cfg fuel vm'

theorem Steps.refl (cfg : RenderCfg σ) (vm : VM σ) : Steps cfg vm vm := ⟨0, fun _ => rfl⟩

theorem Steps.trans {cfg : RenderCfg σ} {a b c : VM σ} (h : Steps cfg a b) (h' : Steps cfg b c) : Steps cfg a c := by
  obtain ⟨n, h⟩ := h
  obtain ⟨m, h'⟩ := h'
  exact ⟨m + n, fun fuel => by rw [← Nat.add_assoc, h, h']⟩

theorem Steps.halts {cfg : RenderCfg σ} {a b : VM σ} {r : RunRes σ} (h : Steps cfg a b) (h' : Halts cfg b r) :
    Halts cfg a r := by
  obtain ⟨n, h⟩ := h
  obtain ⟨m, h'⟩ := h'
  exact ⟨m + n, by rw [h, h']⟩

theorem Steps.one {cfg : RenderCfg σ} {a b : VM σ} (h : step cfg a = .next b) : Steps cfg a b :=
  ⟨1, fun fuel => by rw [run, h]⟩

theorem Halts.one {cfg : RenderCfg σ} {a : VM σ} {r : RunRes σ} (h : step cfg a = .halt r) : Halts cfg a r :=
  ⟨1, by rw [run, h]⟩

/-! Code at a place -/

/-- The code stands at this place of the template. -/
def At (t : Template) (pc : Nat) (code : List Instr) : Prop :=
  ∃ pre post, t.instrs = pre ++ (code ++ post) ∧ pre.length = pc

theorem At.head {t : Template} {pc : Nat} {i : Instr} {is : List Instr} (h : At t pc (i :: is)) :
    t.instrs[pc]? = some i := by
  obtain ⟨pre, post, h, rfl⟩ := h
  simp [h]

theorem At.left {t : Template} {pc : Nat} {a b : List Instr} (h : At t pc (a ++ b)) : At t pc a := by
  obtain ⟨pre, post, h, rfl⟩ := h
  exact ⟨pre, b ++ post, by rw [h, List.append_assoc], rfl⟩

theorem At.right {t : Template} {pc : Nat} {a b : List Instr} (h : At t pc (a ++ b)) : At t (pc + a.length) b := by
  obtain ⟨pre, post, h, rfl⟩ := h
  exact ⟨pre ++ a, post, by rw [h]; simp, by simp⟩

theorem At.tail {t : Template} {pc : Nat} {i : Instr} {b : List Instr} (h : At t pc (i :: b)) : At t (pc + 1) b :=
  At.right (a := [i]) h

/-! What a computation of the meaning says about the machine -/

/-- The machine in state `vm` does what `r` says: goes on at `k`, or stops with the error. -/
def Does {α : Type} (cfg : RenderCfg σ) (name : Option Str) (w : World σ) (vm : VM σ) (r : Res α) (k : α → VM σ) : Prop :=
  match r with
  | .ok a => Steps cfg vm (k a)
  | .err e => Halts cfg vm (.err (e.attachName name) w)
  | .crash => Halts cfg vm .crash

/-- The same for the meaning of a statement. -/
def DoesR (cfg : RenderCfg σ) (vm : VM σ) (r : RunRes σ) (k : World σ → VM σ) : Prop :=
  match r with
  | .ok w => Steps cfg vm (k w)
  | .err e w => Halts cfg vm (.err e w)
  | .crash => Halts cfg vm .crash

theorem DoesR.steps {cfg : RenderCfg σ} {vm vm' : VM σ} {r : RunRes σ} {k : World σ → VM σ} (s : Steps cfg vm vm')
    (h : DoesR cfg vm' r k) : DoesR cfg vm r k := by
  cases r with
  | ok w => exact s.trans h
  | err e w => exact s.halts h
  | crash => exact s.halts h

theorem DoesR.seq {cfg : RenderCfg σ} {vm : VM σ} {r : RunRes σ} {k : World σ → VM σ} (h : DoesR cfg vm r k)
    {f : World σ → RunRes σ} {k' : World σ → VM σ} (h' : ∀ w, DoesR cfg (k w) (f w) k') :
    DoesR cfg vm (Spec.seq r f) k' := by
  cases r with
  | ok w => exact DoesR.steps h (h' w)
  | err e w => exact h
  | crash => exact h

theorem Does.andThen {α : Type} {cfg : RenderCfg σ} {name : Option Str} {w : World σ} {vm : VM σ} {r : Res α}
    {k : α → VM σ} (h : Does cfg name w vm r k) {f : α → RunRes σ} {k' : World σ → VM σ}
    (h' : ∀ a, DoesR cfg (k a) (f a) k') : DoesR cfg vm (Spec.andThen name w r f) k' := by
  cases r with
  | ok w => exact DoesR.steps h (h' w)
  | err e => exact h
  | crash => exact h

theorem Does.bind {α β : Type} {cfg : RenderCfg σ} {name : Option Str} {w : World σ} {vm : VM σ} {r : Res α}
    {k : α → VM σ} (h : Does cfg name w vm r k) {f : α → Res β} {k' : β → VM σ}
    (h' : ∀ a, Does cfg name w (k a) (f a) k') : Does cfg name w vm (r >>= f) k' := by
  cases r with
  | ok a =>
    show Does cfg name w vm (f a) k'
    have h' := h' a
    have h : Steps cfg vm (k a) := h
    revert h'
    cases f a with
    | ok w => exact fun h' => h.trans h'
    | err e => exact fun h' => h.halts h'
    | crash => exact fun h' => h.halts h'
  | err e => exact h
  | crash => exact h

/-! One instruction -/

section
variable {cfg : RenderCfg σ} {t : Template} {name : Option Str} {hs : Bool} {fs : List Frame} {st : Stack}
  {ex : Option Cow} {w : World σ} {pc : Nat} {i : Instr}

/-- The state of the machine while running a template. -/
abbrev mach (t : Template) (name : Option Str) (hs : Bool) (fs : List Frame) (pc : Nat) (st : Stack)
    (ex : Option Cow) (w : World σ) : VM σ := ⟨⟨t, name, pc, hs⟩ :: fs, st, ex, w⟩

theorem step_next (hi : t.instrs[pc]? = some i) {pc' st' ex' w'}
    (h : execInstr cfg t.source pc st ex w i = .next pc' st' ex' w') :
    Steps cfg (mach t name hs fs pc st ex w) (mach t name hs fs pc' st' ex' w') := by
  apply Steps.one
  simp [step, mach, hi, h]

theorem step_err (hi : t.instrs[pc]? = some i) {e w'}
    (h : execInstr cfg t.source pc st ex w i = .err e w') :
    Halts cfg (mach t name hs fs pc st ex w) (.err (e.attachName name) w') := by
  apply Halts.one
  simp [step, mach, hi, h]

theorem step_crash (hi : t.instrs[pc]? = some i) (h : execInstr cfg t.source pc st ex w i = .crash) :
    Halts cfg (mach t name hs fs pc st ex w) .crash := by
  apply Halts.one
  simp [step, mach, hi, h]

/-- An instruction that computes something and goes on. -/
theorem step_does {α : Type} (hi : t.instrs[pc]? = some i) {r : Res α} {pc' : Nat} {st' : α → Stack}
    {ex' : α → Option Cow}
    (h : execInstr cfg t.source pc st ex w i = OneStep.ofRes w r (fun a => .next pc' (st' a) (ex' a) w)) :
    Does cfg name w (mach t name hs fs pc st ex w) r (fun a => mach t name hs fs pc' (st' a) (ex' a) w) := by
  cases r with
  | ok a => exact step_next hi h
  | err e => exact step_err hi h
  | crash => exact step_crash hi h
end

/-! Variables -/

/-- A stack of the machine and the scope it stands for. -/
inductive Rel : Stack → Scope → Prop
  | nil : Rel [] []
  | valueFn (f) {st ρ} : Rel st ρ → Rel (.valueFn f :: st) (.provider f :: ρ)
  | scope (c) {st ρ} : Rel st ρ → Rel (.scope c :: st) (.globals c :: ρ)
  | var (n : Ident) (c) {st ρ} : Rel st ρ → Rel (.var n c :: st) (.name (fun src => n.span.of src) c :: ρ)
  | list (o i n rem k x) {st ρ} : Rel st ρ →
      Rel (.loop (.list o i n rem (some (k, x))) :: st) (.item i (mkCow o x) k rem.length :: ρ)
  | map (o kn vn n rem k s x) {st ρ} : Rel st ρ →
      Rel (.loop (.map o kn vn n rem (some (k, (s, x)))) :: st) (.entry kn vn s (mkCow o x) k rem.length :: ρ)
  | boundary {st ρ} : Rel st ρ → Rel (.boundary :: st) (.wall :: ρ)

theorem walk_follow (env : Env) (src : Str) (ms : List Member) :
    ∀ v, walk env src v ms = follow env src v ms := by
  induction ms with
  | nil => intro v; rfl
  | cons m ms ih =>
    intro v
    rw [walk, follow]
    cases lookup env src v m with
    | ok o => cases o with
      | none => rfl
      | some v' => exact ih v'
    | err e => rfl
    | crash => rfl

theorem walkMaybe_follow (env : Env) (src : Str) (ms : List Member) :
    ∀ i v, walkMaybe env src (i + 1) v ms = (follow env src v ms >>= fun o => Res.ok (some o)) := by
  induction ms with
  | nil => intro i v; rfl
  | cons m ms ih =>
    intro i v
    rw [walkMaybe, follow]
    cases lookup env src v m with
    | ok o => cases o with
      | none => rfl
      | some v' => exact ih _ v'
    | err e => rfl
    | crash => rfl

theorem lookupPath_eq (env : Env) (src : Str) (c : Cow) (ms : List Member) :
    lookupPath env src c ms = followCow env src c ms := by
  cases c <;> simp only [lookupPath, followCow, walk_follow, Cow.val] <;>
  · cases follow env src _ ms with
    | ok o => cases o <;> rfl
    | err e => rfl
    | crash => rfl

theorem lookupPathMaybe_eq (env : Env) (src : Str) (c : Cow) (v : Var) (q : Quirks) :
    lookupPathMaybe env src c v.path = (Binding.globals c).get q env src v := by
  cases c <;> simp only [lookupPathMaybe, Binding.get, Var.path, walkMaybe, Cow.val] <;>
  · cases lookup env src _ v.first with
    | ok o => cases o with
      | none => rfl
      | some x =>
        simp only [walkMaybe_follow, followCow, like, Cow.val]
        cases follow env src x v.rest with
        | ok o => cases o <;> rfl
        | err e => rfl
        | crash => rfl
    | err e => rfl
    | crash => rfl

theorem toValueMembers_eq (src : Str) (ms : List Member) : toValueMembers src ms = pathOf src ms := by
  induction ms with
  | nil => rfl
  | cons m ms ih =>
    rw [toValueMembers, pathOf, ih, toValueMember]
    cases m.access with
    | index i => rfl
    | key k => dsimp only; cases Res.ofOption (k.span.of src) <;> rfl

theorem like_mkCow (o : Bool) (x y : Value) : like (mkCow o x) y = mkCow o y := by cases o <;> rfl

theorem mkCow_val (o : Bool) (x : Value) : (mkCow o x).val = x := by cases o <;> rfl

theorem followItem_eq (env : Env) (src : Str) (o : Bool) (x : Value) (ms : List Member) :
    (walk env src x ms >>= fun r => match r with
      | some v => Res.ok (some (mkCow o v))
      | none => Res.ok none) = followItem asBuilt env src (mkCow o x) ms := by
  rw [followItem, walk_follow, mkCow_val]
  cases follow env src x ms with
  | ok r => cases r <;> simp [asBuilt, like_mkCow]
  | err e => rfl
  | crash => rfl

theorem loopMap_eq (i r : Nat) : loopMap i r = .map [("first".toList, .bool (i == 0)), ("index".toList, .integer i),
    ("last".toList, .bool (r == 0))] := by
  rfl

theorem loopInfo_eq (env : Env) (src : Str) (ls : LoopState) (i r : Nat) (h : ls.indexAndRem = some (i, r))
    (ms : List Member) : ls.lookupLoop env src ms = loopInfo env src i r ms := by
  cases ms with
  | nil => simp [LoopState.lookupLoop, h, loopInfo, loopMap_eq]
  | cons m ms =>
    simp only [LoopState.lookupLoop, h, loopInfo]
    cases m.access with
    | index i => rfl
    | key k =>
      simp only
      congr 1; funext n
      cases m.op <;> cases ms <;> simp [errRender_eq, human_value]

theorem loopVar_list (env : Env) (src : Str) (o i n rem k x) (v : Var) :
    LoopState.lookupVar env src (.list o i n rem (some (k, x))) v =
      (Binding.item i (mkCow o x) k rem.length).get asBuilt env src v := by
  rw [LoopState.lookupVar, Binding.get]
  cases v.first.access with
  | index i => rfl
  | key kk =>
    simp only
    congr 1; funext a
    rw [loopInfo_eq env src _ k rem.length rfl]
    by_cases h1 : a = "loop".toList
    · rw [if_pos h1, if_pos h1]
    · rw [if_neg h1, if_neg h1]
      by_cases h2 : a = i
      · rw [if_pos h2, if_pos h2]; exact followItem_eq env src o x v.rest
      · rw [if_neg h2, if_neg h2]

theorem loopVar_map (env : Env) (src : Str) (o kn vn n rem k s x) (v : Var) :
    LoopState.lookupVar env src (.map o kn vn n rem (some (k, (s, x)))) v =
      (Binding.entry kn vn s (mkCow o x) k rem.length).get asBuilt env src v := by
  rw [LoopState.lookupVar, Binding.get]
  cases v.first.access with
  | index i => rfl
  | key kk =>
    simp only
    congr 1; funext a
    rw [loopInfo_eq env src _ k rem.length rfl]
    by_cases h1 : a = "loop".toList
    · rw [if_pos h1, if_pos h1]
    · rw [if_neg h1, if_neg h1]
      by_cases h2 : a = kn
      · rw [if_pos h2, if_pos h2]; cases v.rest <;> rfl
      · rw [if_neg h2, if_neg h2]
        by_cases h3 : a = vn
        · rw [if_pos h3, if_pos h3]; exact followItem_eq env src o x v.rest
        · rw [if_neg h3, if_neg h3]

theorem lookupVar_eq (env : Env) (src : Str) {st : Stack} {ρ : Scope} (h : Rel st ρ) (v : Var) :
    lookupVar env src st v = resolve asBuilt env src ρ v := by
  induction h with
  | nil => rfl
  | valueFn f hr ih =>
    rw [lookupVar, resolve, Binding.get, toValueMembers_eq]
    cases pathOf src v.path with
    | ok p =>
      simp only [Res.ok_bind]
      cases f p with
      | ok x => rfl
      | error e => simp only [errRender, throwAt, fault]; cases Pretty.build env src v.span <;> rfl
    | err e => rfl
    | crash => rfl
  | @scope c st ρ hr ih =>
    rw [lookupVar, resolve, lookupPathMaybe_eq env src c v asBuilt]
    congr 1; funext o
    cases o <;> simp [ih]
  | @var n c st ρ hr ih =>
    rw [lookupVar, resolve, Binding.get]
    cases Res.ofOption (v.first.access.span.of src) with
    | ok a =>
      simp only [Res.ok_bind]
      cases Res.ofOption (n.span.of src) with
      | ok b =>
        simp only [Res.ok_bind]
        by_cases hab : a = b
        · rw [if_pos hab, if_pos hab, lookupPath_eq]
          cases followCow env src c v.rest <;> rfl
        · rw [if_neg hab, if_neg hab, ih]; rfl
      | err e => rfl
      | crash => rfl
    | err e => rfl
    | crash => rfl
  | list o i n rem k x hr ih =>
    rw [lookupVar, resolve, loopVar_list]
    congr 1; funext o
    cases o <;> simp [ih]
  | map o kn vn n rem k s x hr ih =>
    rw [lookupVar, resolve, loopVar_map]
    congr 1; funext o
    cases o <;> simp [ih]
  | boundary hr ih =>
    rw [lookupVar, resolve, Binding.get]
    simp only [errRender, throwAt, fault]; cases Pretty.build env src v.first.span <;> rfl

/-! Expressions -/

/-- Errors say where they happened. -/
def Placed {α : Type} (r : Res α) : Prop := ∀ e, r = .err e → e.pretty ≠ none

theorem Placed.bind {α β : Type} {r : Res α} {f : α → Res β} (h : Placed r) (h' : ∀ a, Placed (f a)) :
    Placed (r >>= f) := by
  cases r with
  | ok a => exact h' a
  | err e => intro e' he; cases he; exact h e rfl
  | crash => intro e he; cases he

theorem placed_throw {α : Type} (env k m src sp) : Placed (throwAt (α := α) env k m src sp) := by
  intro e h
  rw [throwAt] at h
  split at h
  · cases h; simp
  · cases h

theorem placed_ok {α : Type} (a : α) : Placed (.ok a) := fun _ h => by cases h
theorem placed_crash {α : Type} : Placed (.crash : Res α) := fun _ h => by cases h
theorem placed_ofOption {α : Type} (o : Option α) : Placed (Res.ofOption o) := by
  cases o with
  | none => exact placed_crash
  | some a => exact placed_ok a
theorem placed_render {α : Type} (env m src sp) : Placed (errRender (α := α) env m src sp) :=
  placed_throw env _ _ src sp

theorem placed_lookup (env : Env) (src : Str) (v : Value) (m : Member) : Placed (lookup env src v m) := by
  have key : ∀ (mp : List (Str × Value)) (k : Ident), Placed (do
      let name ← Res.ofOption (k.span.of src)
      match m.op, BMap.get mp name with
      | _, some v => Res.ok (some v)
      | .optional, none => .ok none
      | .direct, none => errRender env "not found in map" src m.span) := by
    intro mp k
    refine (placed_ofOption _).bind fun n => ?_
    cases BMap.get mp n <;> cases m.op <;> first | exact placed_ok _ | exact placed_render _ _ _ _
  cases v <;> cases h : m.access <;> simp only [lookup, h] <;>
    first
    | exact placed_render _ _ _ _
    | exact key _ _
    | skip
  rename_i l i
  cases l[i.value]? <;> cases m.op <;> first | exact placed_ok _ | exact placed_render _ _ _ _

theorem placed_follow (env : Env) (src : Str) (ms : List Member) : ∀ v, Placed (follow env src v ms) := by
  induction ms with
  | nil => intro v; exact placed_ok _
  | cons m ms ih =>
    intro v
    rw [follow]
    have := placed_lookup env src v m
    revert this
    cases lookup env src v m with
    | ok o => intro _; cases o with
      | none => exact placed_ok _
      | some v' => exact ih v'
    | err e => intro h e' he; cases he; exact h e rfl
    | crash => intro _; exact placed_crash

theorem placed_followCow (env : Env) (src : Str) (c : Cow) (ms : List Member) : Placed (followCow env src c ms) := by
  rw [followCow]
  have := placed_follow env src ms c.val
  revert this
  cases follow env src c.val ms with
  | ok o => intro _; cases o <;> exact placed_ok _
  | err e => intro h e' he; cases he; exact h e rfl
  | crash => intro _; exact placed_crash

theorem placed_followItem (q : Quirks) (env : Env) (src : Str) (c : Cow) (ms : List Member) :
    Placed (followItem q env src c ms) := by
  rw [followItem]
  have := placed_follow env src ms c.val
  revert this
  cases follow env src c.val ms with
  | ok o => intro _; cases o with
    | none => simp only; split <;> exact placed_ok _
    | some v => exact placed_ok _
  | err e => intro h e' he; cases he; exact h e rfl
  | crash => intro _; exact placed_crash

theorem placed_loopInfo (env : Env) (src : Str) (i r : Nat) (ms : List Member) :
    Placed (loopInfo env src i r ms) := by
  cases ms with
  | nil => exact placed_ok _
  | cons m ms =>
    rw [loopInfo]
    cases m.access with
    | index i => exact placed_render _ _ _ _
    | key k =>
      refine (placed_ofOption _).bind fun n => ?_
      refine Placed.bind ?_ fun v => ?_
      · repeat' split
        all_goals first | exact placed_ok _ | exact placed_render _ _ _ _
      · cases ms with
        | nil => exact placed_ok _
        | cons m ms => exact placed_render _ _ _ _

theorem placed_pathOf (src : Str) (ms : List Member) : Placed (pathOf src ms) := by
  induction ms with
  | nil => exact placed_ok _
  | cons m ms ih =>
    rw [pathOf]
    refine Placed.bind ?_ fun _ => ih.bind fun _ => placed_ok _
    cases m.access with
    | index i => exact placed_ok _
    | key k => exact (placed_ofOption _).bind fun _ => placed_ok _

theorem placed_get (q : Quirks) (env : Env) (src : Str) (b : Binding) (v : Var) : Placed (b.get q env src v) := by
  cases b with
  | globals c =>
    rw [Binding.get]
    cases lookup env src c.val v.first with
    | ok o => cases o with
      | none => exact placed_ok _
      | some x => exact (placed_followCow _ _ _ _).bind fun _ => placed_ok _
    | err e => exact placed_ok _
    | crash => exact placed_crash
  | provider f =>
    rw [Binding.get]
    refine (placed_pathOf _ _).bind fun p => ?_
    cases f p with
    | ok x => exact placed_ok _
    | error e => exact placed_render _ _ _ _
  | name n c =>
    rw [Binding.get]
    refine (placed_ofOption _).bind fun a => (placed_ofOption _).bind fun b => ?_
    split
    · exact (placed_followCow _ _ _ _).bind fun _ => placed_ok _
    · exact placed_ok _
  | item n c i r =>
    rw [Binding.get]
    cases v.first.access with
    | index _ => exact placed_ok _
    | key k =>
      refine (placed_ofOption _).bind fun a => ?_
      split
      · exact placed_loopInfo _ _ _ _ _
      · split
        · exact placed_followItem _ _ _ _ _
        · exact placed_ok _
  | entry kn vn s c i r =>
    rw [Binding.get]
    cases v.first.access with
    | index _ => exact placed_ok _
    | key k =>
      refine (placed_ofOption _).bind fun a => ?_
      split
      · exact placed_loopInfo _ _ _ _ _
      · split
        · cases v.rest with
          | nil => exact placed_ok _
          | cons m ms => exact placed_render _ _ _ _
        · split
          · exact placed_followItem _ _ _ _ _
          · exact placed_ok _
  | wall => exact placed_render _ _ _ _

theorem placed_resolve (q : Quirks) (env : Env) (src : Str) (ρ : Scope) (v : Var) : Placed (resolve q env src ρ v) := by
  induction ρ with
  | nil => exact placed_render _ _ _ _
  | cons b ρ ih =>
    rw [resolve]
    refine (placed_get q env src b v).bind fun o => ?_
    cases o with
    | none => exact ih
    | some c => exact placed_ok _

theorem getArg_eq (env : Env) (src : Str) {st : Stack} {ρ : Scope} (h : Rel st ρ) (t : ArgTy) (a : BaseExpr) :
    getArg env src st t a = evalArg asBuilt env src ρ t a := by
  cases a with
  | var v =>
    rw [getArg, evalArg, lookupVar_eq env src h]
    congr 1; funext c
    cases c with
    | borrowed x => dsimp only; rw [offer_lent]; cases t.fromValueRef env x <;> rfl
    | owned x => dsimp only; rw [offer_owned]; cases t.fromValue env x <;> rfl
  | lit l =>
    rw [getArg, evalArg, offer_lent]
    cases t.fromValueRef env l.value <;> rfl

theorem placed_evalArg (q : Quirks) (env : Env) (src : Str) (ρ : Scope) (t : ArgTy) (a : BaseExpr) :
    Placed (evalArg q env src ρ t a) := by
  cases a with
  | var v =>
    rw [evalArg]
    refine (placed_resolve _ _ _ _ _).bind fun c => ?_
    split
    · exact placed_ok _
    · exact placed_render _ _ _ _
  | lit l =>
    rw [evalArg]
    split
    · exact placed_ok _
    · exact placed_render _ _ _ _

theorem placed_evalArgs (q : Quirks) (env : Env) (src : Str) (ρ : Scope) (ts : List ArgTy) :
    ∀ as : List BaseExpr, Placed (evalArgs q env src ρ ts as) := by
  induction ts with
  | nil => intro as; rw [evalArgs]; exact placed_ok _; simp
  | cons t ts ih =>
    intro as
    cases as with
    | nil => rw [evalArgs]; exact placed_ok _; simp
    | cons a as =>
      rw [evalArgs]
      exact (placed_evalArg _ _ _ _ _ _).bind fun _ => (ih as).bind fun _ => placed_ok _

theorem getArgs_eq (env : Env) (src : Str) {st : Stack} {ρ : Scope} (h : Rel st ρ) (ts : List ArgTy) :
    ∀ as : List BaseExpr, as.length = ts.length → getArgs env src st ts as = evalArgs asBuilt env src ρ ts as := by
  induction ts with
  | nil => intro as _; rw [getArgs, evalArgs]; simp
  | cons t ts ih =>
    intro as hl
    cases as with
    | nil => simp at hl
    | cons a as =>
      rw [getArgs, evalArgs, getArg_eq env src h]
      congr 1; funext x
      rw [ih as (by simpa using hl)]

theorem enrich_placed {α : Type} (env : Env) (src : Str) (sp : Span) {r : Res α} (h : Placed r) :
    enrich env src sp r = r := by
  cases r with
  | ok a => rfl
  | err e =>
    rw [enrich]
    cases hp : e.pretty with
    | none => exact absurd hp (h e rfl)
    | some p => rfl
  | crash => rfl

theorem errRender_bind {α β : Type} (env : Env) (m : String) (src : Str) (sp : Span) (k : α → Res β) :
    (errRender env m src sp >>= k) = errRender env m src sp := by
  rw [errRender, throwAt, errRender, throwAt]; split <;> rfl

theorem callFilter_eq (env : Env) (f : Filter) (src : Str) {st : Stack} {ρ : Scope} (h : Rel st ρ) (name : Ident)
    (v : Cow) (args : List BaseExpr) :
    enrich env src name.span (callFilter env f src st name v args) = applyFilter asBuilt env src ρ f name v args := by
  rw [callFilter, fromState, applyFilter]
  by_cases hl : args.length = f.args.length
  · rw [if_pos hl, if_neg (fun hn => hn hl), ArgTy.fromCowMut]
    rcases offer_value env f.val v.val with ⟨a, ha, ho⟩ | ⟨e, m, he, hm, ho⟩
    · rw [ha, ho]
      simp only
      rw [getArgs_eq env src h _ _ hl]
      have pl := placed_evalArgs asBuilt env src ρ f.args args
      revert pl
      cases evalArgs asBuilt env src ρ f.args args with
      | ok xs =>
        intro _
        simp only [Res.ok_bind]
        cases f.call a xs with
        | ok r => rfl
        | error m =>
          simp only [enrich, Err.filter, filterFault]
          cases Pretty.build env src name.span <;> rfl
      | err e =>
        intro pl; simp only [Res.err_bind]
        exact enrich_placed _ _ _ (fun e' h => by cases h; exact pl e rfl)
      | crash => intro _; rfl
    · rw [he, ho]
      simp only [hm]
      rw [errRender_bind]
      exact enrich_placed _ _ _ (placed_render _ _ _ _)
  · rw [if_neg hl, if_pos hl, errRender_bind]
    exact enrich_placed _ _ _ (placed_render _ _ _ _)

end Upon
