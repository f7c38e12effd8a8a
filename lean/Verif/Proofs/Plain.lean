import Verif.Proofs.Words
import Verif.Props.Quirks
/-
The meaning of a tree without byte ranges (for C44), and that it is, apart from the places of errors, the
meaning of the tree with them.
-/
namespace Upon
open Spec

namespace Plain

/-- A render error without a place. -/
def fail {α : Type} (m : String) : Res α := .err ⟨.render, none, some m, none⟩

def lookup (v : Value) (m : ValueMember) : Res (Option Value) :=
  match v, m.access with
  | .list l, .index i =>
    match m.op, l[i]? with
    | _, some v => .ok (some v)
    | .optional, none => .ok none
    | .direct, none => fail s!"index out of bounds, the length is {l.length}"
  | .map mp, .key k =>
    match m.op, BMap.get mp k with
    | _, some v => .ok (some v)
    | .optional, none => .ok none
    | .direct, none => fail "not found in map"
  | v, .index _ => fail s!"{typeName v} does not support integer-based access"
  | v, .key _ => fail s!"{typeName v} does not support key-based access"

def follow (v : Value) : List ValueMember → Res (Option Value)
  | [] => .ok (some v)
  | m :: ms =>
    match lookup v m with
    | .ok (some v') => follow v' ms
    | .ok none => .ok none
    | .err e => .err e
    | .crash => .crash

def followCow (c : Cow) (ms : List ValueMember) : Res Cow :=
  match follow c.val ms with
  | .ok (some v) => .ok (like c v)
  | .ok none => .ok (.borrowed .none)
  | .err e => .err e
  | .crash => .crash

def loopInfo (index after : Nat) : List ValueMember → Res (Option Cow)
  | [] => .ok (some (.owned (.map [("first".toList, .bool (index == 0)), ("index".toList, .integer index),
      ("last".toList, .bool (after == 0))])))
  | m :: ms =>
    match m.access with
    | .index _ => fail "cannot index into map with integer"
    | .key n => do
      let v ← (if n = "index".toList then .ok (.integer index)
        else if n = "first".toList then .ok (.bool (index == 0))
        else if n = "last".toList then .ok (.bool (after == 0))
        else if m.op = .optional then .ok .none
        else fail "not found in map" : Res Value)
      match ms with
      | [] => .ok (some (.owned v))
      | _ :: _ => fail s!"cannot index into {typeName v}"

def followItem (c : Cow) (ms : List ValueMember) : Res (Option Cow) :=
  match follow c.val ms with
  | .ok (some v) => .ok (some (like c v))
  | .ok none => .ok none
  | .err e => .err e
  | .crash => .crash

def get (b : Binding) (name : Str) (first : ValueMember) (rest : List ValueMember) : Res (Option Cow) :=
  match b with
  | .globals c =>
    match lookup c.val first with
    | .ok (some x) => do
      let r ← followCow (like c x) rest
      .ok (some r)
    | .ok none => .ok none
    | .err _ => .ok none
    | .crash => .crash
  | .provider f =>
    match f (first :: rest) with
    | .ok x => .ok (some (.owned x))
    | .error reason => fail reason
  | .name n c =>
    if n [] = some name then do
      let r ← followCow c rest
      .ok (some r)
    else .ok none
  | .item n c index after =>
    match first.access with
    | .index _ => .ok none
    | .key a =>
      if a = "loop".toList then loopInfo index after rest
      else if a = n then followItem c rest
      else .ok none
  | .entry kn vn key c index after =>
    match first.access with
    | .index _ => .ok none
    | .key a =>
      if a = "loop".toList then loopInfo index after rest
      else if a = kn then
        match rest with
        | [] => .ok (some (.owned (.string key)))
        | _ :: _ => fail "cannot index into string"
      else if a = vn then followItem c rest
      else .ok none
  | .wall => fail "not found in this scope"

def resolve : Scope → Str → ValueMember → List ValueMember → Res Cow
  | [], _, _, _ => fail "not found in this scope"
  | b :: ρ, name, first, rest => do
    match ← get b name first rest with
    | some c => .ok c
    | none => resolve ρ name first rest

def evalBase (ρ : Scope) : Base → Res Cow
  | .var n f r => resolve ρ n f r
  | .lit v => .ok (.owned v)

def evalArg (env : Env) (ρ : Scope) (t : ArgTy) : Base → Res ArgVal
  | .lit v =>
    match offer env .argument true t v with
    | .ok a => .ok a
    | .error msg => fail msg
  | .var n f r => do
    let c ← resolve ρ n f r
    match (match c with | .borrowed x => offer env .argument true t x | .owned x => offer env .argument false t x) with
    | .ok a => .ok a
    | .error msg => fail msg

def evalArgs (env : Env) (ρ : Scope) : List ArgTy → List Base → Res (List ArgVal)
  | t :: ts, a :: as => do
    let x ← evalArg env ρ t a
    let xs ← evalArgs env ρ ts as
    .ok (x :: xs)
  | _, _ => .ok []

def applyFilter (env : Env) (ρ : Scope) (f : Filter) (v : Cow) (args : List Base) : Res Value :=
  if args.length ≠ f.args.length then fail s!"filter expected {f.args.length} arguments"
  else
    match offer env .value true f.val v.val with
    | .error msg => fail msg
    | .ok a => do
      let as ← evalArgs env ρ f.args args
      match f.call a as with
      | .ok r => .ok r
      | .error msg => .err (filterErr msg)

/-- What a render needs besides the template. -/
structure Cfg where
  env : Env
  defaultFormatter : Formatter
  functions : List (Str × EngFn)
  maxIncludeDepth : Nat
  record : Bool
  find : List Str → Str → Except String (List Stmt)

def evalExpr (cfg : Cfg) (ρ : Scope) : Expr → Res Cow
  | .base b => evalBase ρ b
  | .call n args recv => do
    let v ← evalExpr cfg ρ recv
    match BMap.get cfg.functions n with
    | some (.filter f) => do
      let r ← applyFilter cfg.env ρ f v (args.getD [])
      .ok (.owned r)
    | some (.formatter _) => fail "expected filter, found formatter"
    | none => fail "unknown filter"

def write (name : Option Str) (f : Formatter) (v : Value) (w : World Str) : RunRes Str :=
  match (f v).run stringSink w.out with
  | (out, .ok ()) => .ok { w with out }
  | (out, .error reason) => .err ((⟨.format, none, reason, none⟩ : Err).attachName name) { w with out }

def emitExpr (cfg : Cfg) (name : Option Str) (ρ : Scope) (e : Expr) (w : World Str) : RunRes Str :=
  match e with
  | .call n none recv =>
    andThen name w (evalExpr cfg ρ recv) fun v =>
    match BMap.get cfg.functions n with
    | some (.formatter f) => write name f v.val w
    | some (.filter f) =>
      andThen name w (applyFilter cfg.env ρ f v []) fun r => write name cfg.defaultFormatter r w
    | none => andThen (α := Unit) name w (fail "unknown filter or formatter") (fun _ => .crash)
  | e => andThen name w (evalExpr cfg ρ e) fun v => write name cfg.defaultFormatter v.val w

def rounds (vs : Vars) (c : Cow) : Res (List Binding) :=
  match c.val, vs with
  | .list l, .item n => .ok (listRounds n (isOwned c) 0 l)
  | .list _, .keyValue _ _ => fail "cannot unpack list item into two variables"
  | .map m, .keyValue k v => .ok (mapRounds k v (isOwned c) 0 m)
  | .map _, .item _ => fail "cannot unpack map item into one variable"
  | v, _ => fail s!"expected iterable, but expression evaluated to {typeName v}"

abbrev Include := Str → Option Str → Scope → World Str → RunRes Str

mutual
def evalStmt (cfg : Cfg) (inc : Include) (name : Option Str) (ρ : Scope) : Stmt → World Str → RunRes Str
  | .char c, w => .ok { w with out := w.out ++ [c] }
  | .expr e, w => emitExpr cfg name ρ e w
  | .include_ n none, w => inc n name ρ w
  | .include_ n (some e), w => andThen name w (evalExpr cfg ρ e) fun v => inc n name (.globals v :: .wall :: ρ) w
  | .ifElse neg cond then_ else_, w =>
    andThen name w (evalExpr cfg ρ cond) fun v =>
      if truthy v.val ≠ neg then evalStmts cfg inc name ρ then_ w
      else match else_ with
        | some ss => evalStmts cfg inc name ρ ss w
        | none => .ok w
  | .forLoop vars e body, w =>
    andThen name w (evalExpr cfg ρ e) fun v =>
    andThen name w (rounds vars v) fun bs => forEach (fun b => evalStmts cfg inc name (b :: ρ) body) bs w
  | .with_ e n body, w =>
    andThen name w (evalExpr cfg ρ e) fun v => evalStmts cfg inc name (.name (fun _ => some n) v :: ρ) body w
def evalStmts (cfg : Cfg) (inc : Include) (name : Option Str) (ρ : Scope) : List Stmt → World Str → RunRes Str
  | [], w => .ok w
  | s :: ss, w => seq (evalStmt cfg inc name ρ s w) (evalStmts cfg inc name ρ ss)
end

def asked (cfg : Cfg) (n : Str) (w : World Str) : World Str := if cfg.record then { w with asked := n :: w.asked } else w

def include_ (cfg : Cfg) : Nat → Include
  | left, n, name, ρ, w =>
    match cfg.find w.asked n with
    | .error e => .err ((⟨.render, none, some e, none⟩ : Err).attachName name) (asked cfg n w)
    | .ok ss =>
      match left with
      | 0 => .err (depthErr cfg.maxIncludeDepth) (asked cfg n w)
      | left + 1 => evalStmts cfg (include_ cfg left) (some n) ρ ss (asked cfg n w)

def render (cfg : Cfg) (ss : List Stmt) (name : Option Str) (ρ : Scope) (w : World Str) : RunRes Str :=
  evalStmts cfg (include_ cfg (cfg.maxIncludeDepth - 1)) name ρ ss w

/-- A configuration with trees without byte ranges. -/
def ofCfg (cfg : RenderCfg Str) (tree : Template → Tree) : Cfg where
  env := cfg.env
  defaultFormatter := cfg.defaultFormatter
  functions := cfg.functions
  maxIncludeDepth := cfg.maxIncludeDepth
  record := cfg.templateFn.isSome
  find asked n :=
    match cfg.templateFn with
    | some f =>
      match f asked n with
      | .ok t => .ok (ofStmts (tree t).source (tree t).body)
      | .error e => .error e
    | none =>
      match BMap.get cfg.templates n with
      | some t => .ok (ofStmts (tree t).source (tree t).body)
      | none => .error "unknown template"

/-! The two meanings agree -/

variable {env : Env} {src : Str}

@[simp] theorem unplaced_ok {α : Type} (a : α) : Unplaced (.ok a) = .ok a := rfl
@[simp] theorem unplaced_err {α : Type} (e : Err) : Unplaced (.err e : Res α) = .err (unplaced e) := rfl
@[simp] theorem unplaced_crash {α : Type} : Unplaced (.crash : Res α) = .crash := rfl
@[simp] theorem unplaced_fail {α : Type} (m : String) : Unplaced (fail m : Res α) = fail m := rfl

theorem unplaced_bind {α β : Type} (x : Res α) (f : α → Res β) : Unplaced (x >>= f) = Unplaced x >>= fun a => Unplaced (f a) := by
  cases x <;> rfl

theorem throw_plain {α : Type} (hne : src ≠ []) {sp : Span} (h : SpanIn src sp) (k : ErrKind) (m : Option String) :
    Unplaced (throwAt env k m src sp : Res α) = .err ⟨k, none, m, none⟩ := by
  obtain ⟨t, ht⟩ := h
  obtain ⟨p, hp⟩ := pretty_isSome env hne ht
  simp only [throwAt, hp]; rfl

theorem err_plain {α : Type} (hne : src ≠ []) {sp : Span} (h : SpanIn src sp) (m : String) :
    Unplaced (fault env m src sp : Res α) = fail m := throw_plain hne h _ _

theorem format_plain {α : Type} (hne : src ≠ []) {sp : Span} (h : SpanIn src sp) (m : Option String) :
    Unplaced (formatFault env m src sp : Res α) = .err ⟨.format, none, m, none⟩ := throw_plain hne h _ _

theorem filter_plain {α : Type} (hne : src ≠ []) {sp : Span} (h : SpanIn src sp) (m : String) :
    Unplaced (filterFault env m src sp : Res α) = .err (filterErr m) := throw_plain hne h _ _

theorem text_in {sp : Span} (h : SpanIn src sp) : sp.of src = some (textAt src sp) := by
  obtain ⟨t, ht⟩ := h
  rw [textAt, ht]; rfl

theorem lookup_plain (hne : src ≠ []) (v : Value) {m : Member} (h : MemberIn src m) :
    Unplaced (Upon.lookup env src v m) = lookup v (ofMember src m) := by
  obtain ⟨op, acc, sp⟩ := m
  have he := fun {α : Type} m => err_plain (α := α) (env := env) hne h.1 m
  cases acc with
  | index i =>
    cases v <;> simp only [Upon.lookup, lookup, ofMember, errRender_eq, human_value, he]
    split <;> simp_all
  | key k =>
    have hk := text_in h.2
    cases v <;> simp only [Upon.lookup, lookup, ofMember, errRender_eq, human_value, he]
    simp only [Access.span] at hk
    simp only [hk, Res.ofOption, Res.ok_bind]
    split <;> simp_all

theorem follow_plain (hne : src ≠ []) (v : Value) {ms : List Member} (h : ∀ m ∈ ms, MemberIn src m) :
    Unplaced (Spec.follow env src v ms) = follow v (ms.map (ofMember src)) := by
  induction ms generalizing v with
  | nil => rfl
  | cons m ms ih =>
    rw [Spec.follow, List.map_cons, follow, ← lookup_plain (env := env) hne v (h m (by simp))]
    cases Upon.lookup env src v m with
    | ok o => cases o with
      | none => rfl
      | some x => exact ih x fun m hm => h m (by simp [hm])
    | err e => rfl
    | crash => rfl

theorem followCow_plain (hne : src ≠ []) (c : Cow) {ms : List Member} (h : ∀ m ∈ ms, MemberIn src m) :
    Unplaced (Spec.followCow env src c ms) = followCow c (ms.map (ofMember src)) := by
  rw [Spec.followCow, followCow, ← follow_plain (env := env) hne c.val h]
  cases Spec.follow env src c.val ms with
  | ok o => cases o <;> rfl
  | err e => rfl
  | crash => rfl

theorem followItem_plain (hne : src ≠ []) (c : Cow) {ms : List Member} (h : ∀ m ∈ ms, MemberIn src m) :
    Unplaced (Spec.followItem asBuilt env src c ms) = followItem c (ms.map (ofMember src)) := by
  rw [Spec.followItem, followItem, ← follow_plain (env := env) hne c.val h]
  cases Spec.follow env src c.val ms with
  | ok o => cases o <;> rfl
  | err e => rfl
  | crash => rfl

theorem unplaced_ite {α : Type} (p : Prop) [Decidable p] (x y : Res α) :
    Unplaced (if p then x else y) = if p then Unplaced x else Unplaced y := by split <;> rfl

theorem loopInfo_plain (hne : src ≠ []) (i a : Nat) {ms : List Member} (h : ∀ m ∈ ms, MemberIn src m) :
    Unplaced (Spec.loopInfo env src i a ms) = loopInfo i a (ms.map (ofMember src)) := by
  cases ms with
  | nil => rfl
  | cons m ms =>
    have hm := h m (by simp)
    rw [Spec.loopInfo.eq_def, List.map_cons, loopInfo.eq_def]
    dsimp only
    cases ha : m.access with
    | index j => simp only [ofMember, ha, err_plain hne hm.1]
    | key k =>
      have hk := hm.2
      rw [ha] at hk
      have hk : k.span.of src = _ := text_in hk
      simp only [ofMember, ha, hk, Res.ofOption, Res.ok_bind, unplaced_bind, unplaced_ite, err_plain hne hm.1, unplaced_ok]
      congr 1; funext v
      cases ms with
      | nil => rfl
      | cons m' ms => exact err_plain hne (h m' (by simp)).1 _

theorem pathOf_plain {ms : List Member} (h : ∀ m ∈ ms, MemberIn src m) : pathOf src ms = .ok (ms.map (ofMember src)) := by
  induction ms with
  | nil => rfl
  | cons m ms ih =>
    rw [pathOf, ih fun m hm => h m (by simp [hm])]
    cases ha : m.access with
    | index i => simp only [Res.ok_bind, List.map_cons, ofMember, ha]
    | key k =>
      have hk := (h m (by simp)).2
      rw [ha] at hk
      have hk : k.span.of src = _ := text_in hk
      simp only [hk, Res.ofOption, Res.ok_bind, List.map_cons, ofMember, ha]

/-- The same bindings, seen from the source `src`, as far as they can be seen. -/
inductive Rel (src : Str) : Scope → Scope → Prop
  | nil : Rel src [] []
  | globals {c ρ ρ'} : Rel src ρ ρ' → Rel src (.globals c :: ρ) (.globals c :: ρ')
  | provider {f ρ ρ'} : Rel src ρ ρ' → Rel src (.provider f :: ρ) (.provider f :: ρ')
  | name {n m c ρ ρ'} : n src = some m → Rel src ρ ρ' → Rel src (.name n c :: ρ) (.name (fun _ => some m) c :: ρ')
  | item {n c i a ρ ρ'} : Rel src ρ ρ' → Rel src (.item n c i a :: ρ) (.item n c i a :: ρ')
  | entry {kn vn k c i a ρ ρ'} : Rel src ρ ρ' → Rel src (.entry kn vn k c i a :: ρ) (.entry kn vn k c i a :: ρ')
  | wall {ρ ρ'} : Rel src (.wall :: ρ) (.wall :: ρ')

/-- No `with` variable can be seen. -/
inductive Open : Scope → Prop
  | nil : Open []
  | globals {c ρ} : Open ρ → Open (.globals c :: ρ)
  | provider {f ρ} : Open ρ → Open (.provider f :: ρ)
  | item {n c i a ρ} : Open ρ → Open (.item n c i a :: ρ)
  | entry {kn vn k c i a ρ} : Open ρ → Open (.entry kn vn k c i a :: ρ)
  | wall {ρ} : Open (.wall :: ρ)

theorem Rel.other {ρ ρ' : Scope} (h : Rel src ρ ρ') (ho : Open ρ) (src' : Str) : Rel src' ρ ρ' := by
  induction h with
  | nil => exact .nil
  | globals _ ih => cases ho with | globals ho => exact .globals (ih ho)
  | provider _ ih => cases ho with | provider ho => exact .provider (ih ho)
  | name _ _ ih => cases ho
  | item _ ih => cases ho with | item ho => exact .item (ih ho)
  | entry _ ih => cases ho with | entry ho => exact .entry (ih ho)
  | wall => exact .wall

/-- The same, when the binding says the same. -/
theorem resolve_step {b b' : Binding} {ρ ρ' : Scope} {v : Var}
    (hb : Unplaced (b.get asBuilt env src v) = get b' (textAt src v.first.access.span) (ofMember src v.first) (v.rest.map (ofMember src)))
    (ih : Unplaced (Spec.resolve asBuilt env src ρ v) =
      resolve ρ' (textAt src v.first.access.span) (ofMember src v.first) (v.rest.map (ofMember src))) :
    Unplaced (Spec.resolve asBuilt env src (b :: ρ) v) =
      resolve (b' :: ρ') (textAt src v.first.access.span) (ofMember src v.first) (v.rest.map (ofMember src)) := by
  rw [Spec.resolve, resolve, unplaced_bind, hb]
  congr 1; funext o
  cases o with
  | none => exact ih
  | some c => rfl

theorem resolve_plain (hne : src ≠ []) {ρ ρ' : Scope} (h : Rel src ρ ρ') {v : Var} (hv : VarIn src v) :
    Unplaced (Spec.resolve asBuilt env src ρ v) =
      resolve ρ' (textAt src v.first.access.span) (ofMember src v.first) (v.rest.map (ofMember src)) := by
  have hf := text_in hv.1.2
  induction h with
  | nil => exact err_plain hne hv.1.1 _
  | @globals c _ _ _ ih =>
    refine resolve_step ?_ ih
    rw [Binding.get, get, ← lookup_plain (env := env) hne _ hv.1]
    cases Upon.lookup env src c.val v.first with
    | ok o => cases o with
      | none => rfl
      | some x =>
        simp only [unplaced_ok, unplaced_bind, followCow_plain hne _ hv.2]
    | err e => rfl
    | crash => rfl
  | @provider f _ _ _ ih =>
    refine resolve_step ?_ ih
    rw [Binding.get, get, Var.path, pathOf_plain (by
      intro m hm
      rcases List.mem_cons.mp hm with rfl | hm
      · exact hv.1
      · exact hv.2 m hm)]
    simp only [Res.ok_bind, List.map_cons]
    cases f (ofMember src v.first :: v.rest.map (ofMember src)) with
    | ok x => rfl
    | error m => exact err_plain hne (var_span_in hv) m
  | @name n m c _ _ hn _ ih =>
    refine resolve_step ?_ ih
    simp only [Binding.get, get, hf, hn, Res.ofOption, Res.ok_bind, unplaced_ite, unplaced_bind, followCow_plain hne _ hv.2, unplaced_ok,
      Option.some.injEq, eq_comm (a := m)]
  | @item n c i a _ _ _ ih =>
    refine resolve_step ?_ ih
    simp only [Binding.get, get, ofMember]
    cases ha : v.first.access with
    | index j => rfl
    | key k =>
      rw [ha] at hf
      have hf : k.span.of src = _ := hf
      simp only [hf, Res.ofOption, Res.ok_bind, unplaced_ite, loopInfo_plain hne _ _ hv.2, followItem_plain hne _ hv.2, unplaced_ok, Access.span]
  | @entry kn vn key c i a _ _ _ ih =>
    refine resolve_step ?_ ih
    simp only [Binding.get, get, ofMember]
    cases ha : v.first.access with
    | index j => rfl
    | key k =>
      rw [ha] at hf
      have hf : k.span.of src = _ := hf
      simp only [hf, Res.ofOption, Res.ok_bind, unplaced_ite, loopInfo_plain hne _ _ hv.2, followItem_plain hne _ hv.2, unplaced_ok, Access.span]
      congr 2
      cases hr : v.rest with
      | nil => rfl
      | cons m ms => exact err_plain hne (hv.2 m (by simp [hr])).1 _
  | wall => 
    rw [Spec.resolve, resolve, unplaced_bind, Binding.get, get, err_plain hne hv.1.1]; rfl

theorem evalBase_plain (hne : src ≠ []) {ρ ρ' : Scope} (h : Rel src ρ ρ') {b : BaseExpr} (hb : BaseIn src b) :
    Unplaced (Spec.evalBase asBuilt env src ρ b) = evalBase ρ' (ofBase src b) := by
  cases b with
  | var v => exact resolve_plain hne h hb
  | lit l => rfl

theorem evalArg_plain (hne : src ≠ []) {ρ ρ' : Scope} (h : Rel src ρ ρ') (t : ArgTy) {b : BaseExpr} (hb : BaseIn src b) :
    Unplaced (Spec.evalArg asBuilt env src ρ t b) = evalArg env ρ' t (ofBase src b) := by
  cases b with
  | lit l =>
    simp only [Spec.evalArg, evalArg, ofBase]
    cases offer env .argument true t l.value with
    | ok a => rfl
    | error e => exact err_plain hne hb _
  | var v =>
    simp only [Spec.evalArg, evalArg, ofBase, unplaced_bind, resolve_plain hne h hb]
    congr 1; funext c
    cases c with
    | borrowed x =>
      dsimp only
      cases offer env .argument true t x with
      | ok a => rfl
      | error e => exact err_plain hne (var_span_in hb) _
    | owned x =>
      dsimp only
      cases offer env .argument false t x with
      | ok a => rfl
      | error e => exact err_plain hne (var_span_in hb) _

theorem evalArgs_plain (hne : src ≠ []) {ρ ρ' : Scope} (h : Rel src ρ ρ') (ts : List ArgTy) {as : List BaseExpr} (ha : ∀ x ∈ as, BaseIn src x) :
    Unplaced (Spec.evalArgs asBuilt env src ρ ts as) = evalArgs env ρ' ts (as.map (ofBase src)) := by
  induction ts generalizing as with
  | nil => rfl
  | cons t ts ih =>
    cases as with
    | nil => rfl
    | cons a as =>
      have ih := ih (as := as) fun x hx => ha x (by simp [hx])
      simp only [Spec.evalArgs, evalArgs, List.map_cons, unplaced_bind, evalArg_plain hne h t (ha a (by simp)), ih, unplaced_ok]

theorem applyFilter_plain (hne : src ≠ []) {ρ ρ' : Scope} (h : Rel src ρ ρ') (f : Filter) {n : Ident} (hn : SpanIn src n.span) (v : Cow)
    {as : List BaseExpr} (ha : ∀ x ∈ as, BaseIn src x) :
    Unplaced (Spec.applyFilter asBuilt env src ρ f n v as) = applyFilter env ρ' f v (as.map (ofBase src)) := by
  rw [Spec.applyFilter, applyFilter, unplaced_ite, err_plain hne hn, List.length_map]
  congr 1
  cases offer env .value true f.val v.val with
  | error m => exact err_plain hne hn _
  | ok a =>
    simp only [unplaced_bind, evalArgs_plain hne h f.args ha]
    congr 1; funext xs
    cases f.call a xs with
    | ok r => rfl
    | error m => exact filter_plain hne hn m

variable {cfg : RenderCfg Str} {tree : Template → Tree}

theorem evalExpr_plain (hne : src ≠ []) {ρ ρ' : Scope} (h : Rel src ρ ρ') {e : Upon.Expr} (he : Spec.ExprIn src e) :
    Unplaced (Spec.evalExpr asBuilt cfg src ρ e) = evalExpr (ofCfg cfg tree) ρ' (ofExpr src e) := by
  induction e with
  | base b => exact evalBase_plain hne h he
  | call n args recv sp ih =>
    simp only [Spec.evalExpr, evalExpr, ofExpr, unplaced_bind, ih he.2.2.1, text_in he.1, Res.ofOption, unplaced_ok]
    congr 1; funext v
    simp only [Res.ok_bind]
    have ha : ∀ x ∈ (args.map Args.values).getD [], BaseIn src x := by
      intro x hx
      cases args with
      | none => cases hx
      | some a => exact he.2.1 a rfl x hx
    have e1 : ((args.map Args.values).getD []).map (ofBase src) = (args.map fun a => a.values.map (ofBase src)).getD [] := by
      cases args <;> rfl
    show _ = match BMap.get cfg.functions (textAt src n.span) with
      | some (.filter f) => _
      | some (.formatter _) => _
      | none => _
    cases BMap.get cfg.functions (textAt src n.span) with
    | none => exact err_plain hne he.1 _
    | some f =>
      cases f with
      | formatter f => exact err_plain hne he.1 _
      | filter f =>
        simp only [unplaced_bind, applyFilter_plain hne h f he.1 v ha, e1, unplaced_ok]
        rfl

/-- The result without the places of errors. -/
def Run {σ : Type} : RunRes σ → RunRes σ
  | .ok w => .ok w
  | .err e w => .err (unplaced e) w
  | .crash => .crash

theorem unplaced_attach (e : Err) (n : Option Str) : unplaced (e.attachName n) = (unplaced e).attachName n := by cases n <;> rfl

theorem run_andThen {σ α : Type} (n : Option Str) (w : World σ) (r : Res α) (k : α → RunRes σ) :
    Run (andThen n w r k) = andThen n w (Unplaced r) (fun a => Run (k a)) := by
  cases r with
  | ok a => rfl
  | err e => simp only [andThen, Run, Unplaced, unplaced_attach]
  | crash => rfl

theorem run_seq {σ : Type} (r : RunRes σ) (k : World σ → RunRes σ) : Run (seq r k) = seq (Run r) (fun w => Run (k w)) := by
  cases r <;> rfl

theorem run_forEach {α : Type} (f g : α → World Str → RunRes Str) (l : List α) (h : ∀ a ∈ l, ∀ w, Run (f a w) = g a w) (w : World Str) :
    Run (forEach f l w) = forEach g l w := by
  induction l generalizing w with
  | nil => rfl
  | cons a l ih =>
    rw [forEach, forEach, run_seq, h a (by simp)]
    congr 1; funext w
    exact ih (fun a hm => h a (by simp [hm])) w

theorem write_plain (hs : cfg.sink = stringSink) (hne : src ≠ []) (name : Option Str) (f : Formatter) (v : Value) {sp : Span} (hsp : SpanIn src sp)
    (w : World Str) : Run (Spec.write cfg name f v src sp w) = write name f v w := by
  rw [Spec.write, write, hs]
  rcases (f v).run stringSink w.out with ⟨out, r⟩
  cases r with
  | ok u => rfl
  | error m => simp only [run_andThen, format_plain hne hsp]; rfl

theorem emitExpr_plain (hs : cfg.sink = stringSink) (hne : src ≠ []) (name : Option Str) {ρ ρ' : Scope} (h : Rel src ρ ρ') {e : Upon.Expr}
    (he : Spec.ExprIn src e) (w : World Str) :
    Run (Spec.emitExpr asBuilt cfg name src ρ e w) = emitExpr (ofCfg cfg tree) name ρ' (ofExpr src e) w := by
  match e with
  | .base b =>
    rw [Spec.emitExpr, run_andThen, evalExpr_plain (tree := tree) hne h he, ofExpr, emitExpr]
    · congr 1; funext v
      exact write_plain hs hne name _ _ (expr_span_in he) w
    · intros; contradiction
    · intros; contradiction
  | .call fn (some a) recv sp =>
    rw [Spec.emitExpr, run_andThen, evalExpr_plain (tree := tree) hne h he, ofExpr, emitExpr]
    · congr 1; funext v
      exact write_plain hs hne name _ _ (expr_span_in he) w
    · intro _ _ hc; cases hc
    · intro _ _ _ hc; cases hc
  | .call fn none recv sp =>
    rw [Spec.emitExpr, run_andThen, evalExpr_plain (tree := tree) hne h he.2.2.1, ofExpr, Option.map_none, emitExpr]
    congr 1; funext v
    simp only [text_in he.1, Res.ofOption, andThen]
    show _ = match BMap.get cfg.functions (textAt src fn.span) with
      | some (.formatter f) => _
      | some (.filter f) => _
      | none => _
    cases BMap.get cfg.functions (textAt src fn.span) with
    | none =>
      exact (run_andThen (α := Unit) name w _ _).trans (by rw [err_plain hne he.1]; rfl)
    | some f =>
      cases f with
      | formatter f => exact write_plain hs hne name _ _ he.1 w
      | filter f =>
        refine (run_andThen name w _ _).trans ?_
        rw [applyFilter_plain hne h f he.1 v (as := []) (by simp)]
        show andThen _ _ _ _ = andThen _ _ _ _
        congr 1; funext r
        exact write_plain hs hne name _ _ (expr_span_in he) w

theorem rounds_plain (hne : src ≠ []) {vs : LoopVars} (hv : VarsIn src vs) (c : Cow) {sp : Span} (hsp : SpanIn src sp) :
    Unplaced (Spec.rounds env src vs c sp) = rounds (ofVars src vs) c := by
  rw [Spec.rounds.eq_def, rounds.eq_def]
  cases vs with
  | item i =>
    have hi : SpanIn src i.span := hv
    cases hc : c.val <;> simp only [ofVars, text_in hi, Res.ofOption, Res.ok_bind, err_plain hne hi, err_plain hne hsp, unplaced_ok]
  | keyValue k v s =>
    have hi : SpanIn src k.span ∧ SpanIn src v.span ∧ SpanIn src s := hv
    cases hc : c.val <;> simp only [ofVars, text_in hi.1, text_in hi.2.1, Res.ofOption, Res.ok_bind, err_plain hne hi.2.2, err_plain hne hsp, unplaced_ok]

theorem rounds_rel {vs : Vars} {c : Cow} {bs : List Binding} (h : rounds vs c = .ok bs) {ρ ρ' : Scope} (hr : Rel src ρ ρ') :
    ∀ b ∈ bs, Rel src (b :: ρ) (b :: ρ') ∧ (Open ρ → Open (b :: ρ)) := by
  rw [rounds.eq_def] at h
  split at h
  · cases h
    intro b hb
    obtain ⟨j, hj⟩ := List.mem_iff_getElem?.mp hb
    rw [listRounds_get] at hj
    obtain ⟨x, _, rfl⟩ := Option.map_eq_some_iff.mp hj
    exact ⟨.item hr, .item⟩
  · cases h
  · cases h
    intro b hb
    obtain ⟨j, hj⟩ := List.mem_iff_getElem?.mp hb
    rw [mapRounds_get] at hj
    obtain ⟨x, _, rfl⟩ := Option.map_eq_some_iff.mp hj
    exact ⟨.entry hr, .entry⟩
  · cases h
  · cases h

theorem evalStmts_append (cfg : Cfg) (inc : Include) (name : Option Str) (ρ : Scope) (a b : List Stmt) (w : World Str) :
    evalStmts cfg inc name ρ (a ++ b) w = seq (evalStmts cfg inc name ρ a w) (evalStmts cfg inc name ρ b) := by
  induction a generalizing w with
  | nil => rw [List.nil_append, evalStmts.eq_1]; rfl
  | cons s a ih =>
    rw [List.cons_append, evalStmts, evalStmts]
    cases evalStmt cfg inc name ρ s w with
    | ok w => exact ih w
    | err e w => rfl
    | crash => rfl

theorem evalStmts_chars (cfg : Cfg) (inc : Include) (name : Option Str) (ρ : Scope) (t : Str) (w : World Str) :
    evalStmts cfg inc name ρ (t.map .char) w = .ok { w with out := w.out ++ t } := by
  induction t generalizing w with
  | nil => rw [List.map_nil, evalStmts]; simp
  | cons c t ih => rw [List.map_cons, evalStmts, evalStmt, seq, ih]; simp

theorem evalStmts_single (cfg : Cfg) (inc : Include) (name : Option Str) (ρ : Scope) (s : Stmt) (w : World Str) :
    evalStmts cfg inc name ρ [s] w = evalStmt cfg inc name ρ s w := by
  rw [evalStmts]
  cases evalStmt cfg inc name ρ s w <;> simp [seq, evalStmts]

section
variable {inc : Spec.Include Str} {inc' : Include}
  (hinc : ∀ n, SpanIn src n.span → ∀ name ρ ρ' w, Rel src ρ ρ' → Open ρ → Run (inc n src name ρ w) = inc' n.name name ρ' w)
  (hs : cfg.sink = stringSink) (hne : src ≠ [])
include hinc hs hne

mutual
theorem evalStmt_plain (name : Option Str) (s : Upon.Stmt) {ρ ρ' : Scope} (h : Rel src ρ ρ') (hi : StmtIn src s) (ht : TameStmt s)
    (hw : Open ρ ∨ ∀ n, ¬ Contains s n none) (w : World Str) :
    Run (Spec.evalStmt asBuilt cfg inc name src ρ s w) = evalStmts (ofCfg cfg tree) inc' name ρ' (ofStmt src s) w := by
  match s with
  | .raw sp =>
    rw [Spec.evalStmt, text_in hi, ofStmt, evalStmts_chars, hs]; rfl
  | .inlineExpr e sp => rw [Spec.evalStmt, ofStmt, evalStmts_single, evalStmt, emitExpr_plain (tree := tree) hs hne name h hi.1]
  | .include_ n none =>
    rw [Spec.evalStmt, ofStmt, evalStmts_single, evalStmt]
    refine hinc n hi _ _ _ _ h ?_
    rcases hw with h | h
    · exact h
    · exact absurd .here (h n)
  | .include_ n (some e) =>
    rw [Spec.evalStmt, ofStmt, evalStmts_single, evalStmt, run_andThen, evalExpr_plain (tree := tree) hne h hi.2]
    congr 1; funext v
    exact hinc n hi.1 _ _ _ _ (.globals .wall) (.globals .wall)
  | .ifElse neg cond thn none =>
    rw [Spec.evalStmt, ofStmt, evalStmts_single, evalStmt, run_andThen, evalExpr_plain (tree := tree) hne h hi.1]
    congr 1; funext v
    rw [← evalStmts_plain name thn h hi.2 ht (hw.imp id fun h n hc => h n (.thn hc)) w]
    split <;> rfl
  | .ifElse neg cond thn (some els) =>
    rw [Spec.evalStmt, ofStmt, evalStmts_single, evalStmt, run_andThen, evalExpr_plain (tree := tree) hne h hi.1]
    congr 1; funext v
    rw [← evalStmts_plain name thn h hi.2.1 ht.1 (hw.imp id fun h n hc => h n (.thn hc)) w]
    rw [← evalStmts_plain name els h hi.2.2 ht.2 (hw.imp id fun h n hc => h n (.els hc)) w]
    split <;> rfl
  | .forLoop vars e body =>
    rw [Spec.evalStmt, ofStmt, evalStmts_single, evalStmt, run_andThen, evalExpr_plain (tree := tree) hne h hi.2.1]
    congr 1; funext v
    rw [run_andThen, rounds_plain hne hi.1 v (expr_span_in hi.2.1)]
    cases hr : rounds (ofVars src vars) v with
    | err e => rfl
    | crash => rfl
    | ok bs =>
      refine run_forEach _ _ bs (fun b hb w => ?_) w
      obtain ⟨h1, h2⟩ := rounds_rel hr h b hb
      exact evalStmts_plain name body h1 hi.2.2 ht (hw.imp h2 fun h n hc => h n (.for_ hc)) w
  | .with_ e n body =>
    rw [Spec.evalStmt, ofStmt, evalStmts_single, evalStmt, run_andThen, evalExpr_plain (tree := tree) hne h hi.1]
    congr 1; funext v
    exact evalStmts_plain name body (.name (n := withName asBuilt src n) (text_in hi.2.1) h) hi.2.2 ht.1 (.inr ht.2) w
theorem evalStmts_plain (name : Option Str) (ss : List Upon.Stmt) {ρ ρ' : Scope} (h : Rel src ρ ρ') (hi : StmtsIn src ss) (ht : Tame ss)
    (hw : Open ρ ∨ ∀ n, ¬ ContainsAny ss n none) (w : World Str) :
    Run (Spec.evalStmts asBuilt cfg inc name src ρ ss w) = evalStmts (ofCfg cfg tree) inc' name ρ' (ofStmts src ss) w := by
  match ss with
  | [] => rw [Spec.evalStmts, ofStmts, evalStmts]; rfl
  | s :: ss =>
    rw [Spec.evalStmts, ofStmts, evalStmts_append, run_seq, evalStmt_plain name s h hi.1 ht.1 (hw.imp id fun h n hc => h n (.head hc)) w]
    congr 1; funext w
    exact evalStmts_plain name ss h hi.2 ht.2 (hw.imp id fun h n hc => h n (.tail hc)) w
end
end

/-- Trees of compiled templates, without a plain `include` inside `with`. -/
structure Fine (T : Tree) : Prop where
  inside : StmtsIn T.source T.body
  nonempty : T.source = [] → T.body = []
  tame : Tame T.body

theorem find_plain (hne : src ≠ []) {n : AstString} (hn : SpanIn src n.span) (w : World Str) :
    (∃ t, find cfg src n w = (asked (ofCfg cfg tree) n.name w, .ok t) ∧ Includable cfg t ∧
      (ofCfg cfg tree).find w.asked n.name = .ok (ofStmts (tree t).source (tree t).body)) ∨
    (∃ e m, find cfg src n w = (asked (ofCfg cfg tree) n.name w, .err e) ∧ unplaced e = ⟨.render, none, some m, none⟩ ∧
      (ofCfg cfg tree).find w.asked n.name = .error m) := by
  have he : ∀ m, ∃ e, (fault cfg.env m src n.span : Res Template) = .err e ∧ unplaced e = ⟨.render, none, some m, none⟩ := by
    intro m
    have := err_plain (α := Template) (env := cfg.env) hne hn m
    cases hr : (fault cfg.env m src n.span : Res Template) with
    | ok t => exact absurd hr errRender_ok
    | crash => rw [hr] at this; cases this
    | err e => rw [hr] at this; exact ⟨e, rfl, Res.err.inj this⟩
  cases hf : cfg.templateFn with
  | some f =>
    simp only [find, asked, ofCfg, hf, Option.isSome_some, if_true]
    cases hr : f w.asked n.name with
    | ok t => exact .inl ⟨t, rfl, by rw [Includable, hf]; exact ⟨_, _, hr⟩, rfl⟩
    | error m =>
      obtain ⟨e, h1, h2⟩ := he m
      exact .inr ⟨e, m, by simp only [h1], h2, rfl⟩
  | none =>
    simp only [find, asked, ofCfg, hf, Option.isSome_none]
    cases hr : BMap.get cfg.templates n.name with
    | some t => exact .inl ⟨t, rfl, by rw [Includable, hf]; exact ⟨_, hr⟩, rfl⟩
    | none =>
      obtain ⟨e, h1, h2⟩ := he "unknown template"
      exact .inr ⟨e, _, by simp only [h1]; rfl, h2, rfl⟩

theorem include_plain (hs : cfg.sink = stringSink) (hall : ∀ t, Includable cfg t → Fine (tree t)) (left : Nat) :
    ∀ {src : Str}, src ≠ [] → ∀ n, SpanIn src n.span → ∀ name ρ ρ' w, Rel src ρ ρ' → Open ρ →
      Run (Spec.include_ asBuilt cfg tree left n src name ρ w) = include_ (ofCfg cfg tree) left n.name name ρ' w := by
  induction left with
  | zero =>
    intro src hne n hn name ρ ρ' w h ho
    rw [Spec.include_, include_]
    rcases find_plain (cfg := cfg) (tree := tree) hne hn w with ⟨t, h1, _, h2⟩ | ⟨e, m, h1, h2, h3⟩
    · rw [h1, h2]; rfl
    · rw [h1, h3]
      simp only [Run, unplaced_attach, h2]
  | succ left ih =>
    intro src hne n hn name ρ ρ' w h ho
    rw [Spec.include_, include_]
    rcases find_plain (cfg := cfg) (tree := tree) hne hn w with ⟨t, h1, hi, h2⟩ | ⟨e, m, h1, h2, h3⟩
    · rw [h1, h2]
      dsimp only
      have hf := hall t hi
      by_cases h0 : (tree t).source = []
      · rw [hf.nonempty h0, Spec.evalStmts, ofStmts, evalStmts]; rfl
      · exact evalStmts_plain (ih h0) hs h0 (some n.name) _ (h.other ho _) hf.inside hf.tame (.inl ho) _
    · rw [h1, h3]
      simp only [Run, unplaced_attach, h2]

theorem render_plain (hs : cfg.sink = stringSink) (hall : ∀ t, Includable cfg t → Fine (tree t)) {T : Tree} (hT : Fine T)
    (name : Option Str) {b : Binding} (hb : (∃ c, b = .globals c) ∨ ∃ f, b = .provider f) (w : World Str) :
    Run (Spec.render asBuilt cfg tree T name [b] w) = render (ofCfg cfg tree) (ofStmts T.source T.body) name [b] w := by
  rw [Spec.render, render]
  have hr : ∀ src, Rel src [b] [b] ∧ Open [b] := by
    intro src
    rcases hb with ⟨c, rfl⟩ | ⟨f, rfl⟩
    · exact ⟨.globals .nil, .globals .nil⟩
    · exact ⟨.provider .nil, .provider .nil⟩
  by_cases h0 : T.source = []
  · rw [hT.nonempty h0, Spec.evalStmts, ofStmts, evalStmts]; rfl
  · exact evalStmts_plain (include_plain hs hall _ h0) hs h0 name _ (hr _).1 hT.inside hT.tame (.inl (hr []).2) w

end Plain
end Upon
