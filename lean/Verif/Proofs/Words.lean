import Verif.Spec.Plain
import Verif.Props.Parsing
/-
What a template spoken determines its tree up to byte ranges (for C44): the tree without byte ranges is a
function of the words.
-/
namespace Upon
open Spec

namespace Plain

/-! Read a tree off the words -/

def path : List Item → List ValueMember × List Item
  | .sign .dot :: .word .ident s :: ws => (⟨.direct, .key s⟩ :: (path ws).1, (path ws).2)
  | .sign .dot :: .word .index s :: ws => (⟨.direct, .index (decimal s)⟩ :: (path ws).1, (path ws).2)
  | .sign .questionDot :: .word .ident s :: ws => (⟨.optional, .key s⟩ :: (path ws).1, (path ws).2)
  | .sign .questionDot :: .word .index s :: ws => (⟨.optional, .index (decimal s)⟩ :: (path ws).1, (path ws).2)
  | ws => ([], ws)

open Classical in
noncomputable def number (env : Env) (raw : Str) (neg : Bool) : Option Value :=
  if h : ∃ v, NumLit env raw neg v then some h.choose else none

open Classical in
noncomputable def string (raw : Str) : Option Str :=
  if h : ∃ v, StrLit raw v then some h.choose else none

noncomputable def base (env : Env) : List Item → Option (Base × List Item)
  | .word .keyword s :: ws =>
    if s = "true".toList then some (.lit (.bool true), ws)
    else if s = "false".toList then some (.lit (.bool false), ws) else none
  | .word .number s :: ws => (number env s false).map fun v => (.lit v, ws)
  | .sign .plus :: .word .number s :: ws => (number env s false).map fun v => (.lit v, ws)
  | .sign .minus :: .word .number s :: ws => (number env s true).map fun v => (.lit v, ws)
  | .word .string s :: ws => (string s).map fun v => (.lit (.string v), ws)
  | .word .ident s :: ws => some (.var s ⟨.direct, .key s⟩ (path ws).1, (path ws).2)
  | _ => none

noncomputable def args (env : Env) : Nat → List Item → Option (List Base × List Item)
  | 0, _ => none
  | n + 1, ws =>
    match base env ws with
    | some (b, .sign .comma :: r) => (args env n r).map fun p => (b :: p.1, p.2)
    | some (b, r) => some ([b], r)
    | none => none

noncomputable def calls (env : Env) : Nat → Expr → List Item → Option (Expr × List Item)
  | 0, _, _ => none
  | n + 1, e, .sign .pipe :: .word .ident s :: .sign .colon :: r =>
    match args env n r with
    | some (as, r) => calls env n (.call s (some as) e) r
    | none => none
  | n + 1, e, .sign .pipe :: .word .ident s :: r => calls env n (.call s none e) r
  | _, e, ws => some (e, ws)

noncomputable def expr (env : Env) (n : Nat) (ws : List Item) : Option (Expr × List Item) :=
  match base env ws with
  | some (b, r) => calls env n (.base b) r
  | none => none

noncomputable def cond (env : Env) (n : Nat) : List Item → Option (Bool × Expr × List Item)
  | .word .keyword s :: r =>
    if s = "not".toList then (expr env n r).map fun p => (true, p)
    else (expr env n (.word .keyword s :: r)).map fun p => (false, p)
  | ws => (expr env n ws).map fun p => (false, p)

/-- The rest after the word. -/
def skip (w : Item) : List Item → Option (List Item)
  | x :: r => if x = w then some r else none
  | [] => none

/-- The rest after `{% kw %}`. -/
def closing (kw : String) : List Item → Option (List Item)
  | .sign .beginBlock :: .word .keyword s :: .sign .endBlock :: r => if s = kw.toList then some r else none
  | _ => none

def vars : List Item → Option (Vars × List Item)
  | .word .ident k :: .sign .comma :: .word .ident v :: r => some (.keyValue k v, r)
  | .word .ident k :: r => some (.item k, r)
  | _ => none

mutual
noncomputable def stmts (env : Env) : Nat → List Item → Option (List Stmt × List Item)
  | 0, _ => none
  | n + 1, .char c :: r => do
    let (ss, r) ← stmts env n r
    some (.char c :: ss, r)
  | n + 1, .sign .beginExpr :: r => do
    let (e, r) ← expr env n r
    let r ← skip (.sign .endExpr) r
    let (ss, r) ← stmts env n r
    some (.expr e :: ss, r)
  | n + 1, .sign .beginBlock :: .word .keyword k :: r =>
    if k = "include".toList then
      match r with
      | .word .string s :: .word .keyword _ :: r => do
        let name ← string s
        let (e, r) ← expr env n r
        let r ← skip (.sign .endBlock) r
        let (ss, r) ← stmts env n r
        some (.include_ name (some e) :: ss, r)
      | .word .string s :: r => do
        let name ← string s
        let r ← skip (.sign .endBlock) r
        let (ss, r) ← stmts env n r
        some (.include_ name none :: ss, r)
      | _ => none
    else if k = "for".toList then do
      let (v, r) ← vars r
      let r ← skip (.word .keyword "in".toList) r
      let (e, r) ← expr env n r
      let r ← skip (.sign .endBlock) r
      let (b, r) ← stmts env n r
      let r ← closing "endfor" r
      let (ss, r) ← stmts env n r
      some (.forLoop v e b :: ss, r)
    else if k = "with".toList then do
      let (e, r) ← expr env n r
      let r ← skip (.word .keyword "as".toList) r
      match r with
      | .word .ident s :: r => do
        let r ← skip (.sign .endBlock) r
        let (b, r) ← stmts env n r
        let r ← closing "endwith" r
        let (ss, r) ← stmts env n r
        some (.with_ e s b :: ss, r)
      | _ => none
    else if k = "if".toList then do
      let (neg, e, r) ← cond env n r
      let r ← skip (.sign .endBlock) r
      let (t, r) ← stmts env n r
      let (els, r) ← elses env n r
      let (ss, r) ← stmts env n r
      some (.ifElse neg e t els :: ss, r)
    else some ([], .sign .beginBlock :: .word .keyword k :: r)
  | _, r => some ([], r)
noncomputable def elses (env : Env) : Nat → List Item → Option (Option (List Stmt) × List Item)
  | 0, _ => none
  | n + 1, .sign .beginBlock :: .word .keyword k :: r =>
    if k = "endif".toList then do
      let r ← skip (.sign .endBlock) r
      some (none, r)
    else if k = "else".toList then
      match r with
      | .word .keyword _ :: r => do
        let (neg, e, r) ← cond env n r
        let r ← skip (.sign .endBlock) r
        let (t, r) ← stmts env n r
        let (els, r) ← elses env n r
        some (some [.ifElse neg e t els], r)
      | r => do
        let r ← skip (.sign .endBlock) r
        let (b, r) ← stmts env n r
        let r ← closing "endif" r
        some (some b, r)
    else none
  | _, _ => none
end

variable {env : Env} {src : Str}

/-! The words of a tree of the grammar -/

/-- What tokens inside a tag say. -/
def spoken (src : Str) (ts : List Tok) : List Item := ts.flatMap (saying src)

@[simp] theorem spoken_nil : spoken src [] = [] := rfl
@[simp] theorem spoken_cons (t : Tok) (ts : List Tok) : spoken src (t :: ts) = saying src t ++ spoken src ts := rfl
@[simp] theorem spoken_append (a b : List Tok) : spoken src (a ++ b) = spoken src a ++ spoken src b := List.flatMap_append

theorem textAt_of {sp : Span} {s : Str} (h : sp.of src = some s) : textAt src sp = s := by rw [textAt, h]; rfl

theorem path_words {ts : List Tok} {ms : List Member} (h : GPath env src ts ms) : WPath env (spoken src ts) (ms.map (ofMember src)) := by
  induction h with
  | nil => exact .nil
  | key ho _ ih => rcases ho with ⟨rfl, rfl⟩ | ⟨rfl, rfl⟩ <;> exact .key (by simp) ih
  | index ho hs hd _ ih =>
    rcases ho with ⟨rfl, rfl⟩ | ⟨rfl, rfl⟩ <;>
      simp only [spoken_cons, saying, textAt_of hs, List.map_cons] <;> exact .index (by simp) hd ih

theorem base_words {ts : List Tok} {b : BaseExpr} (h : GBase env src ts b) : WBase env (spoken src ts) (ofBase src b) := by
  cases h with
  | true_ h => simp only [spoken_cons, saying, textAt_of h.2]; exact .true_
  | false_ h => simp only [spoken_cons, saying, textAt_of h.2]; exact .false_
  | number h1 h2 => simp only [spoken_cons, saying, textAt_of h1]; exact .number h2
  | plus h1 h2 => simp only [spoken_cons, saying, textAt_of h1]; exact .plus h2
  | minus h1 h2 => simp only [spoken_cons, saying, textAt_of h1]; exact .minus h2
  | string h1 h2 => simp only [spoken_cons, saying, textAt_of h1]; exact .string h2
  | var h => exact .var (path_words h)

theorem args_words {ts : List Tok} {es : List BaseExpr} (h : GArgs env src ts es) : WArgs env (spoken src ts) (es.map (ofBase src)) := by
  induction h with
  | one h => exact .one (base_words h)
  | more h _ ih => simp only [spoken_append, spoken_cons, saying]; exact .more (base_words h) ih

theorem calls_words {e e' : Upon.Expr} {ts : List Tok} (h : GCalls env src e ts e') :
    WCalls env (ofExpr src e) (spoken src ts) (ofExpr src e') := by
  induction h with
  | nil => exact .nil
  | call h ih => exact .call ih
  | callArgs ha h ih => simp only [spoken_cons, spoken_append, saying, List.cons_append, List.nil_append]; exact .callArgs (args_words ha) ih

theorem expr_words {ts : List Tok} {e : Upon.Expr} (h : GExpr env src ts e) : WExpr env (spoken src ts) (ofExpr src e) := by
  obtain ⟨us, b, vs, rfl, h1, h2⟩ := h
  exact ⟨_, _, _, spoken_append _ _, base_words h1, calls_words h2⟩

theorem cond_words {ts : List Tok} {neg : Bool} {e : Upon.Expr} (h : GCond env src ts neg e) :
    WCond env (spoken src ts) neg (ofExpr src e) := by
  cases h with
  | plain h => exact .plain (expr_words h)
  | not h1 h2 => simp only [spoken_cons, saying, textAt_of h1.2]; exact .not (expr_words h2)

theorem vars_words {ts : List Tok} {v : LoopVars} (h : GVars ts v) : WVars (spoken src ts) (ofVars src v) := by
  cases h with
  | item => exact .item
  | keyValue => exact .keyValue

theorem words_eq (ts : List Tok) : words src ts = spoken src (stripComments ts) := by
  fun_induction stripComments ts with
  | case1 _ _ _ ts ih => rw [words, ih]
  | case2 t ts h ih => rw [words, ih]; rfl; exact h
  | case3 => rfl

theorem words_tag {w : String} {us tg : List Tok} (h : GTag src w us tg) (hp : Plain us) (ts : List Tok) :
    words src (tg ++ ts) = tag w (spoken src us) ++ words src ts := by
  rw [words_eq, strip_tag h hp, spoken_append, ← words_eq]
  cases h with
  | mk h => simp [tag, saying, textAt_of h.2]

theorem words_tag' {w : String} {us tg : List Tok} (h : GTag src w us tg) (hp : Plain us) : words src tg = tag w (spoken src us) := by
  have := words_tag h hp []
  simpa [words] using this

theorem words_stmts {ts : List Tok} {ss : List Upon.Stmt} (h : GStmts env src ts ss) (rest : List Tok) :
    words src (ts ++ rest) = words src ts ++ words src rest := by
  rw [words_eq, (gstmts_strip h).2, spoken_append, ← words_eq, ← words_eq]

theorem words_else {ts : List Tok} {els : Option (List Upon.Stmt)} (h : GElse env src ts els) (rest : List Tok) :
    words src (ts ++ rest) = words src ts ++ words src rest := by
  rw [words_eq, (gelse_strip h).2, spoken_append, ← words_eq, ← words_eq]

theorem words_expr {us : List Tok} (h : Plain us) (b e : Span) (ts : List Tok) :
    words src ((.beginExpr, b) :: (us ++ (.endExpr, e) :: ts)) = .sign .beginExpr :: (spoken src us ++ .sign .endExpr :: words src ts) := by
  rw [words_eq, strip_cons (by simp), strip_plain h, strip_cons (by simp), words_eq]
  simp [saying]

theorem words_raw (sp : Span) (ts : List Tok) : words src ((.raw, sp) :: ts) = (textAt src sp).map .char ++ words src ts := by
  rw [words]; rfl; simp

theorem wchars (s : Str) {ws : List Item} {ss : List Stmt} (h : WStmts env ws ss) :
    WStmts env (s.map .char ++ ws) (s.map .char ++ ss) := by
  induction s with
  | nil => exact h
  | cons c s ih => exact .char ih

mutual
theorem stmts_words {ts : List Tok} {ss : List Upon.Stmt} (h : GStmts env src ts ss) : WStmts env (words src ts) (ofStmts src ss) := by
  match h with
  | .nil => exact .nil
  | .raw h => rw [words_raw, ofStmts, ofStmt]; exact wchars _ (stmts_words h)
  | .comment h => rw [words]; exact stmts_words h
  | .expr h1 h2 => rw [words_expr (gexpr_plain h1)]; exact .expr (expr_words h1) (stmts_words h2)
  | .include_ t h1 h2 h3 =>
    rw [words_tag t (.cons rfl rfl .nil)]
    simp only [spoken_cons, spoken_nil, saying, List.append_nil, textAt_of h1]
    exact .include_ h2 (stmts_words h3)
  | .includeWith t h1 h2 h3 h4 h5 =>
    rw [words_tag t (.cons rfl rfl (.cons rfl rfl (gexpr_plain h4)))]
    simp only [spoken_cons, saying, textAt_of h1, textAt_of h3.2]
    exact .includeWith h2 (expr_words h4) (stmts_words h5)
  | .for_ (isp := isp) t1 h1 h2 h3 h4 t2 h5 =>
    simp only [List.append_assoc]
    rw [words_tag t1 ((gvars_plain h1).append (.cons (t := (.keyword, isp)) rfl rfl (gexpr_plain h3))), words_stmts h4, words_tag t2 .nil]
    simp only [spoken_append, spoken_cons, saying, textAt_of h2.2]
    exact .for_ (vars_words h1) (expr_words h3) (stmts_words h4) (stmts_words h5)
  | .with_ (asp := asp) (nsp := nsp) t1 h1 h2 h4 t2 h5 =>
    simp only [List.append_assoc]
    rw [words_tag t1 ((gexpr_plain h1).append (.cons (t := (.keyword, asp)) rfl rfl (.cons (t := (.ident, nsp)) rfl rfl .nil))),
      words_stmts h4, words_tag t2 .nil]
    simp only [spoken_append, spoken_cons, saying, textAt_of h2.2]
    exact .with_ (expr_words h1) (stmts_words h4) (stmts_words h5)
  | .if_ (els := els) t1 h1 h2 h3 h4 =>
    simp only [List.append_assoc]
    rw [words_tag t1 (gcond_plain h1), words_stmts h2, words_else h3]
    have := WStmts.if_ (cond_words h1) (stmts_words h2) (elses_words h3) (stmts_words h4)
    cases els <;> exact this
theorem elses_words {ts : List Tok} {els : Option (List Upon.Stmt)} (h : GElse env src ts els) :
    WElse env (words src ts) (els.map (ofStmts src)) := by
  match h with
  | .endif t => rw [words_tag' t .nil]; exact .endif
  | .else_ t1 h1 t2 =>
    simp only [List.append_assoc]
    rw [words_tag t1 .nil, words_stmts h1, words_tag' t2 .nil]
    exact .else_ (stmts_words h1)
  | .elseIf (els := els) t1 h1 h2 h3 h4 =>
    simp only [List.append_assoc]
    rw [words_tag t1 (.cons rfl rfl (gcond_plain h2)), words_stmts h3]
    simp only [spoken_cons, saying, textAt_of h1.2]
    have := WElse.elseIf (cond_words h2) (stmts_words h3) (elses_words h4)
    cases els <;> exact this
end

/-! The grammar on words is unambiguous: its trees are read off correctly -/

theorem unescaped_unique {s t u : Str} (h1 : Unescaped s t) (h2 : Unescaped s u) : t = u := by
  induction h1 generalizing u with
  | nil => cases h2; rfl
  | char h h' _ ih =>
    cases h2 with
    | char _ _ h2 => rw [ih h2]
    | esc => exact absurd rfl h
    | stray => exact absurd rfl h'
  | esc h _ ih =>
    cases h2 with
    | char h => exact absurd rfl h
    | esc h' h2 => rw [ih h2, Option.some.inj (h.symm.trans h')]
  | stray _ ih =>
    cases h2 with
    | char _ h => exact absurd rfl h
    | stray h2 => rw [ih h2]

theorem strLit_unique {raw s t : Str} (h1 : StrLit raw s) (h2 : StrLit raw t) : s = t := by
  obtain ⟨b, e, h1⟩ := h1
  obtain ⟨b', e', h2⟩ := h2
  rw [e] at e'
  have := List.append_cancel_right (List.cons.inj e').2
  subst this
  exact unescaped_unique h1 h2

theorem number_of {raw : Str} {neg : Bool} {v : Value} (h : NumLit env raw neg v) : number env raw neg = some v := by
  have hx : ∃ v, NumLit env raw neg v := ⟨v, h⟩
  rw [number, dif_pos hx, Parser.numLit_unique hx.choose_spec h]

theorem string_of {raw v : Str} (h : StrLit raw v) : string raw = some v := by
  have hx : ∃ v, StrLit raw v := ⟨v, h⟩
  rw [string, dif_pos hx, strLit_unique hx.choose_spec h]

/-- Words after which a path has ended. -/
def PathEnd : List Item → Prop
  | .sign .dot :: _ => False
  | .sign .questionDot :: _ => False
  | _ => True

theorem path_end {ws : List Item} (h : PathEnd ws) : path ws = ([], ws) := by
  rw [path.eq_def]
  split <;> first | rfl | exact absurd h id

theorem path_of {ws : List Item} {ms : List ValueMember} (h : WPath env ws ms) {rest : List Item} (hr : PathEnd rest) :
    path (ws ++ rest) = (ms, rest) := by
  induction h with
  | nil => exact path_end hr
  | key ho _ ih => rcases ho with ⟨rfl, rfl⟩ | ⟨rfl, rfl⟩ <;> simp only [List.cons_append, path, ih]
  | index ho hs _ ih => rcases ho with ⟨rfl, rfl⟩ | ⟨rfl, rfl⟩ <;> simp only [List.cons_append, path, ih]

theorem base_of {ws : List Item} {b : Base} (h : WBase env ws b) {rest : List Item} (hr : PathEnd rest) :
    base env (ws ++ rest) = some (b, rest) := by
  cases h with
  | true_ => simp only [List.cons_append, List.nil_append, base, if_true]
  | false_ =>
    simp only [List.cons_append, List.nil_append, base]
    rw [if_neg (by decide), if_pos trivial]
  | number h => simp only [List.cons_append, List.nil_append, base, number_of h]; rfl
  | plus h => simp only [List.cons_append, List.nil_append, base, number_of h]; rfl
  | minus h => simp only [List.cons_append, List.nil_append, base, number_of h]; rfl
  | string h => simp only [List.cons_append, List.nil_append, base, string_of h]; rfl
  | var h => simp only [List.cons_append, base, path_of h hr]

/-- Words after which arguments have ended. -/
def ArgsEnd : List Item → Prop
  | .sign .comma :: _ => False
  | _ => True

theorem args_of {ws : List Item} {bs : List Base} (h : WArgs env ws bs) {rest : List Item} (hr : PathEnd rest)
    (ha : ArgsEnd rest) : ∀ n, ws.length < n → args env n (ws ++ rest) = some (bs, rest) := by
  induction h with
  | one h =>
    intro n hn
    obtain ⟨n, rfl⟩ : ∃ m, n = m + 1 := ⟨n - 1, by omega⟩
    rw [args, base_of h hr]
    split
    · rename_i e; cases e; exact absurd ha id
    · rename_i e; cases e; rfl
    · rename_i e; cases e
  | @more ws b us bs h _ ih =>
    intro n hn
    obtain ⟨n, rfl⟩ : ∃ m, n = m + 1 := ⟨n - 1, by omega⟩
    simp only [List.append_assoc, List.cons_append]
    rw [args, base_of h (rest := .sign .comma :: (us ++ rest)) trivial]
    dsimp only
    rw [ih n (by simp at hn; omega)]
    rfl

/-- Words after which an expression has ended. -/
def ExprEnd : List Item → Prop
  | .sign .dot :: _ => False
  | .sign .questionDot :: _ => False
  | .sign .comma :: _ => False
  | .sign .pipe :: _ => False
  | .sign .colon :: _ => False
  | _ => True

theorem ExprEnd.path {ws : List Item} (h : ExprEnd ws) : PathEnd ws := by
  unfold PathEnd; split <;> first | exact h | trivial

theorem ExprEnd.args {ws : List Item} (h : ExprEnd ws) : ArgsEnd ws := by
  unfold ArgsEnd; split <;> first | exact h | trivial

theorem calls_end {ws : List Item} (h : ExprEnd ws) (n : Nat) (e : Expr) : calls env (n + 1) e ws = some (e, ws) := by
  rw [calls.eq_def]
  split
  · rename_i h0; cases h0
  · exact absurd h id
  · exact absurd h id
  · rfl

/-- What follows a base expression in an expression. -/
theorem calls_start {e e' : Expr} {ws : List Item} (h : WCalls env e ws e') {rest : List Item} (hr : ExprEnd rest) :
    PathEnd (ws ++ rest) ∧ ArgsEnd (ws ++ rest) ∧ ∀ r, ws ++ rest ≠ .sign .colon :: r := by
  cases h with
  | nil =>
    refine ⟨hr.path, hr.args, ?_⟩
    rintro r rfl
    exact hr
  | call => exact ⟨trivial, trivial, by intro r h; simp at h⟩
  | callArgs => exact ⟨trivial, trivial, by intro r h; simp at h⟩

theorem calls_none {n : Nat} {e : Expr} {s : Str} {r : List Item} (h : ∀ x, r ≠ .sign .colon :: x) :
    calls env (n + 1) e (.sign .pipe :: .word .ident s :: r) = calls env n (.call s none e) r := by
  rw [calls.eq_def]
  split
  · rename_i h0; cases h0
  · rename_i h0 h1
    simp only [List.cons.injEq, true_and] at h1
    exact absurd h1.2 (h _)
  · rename_i h0 h1
    cases h0
    cases h1
    rfl
  · rename_i h0; exact absurd rfl (h0 _ _ _ rfl)

theorem calls_of {e e' : Expr} {ws : List Item} (h : WCalls env e ws e') {rest : List Item} (hr : ExprEnd rest) :
    ∀ n, ws.length < n → calls env n e (ws ++ rest) = some (e', rest) := by
  induction h with
  | nil =>
    intro n hn
    obtain ⟨n, rfl⟩ : ∃ m, n = m + 1 := ⟨n - 1, by omega⟩
    exact calls_end hr n _
  | call h ih =>
    intro n hn
    obtain ⟨n, rfl⟩ : ∃ m, n = m + 1 := ⟨n - 1, by omega⟩
    simp only [List.cons_append]
    rw [calls_none (calls_start h hr).2.2]
    exact ih n (by simp at hn; omega)
  | callArgs ha h ih =>
    intro n hn
    obtain ⟨n, rfl⟩ : ∃ m, n = m + 1 := ⟨n - 1, by omega⟩
    simp only [List.cons_append, List.append_assoc]
    rw [calls, args_of ha (calls_start h hr).1 (calls_start h hr).2.1 n (by simp at hn; omega)]
    exact ih n (by simp at hn; omega)

theorem expr_of {ws : List Item} {e : Expr} (h : WExpr env ws e) {rest : List Item} (hr : ExprEnd rest)
    (n : Nat) (hn : ws.length < n) : expr env n (ws ++ rest) = some (e, rest) := by
  obtain ⟨us, b, vs, rfl, h1, h2⟩ := h
  rw [expr, List.append_assoc, base_of h1 (calls_start h2 hr).1]
  exact calls_of h2 hr n (by simp at hn; omega)

theorem cond_of {ws : List Item} {neg : Bool} {e : Expr} (h : WCond env ws neg e) {rest : List Item} (hr : ExprEnd rest)
    (n : Nat) (hn : ws.length < n) : cond env n (ws ++ rest) = some (neg, e, rest) := by
  cases h with
  | plain h =>
    have he := expr_of h hr n hn
    rw [cond.eq_def]
    split
    · rename_i s r e
      rw [if_neg, ← e, he]
      · rfl
      · rintro rfl
        rw [e, expr] at he
        simp only [base] at he
        rw [if_neg (by decide), if_neg (by decide)] at he
        cases he
    · rw [he]; rfl
  | not h2 =>
    simp only [List.cons_append, cond, if_true]
    rw [expr_of h2 hr n (by simp at hn; omega)]
    rfl

theorem vars_of {ws : List Item} {v : Vars} (h : WVars ws v) {rest : List Item} (hr : ExprEnd rest) :
    vars (ws ++ rest) = some (v, rest) := by
  cases h with
  | item =>
    simp only [List.cons_append, List.nil_append]
    rw [vars.eq_def]
    split
    · rename_i e
      simp only [List.cons.injEq] at e
      rw [e.2] at hr
      exact absurd hr id
    · rename_i e; cases e; rfl
    · rename_i h1 h2; exact (h2 _ _ rfl).elim
  | keyValue => simp only [List.cons_append, List.nil_append, vars]

/-- Words after which statements have ended. -/
def StmtsEnd : List Item → Prop
  | [] => True
  | .sign .beginBlock :: .word .keyword k :: _ => k ≠ "include".toList ∧ k ≠ "for".toList ∧ k ≠ "with".toList ∧ k ≠ "if".toList
  | _ => False

theorem stmts_end {r : List Item} (h : StmtsEnd r) (n : Nat) : stmts env (n + 1) r = some ([], r) := by
  match r, h with
  | [], _ => rw [stmts.eq_def]
  | .sign .beginBlock :: .word .keyword k :: _, h =>
    rw [stmts.eq_def]
    dsimp only
    rw [if_neg h.1, if_neg h.2.1, if_neg h.2.2.1, if_neg h.2.2.2]

theorem skip_of (w : Item) (r : List Item) : skip w (w :: r) = some r := by rw [skip, if_pos rfl]

/-- A closing tag. -/
theorem closing_of (w : String) (rest : List Item) : closing w (tag w [] ++ rest) = some rest := by
  simp only [tag, List.nil_append, List.cons_append, closing, if_true]

theorem end_of_else {ws : List Item} {els : Option (List Stmt)} (h : WElse env ws els) (rest : List Item) : StmtsEnd (ws ++ rest) := by
  cases h with
  | endif => exact ⟨by decide, by decide, by decide, by decide⟩
  | else_ => exact ⟨by decide, by decide, by decide, by decide⟩
  | elseIf => exact ⟨by decide, by decide, by decide, by decide⟩

theorem tag_append (w : String) (us ws : List Item) :
    tag w us ++ ws = .sign .beginBlock :: .word .keyword w.toList :: (us ++ .sign .endBlock :: ws) := by simp [tag]

theorem tag_length (w : String) (us : List Item) : (tag w us).length = us.length + 3 := by simp [tag]

mutual
theorem stmts_of {ws : List Item} {ss : List Stmt} (h : WStmts env ws ss) {rest : List Item} (hr : StmtsEnd rest) (n : Nat)
    (hn : ws.length < n) : stmts env n (ws ++ rest) = some (ss, rest) := by
  obtain ⟨n, rfl⟩ : ∃ m, n = m + 1 := ⟨n - 1, by omega⟩
  match h with
  | .nil => exact stmts_end hr n
  | .char h =>
    simp only [List.length_cons] at hn
    rw [List.cons_append, stmts, stmts_of h hr n (by omega)]
    rfl
  | .expr (ws := ws) h1 h2 =>
    simp only [List.length_append, List.length_cons] at hn
    simp only [List.cons_append, List.append_assoc]
    rw [stmts, expr_of h1 (rest := .sign .endExpr :: (ws ++ rest)) trivial n (by omega)]
    simp only [Option.bind_eq_bind, Option.bind_some, skip_of, stmts_of h2 hr n (by omega)]
  | .include_ h2 h3 =>
    simp only [List.length_append, tag_length] at hn
    rw [stmts.eq_def]
    simp only [List.append_assoc]
    rw [tag_append "include"]
    simp only [List.cons_append, List.nil_append, List.append_assoc, if_true,
      string_of h2, Option.bind_eq_bind, Option.bind_some, skip_of, stmts_of h3 hr n (by omega)]
  | .includeWith (ws := ws) h2 h4 h5 =>
    simp only [List.length_append, tag_length, List.length_cons] at hn
    rw [stmts.eq_def]
    simp only [List.append_assoc]
    rw [tag_append "include"]
    simp only [List.cons_append, List.nil_append, List.append_assoc, if_true,
      string_of h2, Option.bind_eq_bind, Option.bind_some]
    rw [expr_of h4 (rest := .sign .endBlock :: (ws ++ rest)) trivial n (by omega)]
    simp only [Option.bind_some, skip_of, stmts_of h5 hr n (by omega)]
  | .for_ (is := is) (body := body) (ws := ws) h1 h3 h4 h5 =>
    simp only [List.length_append, tag_length, List.length_cons] at hn
    rw [stmts.eq_def]
    simp only [List.append_assoc]
    rw [tag_append "for"]
    simp only [List.cons_append, List.nil_append, List.append_assoc, if_true]
    rw [if_neg (by decide), vars_of h1 (rest := .word .keyword "in".toList :: (is ++ .sign .endBlock :: (body ++ (tag "endfor" [] ++ (ws ++ rest))))) trivial]
    simp only [Option.bind_eq_bind, Option.bind_some, skip_of]
    rw [expr_of h3 (rest := .sign .endBlock :: (body ++ (tag "endfor" [] ++ (ws ++ rest)))) trivial n (by omega)]
    simp only [Option.bind_some, skip_of]
    rw [stmts_of h4 (rest := tag "endfor" [] ++ (ws ++ rest)) ⟨by decide, by decide, by decide, by decide⟩ n (by omega)]
    simp only [Option.bind_some, closing_of, stmts_of h5 hr n (by omega)]
  | .with_ (is := is) (s := s) (body := body) (ws := ws) h1 h4 h5 =>
    simp only [List.length_append, tag_length, List.length_cons] at hn
    rw [stmts.eq_def]
    simp only [List.append_assoc]
    rw [tag_append "with"]
    simp only [List.cons_append, List.nil_append, List.append_assoc, if_true]
    rw [if_neg (by decide), if_neg (by decide),
      expr_of h1 (rest := .word .keyword "as".toList :: .word .ident s :: .sign .endBlock :: (body ++ (tag "endwith" [] ++ (ws ++ rest)))) trivial n (by omega)]
    simp only [Option.bind_eq_bind, Option.bind_some, skip_of]
    rw [stmts_of h4 (rest := tag "endwith" [] ++ (ws ++ rest)) ⟨by decide, by decide, by decide, by decide⟩ n (by omega)]
    simp only [Option.bind_some, closing_of, stmts_of h5 hr n (by omega)]
  | .if_ (body := body) (tail := tail) (ws := ws) h1 h2 h3 h4 =>
    simp only [List.length_append, tag_length, List.length_cons] at hn
    rw [stmts.eq_def]
    simp only [List.append_assoc]
    rw [tag_append "if"]
    simp only [List.cons_append, List.nil_append, List.append_assoc, if_true]
    rw [if_neg (by decide), if_neg (by decide), if_neg (by decide),
      cond_of h1 (rest := .sign .endBlock :: (body ++ (tail ++ (ws ++ rest)))) trivial n (by omega)]
    simp only [Option.bind_eq_bind, Option.bind_some, skip_of]
    rw [stmts_of h2 (end_of_else h3 (ws ++ rest)) n (by omega)]
    simp only [Option.bind_some]
    rw [elses_of h3 (ws ++ rest) n (by omega)]
    simp only [Option.bind_some, stmts_of h4 hr n (by omega)]
theorem elses_of {ws : List Item} {els : Option (List Stmt)} (h : WElse env ws els) (rest : List Item) (n : Nat)
    (hn : ws.length < n) : elses env n (ws ++ rest) = some (els, rest) := by
  obtain ⟨n, rfl⟩ : ∃ m, n = m + 1 := ⟨n - 1, by omega⟩
  match h with
  | .endif =>
    rw [elses.eq_def]
    simp only [tag, List.nil_append, List.cons_append, if_true, skip_of, Option.bind_eq_bind, Option.bind_some]
  | .else_ (body := body) h1 =>
    simp only [List.length_append, tag_length, List.length_cons] at hn
    rw [elses.eq_def]
    simp only [List.append_assoc]
    rw [tag_append "else"]
    simp only [List.cons_append, List.append_assoc, if_true, List.nil_append]
    rw [if_neg (by decide)]
    simp only [skip_of, Option.bind_eq_bind, Option.bind_some]
    rw [stmts_of h1 (rest := tag "endif" [] ++ rest) ⟨by decide, by decide, by decide, by decide⟩ n (by omega)]
    simp only [Option.bind_some, closing_of]
  | .elseIf (body := body) (tail := tail) h2 h3 h4 =>
    simp only [List.length_append, tag_length, List.length_cons] at hn
    rw [elses.eq_def]
    simp only [List.append_assoc]
    rw [tag_append "else"]
    simp only [List.cons_append, List.append_assoc, if_true, List.nil_append]
    rw [if_neg (by decide), cond_of h2 (rest := .sign .endBlock :: (body ++ (tail ++ rest))) trivial n (by omega)]
    simp only [skip_of, Option.bind_eq_bind, Option.bind_some]
    rw [stmts_of h3 (end_of_else h4 rest) n (by omega)]
    simp only [Option.bind_some]
    rw [elses_of h4 rest n (by omega)]
    rfl
end

theorem stmts_unique {ws : List Item} {a b : List Stmt} (h : WStmts env ws a) (h' : WStmts env ws b) : a = b := by
  have x := stmts_of h (rest := []) trivial (ws.length + 1) (by omega)
  have y := stmts_of h' (rest := []) trivial (ws.length + 1) (by omega)
  rw [x] at y
  simpa using y

/-- The tree without byte ranges is a function of the words. -/
theorem same_tree {env : Env} {src src' : Str} {ts ts' : List Tok} {ss ss' : List Upon.Stmt} (h : GStmts env src ts ss)
    (h' : GStmts env src' ts' ss') (e : words src ts = words src' ts') : ofStmts src ss = ofStmts src' ss' :=
  stmts_unique (e ▸ stmts_words h) (stmts_words h')

/-! Trees one after the other -/

theorem wappend {ws : List Item} {a : List Stmt} (h : WStmts env ws a) {us : List Item} {b : List Stmt} (h' : WStmts env us b) :
    WStmts env (ws ++ us) (a ++ b) := by
  match h with
  | .nil => exact h'
  | .char h => exact .char (wappend h h')
  | .expr h1 h2 => simp only [List.cons_append, List.append_assoc]; exact .expr h1 (wappend h2 h')
  | .include_ h1 h2 => simp only [List.cons_append, List.append_assoc]; exact .include_ h1 (wappend h2 h')
  | .includeWith h1 h2 h3 => simp only [List.cons_append, List.append_assoc]; exact .includeWith h1 h2 (wappend h3 h')
  | .for_ h1 h2 h3 h4 => simp only [List.cons_append, List.append_assoc]; exact .for_ h1 h2 h3 (wappend h4 h')
  | .with_ h1 h2 h3 => simp only [List.cons_append, List.append_assoc]; exact .with_ h1 h2 (wappend h3 h')
  | .if_ h1 h2 h3 h4 => simp only [List.cons_append, List.append_assoc]; exact .if_ h1 h2 h3 (wappend h4 h')

end Plain
end Upon
