import Verif.Spec.Rendering
import Verif.Spec.InSource
/-
Vocabulary for where errors come from (C14, C35, C36).
-/
namespace Upon.Spec
variable {σ : Type}

/-- An error about a place in the source `src`; it names no template yet. -/
structure AboutSource (env : Env) (src : Str) (e : Err) : Prop where
  unnamed : e.name = none
  located : ∃ sp t p, sp.of src = some t ∧ Pretty.build env src sp = some p ∧ e.pretty = some p

mutual
/-- The statement contains this `include`, at any depth. -/
inductive Contains : Stmt → AstString → Option Expr → Prop
  | here {n x} : Contains (.include_ n x) n x
  | thn {neg c t e n x} : ContainsAny t n x → Contains (.ifElse neg c t e) n x
  | els {neg c t e n x} : ContainsAny e n x → Contains (.ifElse neg c t (some e)) n x
  | for_ {vs c b n x} : ContainsAny b n x → Contains (.forLoop vs c b) n x
  | with_ {c i b n x} : ContainsAny b n x → Contains (.with_ c i b) n x
/-- One of the statements contains it. -/
inductive ContainsAny : List Stmt → AstString → Option Expr → Prop
  | head {s ss n x} : Contains s n x → ContainsAny (s :: ss) n x
  | tail {s ss n x} : ContainsAny ss n x → ContainsAny (s :: ss) n x
end

/-- The error `e`, with which the statements `ss` of a template ended, was raised
* by this template: then it bears the name of the template, and its location, unless it is the
  failure of a plain write, is in this template's source; or
* by the depth limit; or
* by a template included here: one of the `include`s in `ss` found it, it ran with `k + 1` others active
  on the stack given to it, and ended with this error, which in turn was raised there. -/
inductive Raised (cfg : RenderCfg σ) (e : Err) (w' : World σ) : Nat → Option Str → Str → List Stmt → Prop
  | here {k name src ss e'} : AboutSource cfg.env src e' → e = e'.attachName name → e.name = name → Raised cfg e w' k name src ss
  | write {k name src ss} : e = formatErr.attachName name → e.name = name → Raised cfg e w' k name src ss
  | depth {k name src ss} : e = depthErr cfg.maxIncludeDepth → ¬ k + 2 ≤ cfg.maxIncludeDepth →
      Raised cfg e w' k name src ss
  | included {k name src ss n x w1 w2 t T st} : ContainsAny ss n x → getTemplate cfg src n w1 = (w2, .ok t) →
      Parsed cfg.env t T → Piece cfg (k + 1) (some n.name) T.source T.body st w2 (.err e w') →
      Raised cfg e w' (k + 1) (some n.name) T.source T.body → Raised cfg e w' k name src ss

mutual
/-- The statement contains this `include`, inside `with` blocks that bind the names `is` (innermost first). -/
inductive Enclosed : Stmt → AstString → Option Expr → List Ident → Prop
  | here {n x} : Enclosed (.include_ n x) n x []
  | thn {neg c t e n x is} : EnclosedAny t n x is → Enclosed (.ifElse neg c t e) n x is
  | els {neg c t e n x is} : EnclosedAny e n x is → Enclosed (.ifElse neg c t (some e)) n x is
  | for_ {vs c b n x is} : EnclosedAny b n x is → Enclosed (.forLoop vs c b) n x is
  | with_ {c i b n x is} : EnclosedAny b n x is → Enclosed (.with_ c i b) n x (is ++ [i])
/-- One of the statements contains it. -/
inductive EnclosedAny : List Stmt → AstString → Option Expr → List Ident → Prop
  | head {s ss n x is} : Enclosed s n x is → EnclosedAny (s :: ss) n x is
  | tail {s ss n x is} : EnclosedAny ss n x is → EnclosedAny (s :: ss) n x is
end

/-- The names bound by `with` on the stack, innermost first. -/
def withNames (st : Stack) : List Ident :=
  st.filterMap fun
    | .var n _ => some n
    | _ => none

/-- How the statements `ss` of a template with source `src`, with the names `is` bound by `with`, can come to
panic: one of the templates they include without `with`, directly or through others, has a source in which the
byte range of the name of a `with` around the `include`s on the way to it is not a slice. -/
inductive Unreadable (cfg : RenderCfg σ) (tree : Template → Tree) : Str → List Stmt → List Ident → Prop
  | here {src ss is n js i w1 w2 t} : EnclosedAny ss n none js → getTemplate cfg src n w1 = (w2, .ok t) →
      i ∈ js ++ is → ¬ SpanIn (tree t).source i.span → Unreadable cfg tree src ss is
  | plain {src ss is n js w1 w2 t} : EnclosedAny ss n none js → getTemplate cfg src n w1 = (w2, .ok t) →
      Unreadable cfg tree (tree t).source (tree t).body (js ++ is) → Unreadable cfg tree src ss is
  | with_ {src ss is n x js w1 w2 t} : EnclosedAny ss n (some x) js → getTemplate cfg src n w1 = (w2, .ok t) →
      Unreadable cfg tree (tree t).source (tree t).body [] → Unreadable cfg tree src ss is

mutual
/-- No plain `include` stands inside a `with` block. -/
def TameStmt : Stmt → Prop
  | .raw _ => True
  | .inlineExpr _ _ => True
  | .include_ _ _ => True
  | .ifElse _ _ t none => Tame t
  | .ifElse _ _ t (some e) => Tame t ∧ Tame e
  | .forLoop _ _ b => Tame b
  | .with_ _ _ b => Tame b ∧ ∀ n, ¬ ContainsAny b n none
/-- … in any of the statements. -/
def Tame : List Stmt → Prop
  | [] => True
  | s :: ss => TameStmt s ∧ Tame ss
end

/-- No variable bound by `with` is on the stack. -/
def NoWith (st : Stack) : Prop := ∀ n c, SState.var n c ∉ st

end Upon.Spec
