import Verif.Proofs.ParseTemplate
import Verif.Proofs.ParseErr
import Verif.Proofs.Code
import Verif.Proofs.DecEq
import Verif.Props.LexExamples
/-
C03, C08, C09: compiling a template.
-/
namespace Upon

theorem compileSource_eq (cx : LexCx) :
    compileSource cx = (Parser.parseTemplate cx >>= fun ast => .ok ⟨cx.source, Compiler.codeStmts 0 ast⟩) := by
  rw [compileSource]
  congr 1; funext ast
  rw [Compiler.compileTemplate_eq]; rfl

/-- **C03** Compiling any text with any syntax returns a template or an error, with no panic and no endless
loop, unless in the text a closing delimiter that ends in whitespace is followed by just whitespace and a trimming
opening delimiter. -/
theorem C03_total {b : SyntaxBuilder} {cx : LexCx} (s : Spec.Setup b cx) (hw : Spec.Tidy b.build cx.source) :
    (∃ t, compileSource cx = .ok t) ∨ ∃ e, compileSource cx = .err e := by
  rw [compileSource_eq]
  rcases parseTemplate_spec (good s hw) with ⟨e, h⟩ | ⟨ast, h⟩
  · exact Or.inr ⟨e, by rw [h]; rfl⟩
  · exact Or.inl ⟨_, by rw [h]; rfl⟩

/-- **C03** for an engine: with any syntax, the engine can be made and compiles any such text without
panicking. -/
theorem C03_engine (env : Env) {b : SyntaxBuilder} (hb : Spec.Built b) :
    ∃ e, Engine.withSyntax env b.build = some e ∧ ∀ src, Spec.Tidy b.build src → e.compile env src ≠ .crash := by
  obtain ⟨a, ha, _⟩ := C02_total hb
  refine ⟨_, by simp only [Engine.withSyntax, ha]; rfl, fun src hw => ?_⟩
  have s : Spec.Setup b ⟨env, a, src⟩ := ⟨hb, ha⟩
  rcases C03_total s hw with ⟨t, h⟩ | ⟨t, h⟩ <;> rw [Engine.compile, h] <;> simp

/-- **C03** In particular, an engine whose closing delimiters do not end in whitespace compiles every text
without panicking. -/
theorem C03_every_text (env : Env) {b : SyntaxBuilder} (hb : Spec.Built b) (hw : Spec.NoWhiteEnd b.build) :
    ∃ e, Engine.withSyntax env b.build = some e ∧ ∀ src, e.compile env src ≠ .crash := by
  obtain ⟨e, h, h'⟩ := C03_engine env hb
  exact ⟨e, h, fun src => h' src (tidy_of_noWhite hw src)⟩

set_option maxRecDepth 100000 in
/-- **C03** is false without the restriction: with the delimiters `{{` and
`}} `, compiling the text `{{ a -}}  {{- b }} ` panics. -/
theorem C03_false_white_end : ∃ (b : SyntaxBuilder) (cx : LexCx), Spec.Setup b cx ∧ compileSource cx = .crash := by
  obtain ⟨a, ha, _⟩ := C02_total white_built
  have key : (AC.new whiteBuilder.build).bind (fun a =>
      some (compileSource ⟨Spec.asciiEnv, a, "{{ a -}}  {{- b }} ".toList⟩)) = some .crash := by decide +kernel
  rw [ha] at key
  exact ⟨whiteBuilder, _, ⟨white_built, ha⟩, Option.some.inj key⟩

/-- **C09** The compiler accepts exactly the texts that are laid out in tokens as `Spec.Layout` says
and whose tokens form a template of the grammar `Spec.GStmts`; the tree it compiles is the tree of
the grammar. -/
theorem C09_grammar {b : SyntaxBuilder} {cx : LexCx} (s : Spec.Setup b cx) (hw : Spec.Tidy b.build cx.source)
    (t : Template) :
    compileSource cx = .ok t ↔ ∃ ts ast, Spec.Layout b.build cx.env cx.source (.text false) 0 ts ∧
      Spec.GStmts cx.env cx.source ts ast ∧ Compiler.compileTemplate cx.source ast = some t := by
  rw [compileSource_eq]
  constructor
  · intro h
    rcases parseTemplate_spec (good s hw) with ⟨e, he⟩ | ⟨ast, ha⟩
    · rw [he] at h; cases h
    · rw [ha] at h
      obtain ⟨ts, h1, h2⟩ := (parseTemplate_iff (good s hw) ast).mp ha
      have hc : Spec.Closed ts := by
        simpa using gstmts_closed h2 (rest := []) (by intro xs t ys e; simp at e)
      exact ⟨ts, ast, (C06_layout s hw ts).mp ⟨h1, hc⟩, h2, by
        rw [Compiler.compileTemplate_eq]; simpa using h⟩
  · rintro ⟨ts, ast, h1, h2, h3⟩
    rw [Compiler.compileTemplate_eq] at h3
    have := (parseTemplate_iff (good s hw) ast).mpr ⟨ts, ((C06_layout s hw ts).mpr h1).1, h2⟩
    rw [this]; exact congrArg Res.ok (Option.some.inj h3)

/-- **C09** The layout of a text is unique. -/
theorem C09_tokens_unique {b : SyntaxBuilder} {cx : LexCx} (s : Spec.Setup b cx) (hw : Spec.Tidy b.build cx.source)
    {ts ts' : List (Token × Span)} (h : Spec.Layout b.build cx.env cx.source (.text false) 0 ts)
    (h' : Spec.Layout b.build cx.env cx.source (.text false) 0 ts') : ts = ts' :=
  tokens_unique ((C06_layout s hw ts).mpr h).1 ((C06_layout s hw ts').mpr h').1

/-- **C09** The grammar is unambiguous: the tokens of a text have at most one tree. -/
theorem C09_tree_unique {b : SyntaxBuilder} {cx : LexCx} (s : Spec.Setup b cx) (hw : Spec.Tidy b.build cx.source)
    {ts : List (Token × Span)} (h : Spec.Layout b.build cx.env cx.source (.text false) 0 ts)
    {ast ast' : List Stmt} (h1 : Spec.GStmts cx.env cx.source ts ast) (h2 : Spec.GStmts cx.env cx.source ts ast') :
    ast = ast' := by
  have ht := ((C06_layout s hw ts).mpr h).1
  have a := (parseTemplate_iff (good s hw) ast).mpr ⟨ts, ht, h1⟩
  have b := (parseTemplate_iff (good s hw) ast').mpr ⟨ts, ht, h2⟩
  rw [a] at b
  exact Res.ok.inj b

/-! Comments -/

/-- The tokens without the comments. -/
def Spec.stripComments : List (Token × Span) → List (Token × Span)
  | (.beginComment, _) :: (.raw, _) :: (.endComment, _) :: ts => stripComments ts
  | t :: ts => t :: stripComments ts
  | [] => []

theorem strip_cons {t : Tok} (h : t.1 ≠ .beginComment) (ts : List Tok) :
    Spec.stripComments (t :: ts) = t :: Spec.stripComments ts := by
  obtain ⟨tk, sp⟩ := t
  cases tk <;> simp [Spec.stripComments] at h ⊢

theorem strip_plain {us : List Tok} (h : Plain us) (ts : List Tok) :
    Spec.stripComments (us ++ ts) = us ++ Spec.stripComments ts := by
  induction us with
  | nil => rfl
  | cons u us ih =>
    rw [List.cons_append, strip_cons, ih (fun t ht => h t (List.mem_cons_of_mem _ ht)), List.cons_append]
    intro hu
    have := (h u (by simp)).1
    rw [hu] at this; cases this

theorem strip_tag {w : String} {src : Str} {us tag : List Tok} (h : Spec.GTag src w us tag) (hp : Plain us) (ts : List Tok) :
    Spec.stripComments (tag ++ ts) = tag ++ Spec.stripComments ts := by
  obtain @⟨b, k, e, _, hk⟩ := h
  simp only [List.cons_append, List.append_assoc, List.nil_append]
  rw [strip_cons (by simp), strip_cons (by simp), strip_plain hp, strip_cons (by simp)]

open Spec in
mutual
theorem gstmts_strip {env : Env} {src : Str} {ts : List Tok} {ss : List Stmt} (h : GStmts env src ts ss) :
    GStmts env src (stripComments ts) ss ∧ ∀ rest, stripComments (ts ++ rest) = stripComments ts ++ stripComments rest := by
  match h with
  | .nil => exact ⟨.nil, fun _ => rfl⟩
  | .raw h =>
    have := gstmts_strip h
    refine ⟨?_, fun rest => ?_⟩
    · rw [strip_cons (by simp)]; exact .raw this.1
    · rw [List.cons_append, strip_cons (by simp), strip_cons (by simp), this.2]; rfl
  | .comment h =>
    have := gstmts_strip h
    exact ⟨this.1, fun rest => this.2 rest⟩
  | .expr h1 h2 =>
    have := gstmts_strip h2
    refine ⟨?_, fun rest => ?_⟩
    · rw [strip_cons (by simp), strip_plain (gexpr_plain h1), strip_cons (by simp)]; exact .expr h1 this.1
    · simp only [List.cons_append, List.append_assoc]
      rw [strip_cons (by simp), strip_plain (gexpr_plain h1), strip_cons (by simp), strip_cons (by simp),
        strip_plain (gexpr_plain h1), strip_cons (by simp), this.2]
      simp
  | .include_ t h1 h2 h3 =>
    have := gstmts_strip h3
    have hp : ∀ sp, Plain [(.string, sp)] := fun _ => .cons rfl rfl .nil
    refine ⟨?_, fun rest => ?_⟩
    · rw [strip_tag t (hp _)]; exact .include_ t h1 h2 this.1
    · rw [List.append_assoc, strip_tag t (hp _), strip_tag t (hp _), this.2, List.append_assoc]
  | .includeWith t h1 h2 h3 h4 h5 =>
    have := gstmts_strip h5
    have hp := fun a b => Plain.cons (t := (.string, a)) rfl rfl (.cons (t := (.keyword, b)) rfl rfl (gexpr_plain h4))
    refine ⟨?_, fun rest => ?_⟩
    · rw [strip_tag t (hp _ _)]; exact .includeWith t h1 h2 h3 h4 this.1
    · rw [List.append_assoc, strip_tag t (hp _ _), strip_tag t (hp _ _), this.2, List.append_assoc]
  | .for_ t1 h1 h2 h3 h4 t2 h6 =>
    have ha := gstmts_strip h4
    have hb := gstmts_strip h6
    have hp := fun a => (gvars_plain h1).append (Plain.cons (t := (.keyword, a)) rfl rfl (gexpr_plain h3))
    refine ⟨?_, fun rest => ?_⟩
    · simp only [List.append_assoc]
      rw [strip_tag t1 (hp _), ha.2, strip_tag t2 .nil]
      simpa only [List.append_assoc] using GStmts.for_ t1 h1 h2 h3 ha.1 t2 hb.1
    · simp only [List.append_assoc]
      rw [strip_tag t1 (hp _), ha.2, strip_tag t2 .nil, hb.2, strip_tag t1 (hp _), ha.2, strip_tag t2 .nil]
      simp
  | .with_ t1 h1 h2 h3 t2 h6 =>
    have ha := gstmts_strip h3
    have hb := gstmts_strip h6
    have hp := fun a b => (gexpr_plain h1).append (Plain.cons (t := (.keyword, a)) rfl rfl (.cons (t := (.ident, b)) rfl rfl .nil))
    refine ⟨?_, fun rest => ?_⟩
    · simp only [List.append_assoc]
      rw [strip_tag t1 (hp _ _), ha.2, strip_tag t2 .nil]
      simpa only [List.append_assoc] using GStmts.with_ t1 h1 h2 ha.1 t2 hb.1
    · simp only [List.append_assoc]
      rw [strip_tag t1 (hp _ _), ha.2, strip_tag t2 .nil, hb.2, strip_tag t1 (hp _ _), ha.2, strip_tag t2 .nil]
      simp
  | .if_ t1 h1 h2 h3 h4 =>
    have ha := gstmts_strip h2
    have hb := gelse_strip h3
    have hc := gstmts_strip h4
    refine ⟨?_, fun rest => ?_⟩
    · simp only [List.append_assoc]
      rw [strip_tag t1 (gcond_plain h1), ha.2, hb.2]
      simpa only [List.append_assoc] using GStmts.if_ t1 h1 ha.1 hb.1 hc.1
    · simp only [List.append_assoc]
      rw [strip_tag t1 (gcond_plain h1), ha.2, hb.2, hc.2, strip_tag t1 (gcond_plain h1), ha.2, hb.2]
      simp

theorem gelse_strip {env : Env} {src : Str} {ts : List Tok} {els : Option (List Stmt)} (h : GElse env src ts els) :
    GElse env src (stripComments ts) els ∧ ∀ rest, stripComments (ts ++ rest) = stripComments ts ++ stripComments rest := by
  have self : ∀ {w us tag}, GTag src w us tag → Plain us → stripComments tag = tag := by
    intro w us tag t hp; simpa [stripComments] using strip_tag t hp []
  match h with
  | .endif t =>
    refine ⟨?_, fun rest => ?_⟩
    · rw [self t .nil]; exact GElse.endif t
    · rw [strip_tag t .nil, self t .nil]
  | .else_ t1 h1 t2 =>
    have ha := gstmts_strip h1
    refine ⟨?_, fun rest => ?_⟩
    · simp only [List.append_assoc]
      rw [strip_tag t1 .nil, ha.2, self t2 .nil]
      simpa only [List.append_assoc] using GElse.else_ t1 ha.1 t2
    · simp only [List.append_assoc]
      rw [strip_tag t1 .nil, ha.2, strip_tag t2 .nil, strip_tag t1 .nil, ha.2, self t2 .nil]
      simp
  | .elseIf t h1 h2 h3 h4 =>
    have ha := gstmts_strip h3
    have hb := gelse_strip h4
    have hp := fun a => Plain.cons (t := (.keyword, a)) rfl rfl (gcond_plain h2)
    refine ⟨?_, fun rest => ?_⟩
    · simp only [List.append_assoc]
      rw [strip_tag t (hp _), ha.2]
      simpa only [List.append_assoc] using GElse.elseIf t h1 h2 ha.1 hb.1
    · simp only [List.append_assoc]
      rw [strip_tag t (hp _), ha.2, hb.2, strip_tag t (hp _), ha.2]
      simp
end

/-- **C08** Comments add nothing: the tree a template is compiled from is the tree of its tokens
without the comments (opening delimiter, content, closing delimiter). -/
theorem C08_comments {b : SyntaxBuilder} {cx : LexCx} (s : Spec.Setup b cx) (hw : Spec.Tidy b.build cx.source)
    {t : Template} (h : compileSource cx = .ok t) :
    ∃ ts ast, Spec.Layout b.build cx.env cx.source (.text false) 0 ts ∧
      Spec.GStmts cx.env cx.source (Spec.stripComments ts) ast ∧ Compiler.compileTemplate cx.source ast = some t ∧
      ∀ ast', Spec.GStmts cx.env cx.source ts ast' → ast' = ast := by
  obtain ⟨ts, ast, h1, h2, h3⟩ := (C09_grammar s hw t).mp h
  exact ⟨ts, ast, h1, (gstmts_strip h2).1, h3, fun ast' h' => C09_tree_unique s hw h1 h' h2⟩

/-! Concrete cases -/

/-- The tree of a text in the default syntax (for examples). -/
def parsed (src : String) : Option (Res (List Stmt)) :=
  (AC.new Syn.default).map fun a => Parser.parseTemplate ⟨Spec.asciiEnv, a, src.toList⟩

set_option maxRecDepth 100000 in
/-- `a{# x #}{% if not b %}c{% endif %}` -/
example : parsed "a{# x #}{% if not b %}c{% endif %}" = some (.ok
    [.raw ⟨0, 1⟩,
     .ifElse true (.base (.var ⟨⟨.direct, .key ⟨⟨18, 19⟩⟩, ⟨18, 19⟩⟩, []⟩)) [.raw ⟨22, 23⟩] none]) := by
  decide +kernel

set_option maxRecDepth 100000 in
/-- A template that is not well nested is rejected. -/
example : ∃ e, parsed "{% if b %}c{% endfor %}" = some (.err e) ∧ e.kind = .syntax ∧
    e.reason = some "unexpected `endfor` block" := by
  refine ⟨⟨.syntax, none, some "unexpected `endfor` block", some ⟨0, 11, 12, "{% if b %}c{% endfor %}".toList⟩⟩, ?_, rfl, rfl⟩
  decide +kernel

end Upon
