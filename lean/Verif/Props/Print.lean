import Verif.Proofs.PrintTree
import Verif.Props.Compose
/-
C53: every template can be written down.
-/
namespace Upon
open Spec

section
variable {env : Env} {b : SyntaxBuilder}

theorem Print.tidy (hstd : Standard b env) (src : Str) : Tidy b.build src := by
  intro p hp _ q _ _ _ x y z _ _ _ d c e
  exact hstd.solid p hp c (by rw [e]; simp)

theorem Print.layout (hb : Built b) (hstd : Standard b env) {ws : List Item} (h : InPlace env none ws) (hn : NoAccident b ws)
    (hm : .sign .beginComment ∈ ws → ∃ p, b.comment = some p) :
    ∃ ts, Layout b.build env (print b ws) (.text false) 0 ts ∧ words (print b ws) ts = said ws := by
  have := Print.reading hb hstd (print b ws) h [] [] (by simp) (by intro p s e hs; simp at e; exact absurd e.2 hs) ⟨hn, hm⟩
  simpa using this

theorem Print.engine {e : Engine} (hb : Built b) (he : Engine.withSyntax env b.build = some e) (src : Str) :
    Setup b ⟨env, e.searcher, src⟩ ∧ e.compile env src = compileSource ⟨env, e.searcher, src⟩ := by
  rw [Engine.withSyntax] at he
  cases ha : AC.new b.build with
  | none => rw [ha] at he; cases he
  | some a => rw [ha] at he; cases he; exact ⟨⟨hb, ha⟩, rfl⟩

/-- **C53** Words that are spelled right and make a template can be written down in any standard syntax, one after the
other, if no delimiter comes about by accident: the text compiles to a template that says these words. -/
theorem C53_print (hb : Built b) {e : Engine} (he : Engine.withSyntax env b.build = some e) (hstd : Standard b env) {ws : List Item}
    (h : InPlace env none ws) (hc : Complete env (said ws)) (hn : NoAccident b ws) (hm : .sign .beginComment ∈ ws → ∃ p, b.comment = some p) :
    ∃ t T, e.compile env (print b ws) = .ok t ∧ T.source = print b ws ∧ Says env t T (said ws) := by
  obtain ⟨ss, hs⟩ := hc
  obtain ⟨ts, hl, hw⟩ := Print.layout hb hstd h hn hm
  obtain ⟨s, hcomp⟩ := Print.engine hb he (print b ws)
  rw [hcomp]
  exact says_of_tree hs s (Print.tidy hstd _) hl hw

theorem Print.said_of {ws : List Item} (h : .sign .beginComment ∉ ws) : said ws = ws := by
  rw [said, List.filter_eq_self]
  intro i hi
  simp only [ne_eq, decide_not, Bool.not_eq_true', decide_eq_false_iff_not]
  rintro rfl
  exact h hi

theorem Print.said_guarded (b : SyntaxBuilder) {ws : List Item} (h : .sign .beginComment ∉ ws) : said (guarded b ws) = ws := by
  induction ws with
  | nil => rfl
  | cons i ws ih =>
    have hi : i ≠ .sign .beginComment := fun e => h (by rw [e]; simp)
    have ih := ih fun hm => h (List.mem_cons_of_mem _ hm)
    cases i with
    | char c =>
      rw [guarded]
      split
      · rw [Print.said_cons (by simp), Print.said_comment, ih]
      · rw [Print.said_cons (by simp), ih]
    | sign tk => rw [guarded, Print.said_cons hi, ih]; simp
    | word tk s => rw [guarded, Print.said_cons hi, ih]; simp

theorem Print.spelled_guarded (hstd : Standard b env) {st : Option (Token × Bool)} {ws : List Item} (h : InPlace env st ws)
    (hn : .sign .beginComment ∉ ws) : InPlace env st (guarded b ws) := by
  induction h with
  | nil => exact .nil
  | @char c ws _ ih =>
    have ih := ih fun hm => hn (List.mem_cons_of_mem _ hm)
    rw [guarded]
    split
    · rename_i hc
      obtain ⟨p, hp, e⟩ := List.any_eq_true.mp hc
      refine .comment (hstd.solid p hp c ?_) ih
      cases hd : p.2 with
      | nil => rw [hd] at e; simp at e
      | cons x y => rw [hd] at e; simp at e; simp [e]
    · exact .char ih
  | comment => exact absurd (by simp) hn
  | beginExpr _ ih => exact .beginExpr (ih fun hm => hn (List.mem_cons_of_mem _ hm))
  | beginBlock _ ih => exact .beginBlock (ih fun hm => hn (List.mem_cons_of_mem _ hm))
  | mark h1 _ ih => exact .mark h1 (ih fun hm => hn (List.mem_cons_of_mem _ hm))
  | word h1 h2 h3 _ ih => exact .word h1 h2 h3 (ih fun hm => hn (List.mem_cons_of_mem _ hm))
  | close _ ih => exact .close (ih fun hm => hn (List.mem_cons_of_mem _ hm))

theorem Print.guarded_clean (hb : Built b) (hstd : Standard b env) (hl : ∀ p ∈ b.build, 2 ≤ p.2.length) {ws : List Item} :
    NoAccident b (guarded b ws) := by
  have cons : ∀ {i : Item} {ws : List Item}, (∀ c, i ≠ .char c) → NoAccident b ws → NoAccident b (i :: ws) := by
    intro i ws hi h before c after e
    cases before with
    | nil => cases e; exact absurd rfl (hi c)
    | cons x before => cases e; exact h before c after rfl
  induction ws with
  | nil => intro before c after e; simp [guarded] at e
  | cons i ws ih =>
    cases i with
    | sign tk => exact cons (by simp) ih
    | word tk s => exact cons (by simp) ih
    | char x =>
      rw [guarded]
      split
      · intro before c after e p hp hpre
        cases before with
        | nil =>
          cases e
          obtain ⟨z, hz⟩ := hpre
          have := hl p hp
          cases hd : p.2 with
          | nil => rw [hd] at this; simp at this
          | cons y ys =>
            cases ys with
            | nil => rw [hd] at this; simp at this
            | cons y' ys =>
              rw [hd] at hz
              simp [print, spell] at hz
              have := hstd.solid p hp y' (by rw [hd]; simp)
              rw [hz.2.1] at this
              exact absurd this (by decide)
        | cons u before => injection e with _ e; exact cons (by simp) ih before c after e p hp hpre
      · rename_i hc
        intro before c after e p hp hpre
        cases before with
        | nil =>
          cases e
          obtain ⟨z, hz⟩ := hpre
          have hne : p.2 ≠ [] := build_nonEmpty (built_valid hb) _ hp
          cases hd : p.2 with
          | nil => exact hne hd
          | cons y ys =>
            rw [hd] at hz
            simp [print, spell] at hz
            exact hc (List.any_eq_true.mpr ⟨p, hp, by rw [hd]; simp [hz.1]⟩)
        | cons u before => injection e with _ e; exact ih before c after e p hp hpre

/-! Templates that were compiled -/

theorem Machine.step_comment (q : Machine.State) : Machine.step env q (.sign .beginComment) = none := by
  obtain ⟨c, st⟩ := q
  have ha : ∀ f, Machine.afterStep f st (.sign .beginComment) = none := by intro f; cases f <;> rfl
  have he : ∀ p a f, Machine.exprStep env p a f st (.sign .beginComment) = none := by
    intro p a f
    cases p <;> first | rfl | exact ha f
  cases c <;> first | rfl | exact ha _ | exact he _ false _ | exact he _ _ _

theorem Plain.no_comment {ws : List Item} {ss : List Plain.Stmt} (h : Plain.WStmts env ws ss) : .sign .beginComment ∉ ws := by
  intro hm
  obtain ⟨x, y, rfl⟩ := List.append_of_mem hm
  have := Machine.run_accepts h []
  rw [Machine.run_append] at this
  cases hx : Machine.run env (.text, []) x with
  | none => rw [hx] at this; cases this
  | some q =>
    rw [hx] at this
    simp only [Option.bind_some] at this
    rw [Machine.run_cons, Machine.step_comment] at this
    cases this

/-- What a layout says from here on. -/
def Print.Said (env : Env) (src : Str) (ts : List Tok) : Mode → Prop
  | .text _ => .sign .beginComment ∉ words src ts → InPlace env none (words src ts)
  | .tag c p => .sign .beginComment ∉ words src ts → (c = .endExpr ∨ c = .endBlock) → InPlace env (some (c, p)) (words src ts)
  | .comment => (∃ s1 s2 r, ts = (.raw, s1) :: (.endComment, s2) :: r ∧ (.sign .beginComment ∉ words src r → InPlace env none (words src r))) ∨
    ∃ s r, ts = (.endComment, s) :: r

theorem Print.spelled_text {s : Str} {ws : List Item} (h : InPlace env none ws) : InPlace env none (s.map .char ++ ws) := by
  induction s with
  | nil => exact h
  | cons c s ih => exact .char ih

theorem Print.open_said {src : Str} {k : Kind} (ho : isEnd k = false) {sp : Span} {ts : List Tok}
    (h : Print.Said env src ts (inside k)) (hn : .sign .beginComment ∉ words src ((tokenOf k, sp) :: ts)) :
    InPlace env none (words src ((tokenOf k, sp) :: ts)) := by
  have hh : tokenOf k ≠ .beginComment → .sign .beginComment ∉ words src ts := fun he hm =>
    hn (by rw [Diag.words_cons he]; exact List.mem_append_right _ hm)
  have hc : (tokenOf k = .beginComment) → Print.Said env src ts .comment → InPlace env none (words src ((tokenOf k, sp) :: ts)) := by
    intro he h
    rw [he] at hn ⊢
    rcases h with ⟨s1, s2, r, rfl, h'⟩ | ⟨s, r, rfl⟩
    · exact h' hn
    · exact absurd (by rw [words]; simp [saying]; simp) hn
  cases k with
  | beginExpr => exact .beginExpr (h (hh (by decide)) (.inl rfl))
  | beginExprTrim => exact .beginExpr (h (hh (by decide)) (.inl rfl))
  | beginBlock => exact .beginBlock (h (hh (by decide)) (.inr rfl))
  | beginBlockTrim => exact .beginBlock (h (hh (by decide)) (.inr rfl))
  | beginComment => exact hc rfl h
  | beginCommentTrim => exact hc rfl h
  | _ => cases ho

theorem Print.textAt_tok {src : Str} {p : Bool} {i : Nat} {tk : Token} {t : Str} (h : TokAt env src p i tk t) : textAt src ⟨i, i + blen t⟩ = t := by
  obtain ⟨rest, h, _⟩ := h
  obtain ⟨pre, hs, rfl⟩ := dropB_eq_some.mp h
  exact Print.textAt_of hs

theorem Print.said {syn : Syn} {src : Str} {m : Mode} {i : Nat} {ts : List Tok} (h : Layout syn env src m i ts) : Print.Said env src ts m := by
  induction h with
  | done => exact fun _ => .nil
  | textEnd =>
    intro _
    exact Print.spelled_text .nil
  | textTag next opening text ne trim tail ih =>
    intro hn
    rw [Diag.words_cons (by simp)] at hn ⊢
    exact Print.spelled_text (Print.open_said opening ih fun h => hn (List.mem_append_right _ h))
  | tag next opening tail ih => exact fun hn => Print.open_said opening ih hn
  | blank _ _ _ ih => exact ih
  | @token c p i tk t rest free text real tail ih =>
    intro hn hc
    have ht := text
    obtain ⟨r, _, h1, _, h2⟩ := ht
    have e := Print.textAt_tok text
    have hw : isWord tk = true ∨ isMark tk = true := by
      cases tk <;> first | exact .inl rfl | exact .inr rfl | exact h1.elim | exact absurd rfl real
    have hb : tk ≠ .beginComment := by rintro rfl; exact h1
    rw [Diag.words_cons hb] at hn ⊢
    have ih := ih (fun h => hn (List.mem_append_right _ h)) hc
    rcases hw with hw | hw
    · rw [Print.saying_word hw, e]
      exact .word hw h1 h2 ih
    · rw [Print.saying_mark hw]
      exact .mark hw ih
  | @close c p i k n rest next same tail ih =>
    intro hn hc
    have hb : c ≠ .beginComment := by rcases hc with rfl | rfl <;> decide
    have e : saying src (c, ⟨i, n⟩) = [.sign c] := by rcases hc with rfl | rfl <;> rfl
    rw [Diag.words_cons hb] at hn ⊢
    rw [e]
    exact .close (ih fun h => hn (List.mem_append_right _ h))
  | comment next closing ne tail ih => exact .inl ⟨_, _, _, rfl, ih⟩
  | emptyComment next closing tail ih => exact .inr ⟨_, _, rfl⟩

/-- Every compiled template, in whatever syntax, is spelled right. -/
theorem Spec.Says.spelled {t : Template} {T : Tree} {ws : List Item} (h : Says env t T ws) : InPlace env none ws := by
  have hb := h.body
  obtain ⟨b, a, ts, _, _, _, hl, _, rfl⟩ := h
  exact Print.said hl (Plain.no_comment hb)

/-- **C53** A template in any syntax can be written in any standard syntax in which none of its text looks like a delimiter: what it says,
written down there, compiles, and says the same (so it renders the same, by C44). -/
theorem C53_translate (hb : Built b) {e : Engine} (he : Engine.withSyntax env b.build = some e) (hstd : Standard b env) {t : Template} {T : Tree}
    {ws : List Item} (h : Says env t T ws) (hn : NoAccident b ws) :
    ∃ t' T', e.compile env (print b ws) = .ok t' ∧ T'.source = print b ws ∧ Says env t' T' ws := by
  have hc := Plain.no_comment h.body
  have e1 := Print.said_of hc
  have := C53_print hb he hstd h.spelled ⟨_, by rw [e1]; exact h.body⟩ hn fun hm => absurd hm hc
  rwa [e1] at this

/-- **C53** In a standard syntax with comments and delimiters of more than one character, such as the default one, every template of any
syntax can be written, whatever its text: comments keep apart characters that would make a delimiter. -/
theorem C53_translate_any (hb : Built b) {e : Engine} (he : Engine.withSyntax env b.build = some e) (hstd : Standard b env)
    (hk : ∃ p, b.comment = some p) (hl : ∀ p ∈ b.build, 2 ≤ p.2.length) {t : Template} {T : Tree} {ws : List Item} (h : Says env t T ws) :
    ∃ t' T', e.compile env (print b (guarded b ws)) = .ok t' ∧ T'.source = print b (guarded b ws) ∧ Says env t' T' ws := by
  have hc := Plain.no_comment h.body
  have e1 := Print.said_guarded b hc
  have := C53_print hb he hstd (Print.spelled_guarded hstd h.spelled hc) ⟨_, by rw [e1]; exact h.body⟩ (Print.guarded_clean hb hstd hl) fun _ => hk
  rwa [e1] at this

/-- **C53** Every tree of statements, with any text, names, filters, literals and nesting, is the tree of a template: of the text with
its words one after the other. (Floating point numbers are written as `fl` says, which must be read back as these numbers.) -/
theorem C53_tree {fl : Plain.FloatText} (hb : Built b) {e : Engine} (he : Engine.withSyntax env b.build = some e) (hstd : Standard b env) {ss : List Plain.Stmt}
    (h : Plain.StmtsOk fl env ss) (hn : NoAccident b (Plain.stmtsWords fl ss)) :
    ∃ t T, e.compile env (print b (Plain.stmtsWords fl ss)) = .ok t ∧ Parsed env t T ∧ Plain.ofStmts T.source T.body = ss := by
  have h1 := Plain.stmtsWords_tree h
  have h2 := Plain.spelled_stmts hstd.keys .nil h
  rw [List.append_nil] at h2
  have hc := Plain.no_comment h1
  have e1 := Print.said_of hc
  obtain ⟨t, T, h3, _, h4⟩ := C53_print hb he hstd h2 ⟨ss, by rw [e1]; exact h1⟩ hn fun hm => absurd hm hc
  rw [e1] at h4
  exact ⟨t, T, h3, h4.parsed, Plain.stmts_unique h4.body h1⟩

/-- **C53** … and with comments whatever the text. -/
theorem C53_tree_any {fl : Plain.FloatText} (hb : Built b) {e : Engine} (he : Engine.withSyntax env b.build = some e) (hstd : Standard b env)
    (hk : ∃ p, b.comment = some p) (hl : ∀ p ∈ b.build, 2 ≤ p.2.length) {ss : List Plain.Stmt} (h : Plain.StmtsOk fl env ss) :
    ∃ t T, e.compile env (print b (guarded b (Plain.stmtsWords fl ss))) = .ok t ∧ Parsed env t T ∧ Plain.ofStmts T.source T.body = ss := by
  have h1 := Plain.stmtsWords_tree h
  have h2 := Plain.spelled_stmts hstd.keys .nil h
  rw [List.append_nil] at h2
  have hc := Plain.no_comment h1
  have e1 := Print.said_guarded b hc
  obtain ⟨t, T, h3, _, h4⟩ := C53_print hb he hstd (Print.spelled_guarded hstd h2 hc) ⟨ss, by rw [e1]; exact h1⟩
    (Print.guarded_clean hb hstd hl) fun _ => hk
  rw [e1] at h4
  exact ⟨t, T, h3, h4.parsed, Plain.stmts_unique h4.body h1⟩

/-- **C53** There is a way to write all floating point numbers that have a literal. -/
theorem C53_floats (env : Env) : ∃ fl : Plain.FloatText, ∀ f, Plain.LitOk fl env (.float f) ↔
    ∃ s neg, TokText env .number s ∧ NumLit env s neg (.float f) := by
  classical
  refine ⟨fun f => if h : ∃ p : Bool × Str, TokText env .number p.2 ∧ NumLit env p.2 p.1 (.float f) then h.choose else (false, []), fun f => ?_⟩
  constructor
  · rintro ⟨h1, h2⟩; exact ⟨_, _, h1, h2⟩
  · rintro ⟨s, neg, h1, h2⟩
    have h : ∃ p : Bool × Str, TokText env .number p.2 ∧ NumLit env p.2 p.1 (.float f) := ⟨(neg, s), h1, h2⟩
    show TokText env .number (dite _ _ _ : Bool × Str).2 ∧ NumLit env (dite _ _ _ : Bool × Str).2 (dite _ _ _ : Bool × Str).1 _
    rw [dif_pos h]
    exact h.choose_spec

/-- **C53** No delimiter comes about by accident if no character of the text is the first one of a delimiter. -/
theorem C53_no_accident {ws : List Item} (hb : Built b) (h : ∀ c, .char c ∈ ws → ∀ p ∈ b.build, p.2.head? ≠ some c) : NoAccident b ws := by
  rintro before c after rfl p hp hpre
  have hne : p.2 ≠ [] := build_nonEmpty (built_valid hb) _ hp
  refine h c (by simp) p hp ?_
  cases hd : p.2 with
  | nil => exact absurd hd hne
  | cons x y =>
    rw [hd] at hpre
    have : x = c := by
      obtain ⟨z, hz⟩ := hpre
      simp [print, spell] at hz
      exact hz.1
    rw [this]; rfl

theorem Print.words_of_ascii (h : AsciiNames env) {s : Str} (hs : ∃ c r, s = c :: r ∧ c.toNat < 128 ∧ c.isAlpha = true ∧
    ∀ x ∈ r, x.toNat < 128 ∧ x.isAlpha = true) : Word env s := by
  obtain ⟨c, r, rfl, h1, h2, h3⟩ := hs
  refine ⟨c, r, rfl, ?_, by simp [isIdentStart, (h c h1).1, h2], fun x hx => ?_⟩
  · intro hp
    rcases hp with hp | hp
    · have : ∀ c ∈ ['.', '|', ',', ':', '+', '-', '?', '"', ' ', '\t'], c.isAlpha = false := by decide
      rw [this c hp] at h2; cases h2
    · simp only [isDigit, Bool.and_eq_true, decide_eq_true_eq] at hp
      simp only [Char.isAlpha, Char.isUpper, Char.isLower, Bool.or_eq_true, Bool.and_eq_true, decide_eq_true_eq] at h2
      have e1 : c.val ≤ 57 := hp.2
      rcases h2 with h2 | h2
      · have e2 : 65 ≤ c.val := h2.1
        have := UInt32.le_trans e2 e1
        exact absurd this (by decide)
      · have e2 : 97 ≤ c.val := h2.1
        have := UInt32.le_trans e2 e1
        exact absurd this (by decide)
  · obtain ⟨h4, h5⟩ := h3 x hx
    simp [isIdentChar, (h x h4).2, Char.isAlphanum, h5]

theorem Print.keys (h : AsciiNames env) : ∀ s ∈ keywords, Word env s := by
  have key : ∀ s ∈ keywords, s.head?.any (fun c => decide (c.toNat < 128) && c.isAlpha) = true ∧ s.tail.all (fun c => decide (c.toNat < 128) && c.isAlpha) = true := by
    decide
  intro s hs
  obtain ⟨h1, h2⟩ := key s hs
  apply Print.words_of_ascii h
  cases s with
  | nil => cases h1
  | cons c r =>
    simp at h1 h2
    exact ⟨c, r, rfl, h1.1, h1.2, h2⟩

/-- **C53** The default syntax is standard. -/
theorem C53_default (h : AsciiNames env) : Standard defaultBuilder env where
  expr := ⟨_, rfl⟩
  block := ⟨_, rfl⟩
  solid := by decide
  starts := by
    have key : ∀ p ∈ defaultBuilder.build, p.2.head? = some '-' ∧ p.2.tail ≠ [] ∨ p.2.head?.all (fun c => decide (c ∈ ['{', '}', '%', '#'])) = true := by
      decide
    have key2 : ∀ c ∈ ['{', '}', '%', '#'], c ∉ ['.', '|', ',', ':', '+', '-', '?', '"', ' ', '\t'] ∧ isDigit c = false ∧ c.toNat < 128 ∧ c.isAlpha = false ∧ c ≠ '_' := by
      decide
    intro p hp c r e
    rcases key p hp with ⟨h1, h2⟩ | h1
    · rw [e] at h1 h2; simp at h1; exact .inl ⟨h1, h2⟩
    · rw [e] at h1
      obtain ⟨k1, k2, k3, k4, k5⟩ := key2 c (by simpa using h1)
      refine .inr ⟨?_, by simp [isIdentStart, (h c k3).1, k4, k5]⟩
      rintro (h' | h')
      · exact k1 h'
      · rw [k2] at h'; cases h'
  apart := by decide
  ends := by decide
  stops := by rw [isIdentChar, (h ' ' (by decide)).2]; decide
  keys := Print.keys h

end
end Upon
