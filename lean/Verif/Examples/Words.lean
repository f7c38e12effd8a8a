import Verif.Props.Words
import Verif.Examples.Whole
/-
A concrete case that meets the hypotheses of the theorems of Props/Words: two templates in the default syntax,
and the same two in a syntax with other delimiters, with comments, whitespace control and other blanks inside the tags.
-/
namespace Upon.Demo
open Spec

/-- The syntax `<< >>`, `<! !>`, `<? ?>`. -/
def angle : SyntaxBuilder := ⟨some ("<<".toList, ">>".toList), some ("<!".toList, "!>".toList), some ("<?".toList, "?>".toList)⟩

theorem angle_built : Built angle :=
  .comment (x := "<?".toList) (y := "?>".toList) (.block (x := "<!".toList) (y := "!>".toList)
    (.expr (x := "<<".toList) (y := ">>".toList) .new rfl) rfl) rfl

theorem angle_tidy (src : Str) : Tidy angle.build src := by
  apply tidy_of_noWhite
  intro p hp he d c e
  have h : ∀ p ∈ angle.build, ∀ c ∈ p.2, isWhite c = false := by decide
  exact h p hp c (by rw [e]; simp)

/-- A condition, a filter and an include. -/
def k : Tree := ⟨"a{% if x.n %}{{ x.n | add: 1 }}{% endif %}!{% include \"b\" %}".toList,
  [.raw ⟨0, 1⟩,
    .ifElse false (.base (.var (path .direct 7 8 9 10)))
      [.inlineExpr (.call ⟨⟨22, 25⟩⟩ (some ⟨[.lit ⟨.integer 1, ⟨27, 28⟩⟩], ⟨25, 28⟩⟩)
        (.base (.var (path .direct 16 17 18 19))) ⟨16, 28⟩) ⟨13, 31⟩] none,
    .raw ⟨42, 43⟩, .include_ ⟨['b'], ⟨54, 57⟩⟩ none]⟩
/-- The template it includes. -/
def l : Tree := ⟨"[{{ k }}]".toList, [.raw ⟨0, 1⟩, .inlineExpr (.base (.var (name 4 5))) ⟨1, 8⟩, .raw ⟨8, 9⟩]⟩

/-- The first one, laid out differently. -/
def k' : Tree := ⟨"a\n   <!- if x.n!><<  x.n| add:1>><?no-?> <!endif!>!<!include \"b\"  -!>\n".toList,
  [.raw ⟨0, 1⟩,
    .ifElse false (.base (.var (path .direct 12 13 14 15)))
      [.inlineExpr (.call ⟨⟨26, 29⟩⟩ (some ⟨[.lit ⟨.integer 1, ⟨30, 31⟩⟩], ⟨29, 31⟩⟩)
        (.base (.var (path .direct 21 22 23 24))) ⟨21, 31⟩) ⟨17, 33⟩, .raw ⟨41, 41⟩] none,
    .raw ⟨50, 51⟩, .include_ ⟨['b'], ⟨61, 64⟩⟩ none, .raw ⟨70, 70⟩]⟩
/-- So is the second one. -/
def l' : Tree := ⟨"[<?-  note ?><<k>>]".toList, [.raw ⟨0, 1⟩, .inlineExpr (.base (.var (name 15 16))) ⟨13, 18⟩, .raw ⟨18, 19⟩]⟩

/-- What `k` and `k'` say. -/
def kWords : List Item := [.char 'a', .sign .beginBlock, .word .keyword "if".toList, .word .ident "x".toList, .sign .dot, .word .ident "n".toList,
  .sign .endBlock, .sign .beginExpr, .word .ident "x".toList, .sign .dot, .word .ident "n".toList, .sign .pipe, .word .ident "add".toList,
  .sign .colon, .word .number "1".toList, .sign .endExpr, .sign .beginBlock, .word .keyword "endif".toList, .sign .endBlock, .char '!',
  .sign .beginBlock, .word .keyword "include".toList, .word .string "\"b\"".toList, .sign .endBlock]

/-- What `l` and `l'` say. -/
def lWords : List Item := [.char '[', .sign .beginExpr, .word .ident "k".toList, .sign .endExpr, .char ']']

/-- The text parses as `T` and says `ws`. -/
def check (a : AC.Auto) (p : Tree × List Item) : Bool :=
  decide (Parser.parseTemplate ⟨asciiEnv, a, p.1.source⟩ = .ok p.1.body) &&
    decide ((lexAll ⟨asciiEnv, a, p.1.source⟩ 50 Lexer.new).map (words p.1.source) = some p.2)

set_option maxRecDepth 100000 in
theorem check_default : (AC.new Syn.default).map (fun a => [(k, kWords), (l, lWords)].all (check a)) = some true := by decide +kernel

set_option maxRecDepth 100000 in
theorem check_angle : (AC.new angle.build).map (fun a => [(k', kWords), (l', lWords)].all (check a)) = some true := by decide +kernel

theorem says_of {bd : SyntaxBuilder} (hb : Built bd) (ht : ∀ src, Tidy bd.build src) {ps : List (Tree × List Item)}
    (hc : (AC.new bd.build).map (fun a => ps.all (check a)) = some true) {T : Tree} {ws : List Item} (hT : (T, ws) ∈ ps) :
    Says asciiEnv (code T) T ws := by
  obtain ⟨a, ha, _⟩ := C02_total hb
  have s : Setup bd ⟨asciiEnv, a, T.source⟩ := ⟨hb, ha⟩
  rw [ha] at hc
  have hk := List.all_eq_true.mp (Option.some.inj hc) _ hT
  simp only [check, Bool.and_eq_true, decide_eq_true_eq] at hk
  obtain ⟨hp, hw⟩ := hk
  have hc : compileSource ⟨asciiEnv, a, T.source⟩ = .ok (code T) := by
    rw [compileSource, hp, Res.ok_bind, Compiler.compileTemplate_eq]; rfl
  obtain ⟨ts, h1, h2⟩ := (parseTemplate_iff (good s (ht _)) T.body).mp hp
  have hcl : Closed ts := by
    simpa using gstmts_closed h2 (rest := []) (by intro xs t ys e; simp at e)
  have hl := (C06_layout s (ht _) ts).mp ⟨h1, hcl⟩
  cases hx : lexAll ⟨asciiEnv, a, T.source⟩ 50 Lexer.new with
  | none => rw [hx] at hw; cases hw
  | some ts' =>
    rw [hx] at hw
    have e := tokens_unique (lexAll_tokens hx) h1
    subst e
    exact ⟨bd, a, ts', s, ht _, hc, hl, h2, Option.some.inj hw⟩

/-- A renderer for `T` in an engine that has `U` as `b`. -/
def pair (a : AC.Auto) (T U : Tree) (v : Value) : Renderer :=
  .new ⟨a, fmtDefault asciiEnv, [("add".toList, .filter add)], [(['b'], code U)], 64⟩ (code T) none (.borrowed v)

theorem relaid (a a' : AC.Auto) (v : Value) :
    Relaid asciiEnv (fun _ => l) (fun _ => l') k k' (pair a k l v) (pair a' k' l' v) := by
  have hd := @says_of defaultBuilder default_built default_tidy _ check_default
  have ha := @says_of angle angle_built angle_tidy _ check_angle
  refine ⟨rfl, rfl, rfl, rfl, rfl, ⟨⟨kWords, hd (by simp), ha (by simp)⟩, ?_, ?_⟩, ?_⟩
  · unfold k; simp [Tame, TameStmt]
  · unfold k'; simp [Tame, TameStmt]
  · intro n
    show SameEntry asciiEnv (fun _ => l) (fun _ => l') (BMap.get [(['b'], code l)] n) (BMap.get [(['b'], code l')] n)
    by_cases hn : n = ['b']
    · subst hn
      refine .found ⟨⟨lWords, hd (by simp), ha (by simp)⟩, ?_, ?_⟩
      · unfold l; simp [Tame, TameStmt]
      · unfold l'; simp [Tame, TameStmt]
    · have e : ∀ t : Template, BMap.get [(['b'], t)] n = none := by
        intro t
        simp [BMap.get, List.find?, Ne.symm hn]
      rw [e, e]
      exact .missing

/-- The globals `k = 5` and `x = {n: 1}`. -/
def laid : Value := globals [("k", .integer 5), ("x", globals [("n", .integer 1)])]

/-- The hypotheses of `C44_to_string` hold, and both renders give `a2![5]`. -/
example (a a' : AC.Auto) : Relaid asciiEnv (fun _ => l) (fun _ => l') k k' (pair a k l laid) (pair a' k' l' laid) ∧
    (pair a k l laid).ToString asciiEnv (.ok "a2![5]".toList) ∧ (pair a' k' l' laid).ToString asciiEnv (.ok "a2![5]".toList) := by
  refine ⟨relaid a a' laid, .ok _ ⟨"a2![5]".toList, []⟩ rfl ⟨40, ?_⟩, .ok _ ⟨"a2![5]".toList, []⟩ rfl ⟨40, ?_⟩⟩
  · show Upon.run ⟨asciiEnv, fmtDefault asciiEnv, [("add".toList, .filter add)], [(['b'], code l)], none, 64, stringSink⟩ 40
      (initVM (code k) none (.scope (.borrowed laid)) []) = _
    decide +kernel
  · show Upon.run ⟨asciiEnv, fmtDefault asciiEnv, [("add".toList, .filter add)], [(['b'], code l')], none, 64, stringSink⟩ 40
      (initVM (code k') none (.scope (.borrowed laid)) []) = _
    decide +kernel

/-- The hypotheses of `C44_accepts` hold of the texts `k` and `k'`. -/
example : ∃ a a' ts ts', Setup defaultBuilder ⟨asciiEnv, a, k.source⟩ ∧ Setup angle ⟨asciiEnv, a', k'.source⟩ ∧
    Layout defaultBuilder.build asciiEnv k.source (.text false) 0 ts ∧ Layout angle.build asciiEnv k'.source (.text false) 0 ts' ∧
    words k.source ts = words k'.source ts' ∧ k.source ≠ k'.source := by
  have lay : ∀ {bd : SyntaxBuilder} (_ : Built bd) (_ : ∀ src, Tidy bd.build src) {ps : List (Tree × List Item)}
      (_ : (AC.new bd.build).map (fun a => ps.all (check a)) = some true) {T : Tree} {ws : List Item} (_ : (T, ws) ∈ ps),
      ∃ a ts, Setup bd ⟨asciiEnv, a, T.source⟩ ∧ Layout bd.build asciiEnv T.source (.text false) 0 ts ∧ words T.source ts = ws := by
    intro bd hb ht ps hc T ws hT
    obtain ⟨a, ha, _⟩ := C02_total hb
    have s : Setup bd ⟨asciiEnv, a, T.source⟩ := ⟨hb, ha⟩
    rw [ha] at hc
    have hk := List.all_eq_true.mp (Option.some.inj hc) _ hT
    simp only [check, Bool.and_eq_true, decide_eq_true_eq] at hk
    obtain ⟨hp, hw⟩ := hk
    obtain ⟨ts, h1, h2⟩ := (parseTemplate_iff (good s (ht _)) T.body).mp hp
    have hcl : Closed ts := by
      simpa using gstmts_closed h2 (rest := []) (by intro xs t ys e; simp at e)
    cases hx : lexAll ⟨asciiEnv, a, T.source⟩ 50 Lexer.new with
    | none => rw [hx] at hw; cases hw
    | some ts' =>
      rw [hx] at hw
      have e := tokens_unique (lexAll_tokens hx) h1
      subst e
      exact ⟨a, ts', s, (C06_layout s (ht _) ts').mp ⟨h1, hcl⟩, Option.some.inj hw⟩
  obtain ⟨a, ts, h1, h2, h3⟩ := lay default_built default_tidy check_default (T := k) (ws := kWords) (by simp)
  obtain ⟨a', ts', h1', h2', h3'⟩ := lay angle_built angle_tidy check_angle (T := k') (ws := kWords) (by simp)
  refine ⟨a, a', ts, ts', h1, h1', h2, h2', h3.trans h3'.symm, ?_⟩
  unfold k k'; decide +kernel

end Upon.Demo
