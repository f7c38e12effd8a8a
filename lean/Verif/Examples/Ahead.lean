import Verif.Props.Ahead
import Verif.Examples.Known
/-
Concrete cases that meet the hypotheses of the theorems of Props/Ahead.
-/
namespace Upon.Demo.Ahead
open Spec Upon.Demo.Known

/-- A template with a loop and a name for a value. -/
def looped : Tree := ⟨"{% for x in l %}{{ loop.index }}{{ x | add: u.n }}{% if loop.last %}.{% else %},{% endif %}{% endfor %}{% with k as j %}{{ j }}{{ z }}{% endwith %}".toList,
  [.forLoop (.item ⟨⟨7, 8⟩⟩) (.base (.var (name 12 13))) [
      .inlineExpr (.base (.var (Known.path .direct 19 23 23 24 29))) ⟨16, 32⟩,
      .inlineExpr (.call ⟨⟨39, 42⟩⟩ (some ⟨[.var (Known.path .direct 44 45 45 46 47)], ⟨42, 47⟩⟩) (.base (.var (name 35 36))) ⟨35, 47⟩) ⟨32, 50⟩,
      .ifElse false (.base (.var (Known.path .direct 56 60 60 61 65))) [.raw ⟨68, 69⟩] (some [.raw ⟨79, 80⟩])],
    .with_ (.base (.var (name 111 112))) ⟨⟨116, 117⟩⟩ [.inlineExpr (.base (.var (name 123 124))) ⟨120, 127⟩, .inlineExpr (.base (.var (name 130 131))) ⟨127, 134⟩]]⟩
/-- Rendered ahead, except for one tag. -/
def flat : Tree := ⟨"04,15.5{{ z }}".toList, [.raw ⟨0, 7⟩, .inlineExpr (.base (.var (name 10 11))) ⟨7, 14⟩]⟩

set_option maxRecDepth 100000 in
theorem checked : (AC.new Syn.default).map (fun a => [looped, flat, Demo.Fill.inner].all fun T =>
    decide (Parser.parseTemplate ⟨asciiEnv, a, T.source⟩ = .ok T.body)) = some true := by decide +kernel

theorem parsed {T : Tree} (hT : T ∈ [looped, flat, Demo.Fill.inner]) : Parsed asciiEnv (code T) T := by
  obtain ⟨a, ha⟩ := default_setup asciiEnv T.source
  have hk := checked
  rw [show AC.new Syn.default = some a from ha.searcher] at hk
  have hk := List.all_eq_true.mp (Option.some.inj hk) T hT
  have hp := of_decide_eq_true hk
  have hc : compileSource ⟨asciiEnv, a, T.source⟩ = .ok (code T) := by
    rw [compileSource, hp, Res.ok_bind, Compiler.compileTemplate_eq]; rfl
  obtain ⟨ts, h1, h2⟩ := (parseTemplate_iff (good ha (default_tidy _)) T.body).mp hp
  have hcl : Closed ts := by
    simpa using gstmts_closed h2 (rest := []) (by intro xs t ys e; simp at e)
  exact ⟨defaultBuilder, a, ts, ha, default_tidy _, hc, (C06_layout ha (default_tidy _) ts).mp ⟨h1, hcl⟩, h2⟩

/-- The globals. -/
def given : Value := globals [("k", .integer 5), ("l", .list [.integer 1, .integer 2]), ("u", globals [("n", .integer 3)]), ("z", .integer 9)]

/-- `loop.m` -/
abbrev lp (m : Str) : Plain.Base := .var "loop".toList ⟨.direct, .key "loop".toList⟩ [⟨.direct, .key m⟩]

set_option maxRecDepth 100000 in
theorem looped_tree : Plain.ofStmts looped.source looped.body = [
    .forLoop (.item ['x']) (.base (v 'l')) [.expr (.base (lp "index".toList)), .expr (.call "add".toList (some [vm 'u' .direct 'n']) (.base (v 'x'))),
      .ifElse false (.base (lp "last".toList)) [.char '.'] (some [.char ','])],
    .with_ (.base (v 'k')) ['j'] [.expr (.base (v 'j')), .expr (.base (v 'z'))]] := by rfl
set_option maxRecDepth 100000 in
theorem flat_tree : Plain.ofStmts flat.source flat.body = [.char '0', .char '4', .char ',', .char '1', .char '5', .char '.', .char '5', .expr (.base (v 'z'))] := by rfl

theorem shows0 : Spec.Appends (fmtDefault asciiEnv) (.integer 0) ['0'] := shows rfl
theorem shows1 : Spec.Appends (fmtDefault asciiEnv) (.integer 1) ['1'] := shows rfl
theorem shows4 : Spec.Appends (fmtDefault asciiEnv) (.integer 4) ['4'] := shows rfl
theorem shows5 : Spec.Appends (fmtDefault asciiEnv) (.integer 5) ['5'] := shows rfl
theorem shows9 : Spec.Appends (fmtDefault asciiEnv) (.integer 9) ['9'] := shows rfl

/-- What a round leaves. -/
def rounds : Nat → List Plain.Stmt
  | 0 => [.char '0', .char '4', .char ',']
  | _ => [.char '1', .char '5', .char '.']

/-- The variables of a round. -/
abbrev ls (i : Nat) (x : Value) : List (Str × Plain.Local) := [Plain.loopLocal i 2, (['x'], .is x true)]

theorem index_known (i : Nat) (x : Value) : Plain.AheadVar given (ls i x) "loop".toList [⟨.direct, .key "index".toList⟩] (.integer i) false :=
  .local_ rfl (.key rfl .here)
theorem last_known (i : Nat) (x : Value) : Plain.AheadVar given (ls i x) "loop".toList [⟨.direct, .key "last".toList⟩] (.bool (i + 1 == 2)) false :=
  .local_ rfl (.key rfl .here)
theorem sum_known {i : Nat} {n m : Int} (h : Plain.answers asciiEnv add [.integer 3] (.integer n) = .value (.integer m)) :
    Plain.AheadExpr asciiEnv functions given (ls i (.integer n)) (.call "add".toList (some [vm 'u' .direct 'n']) (.base (v 'x'))) (.integer m) false :=
  .call (f := add) (xs := [.integer 3]) (.var (.local_ rfl .here)) rfl (.var (.global rfl (.key rfl (.key rfl .here))) (fun _ => rfl) .nil) h

theorem round_out (i : Nat) (x : Value) (h : [Value.integer 1, .integer 2][i]? = some x) :
    Plain.Ahead asciiEnv functions (fmtDefault asciiEnv) given (ls i x)
      [.expr (.base (lp "index".toList)), .expr (.call "add".toList (some [vm 'u' .direct 'n']) (.base (v 'x'))), .ifElse false (.base (lp "last".toList)) [.char '.'] (some [.char ','])]
      (rounds i) := by
  match i with
  | 0 =>
    cases h
    exact .shown (.value (.var (index_known 0 _)) shows0) (.shown (.value (sum_known (m := 4) rfl) shows4) (.fails (b' := [.char ',']) (.var (last_known 0 _)) rfl (.char .nil) .nil))
  | 1 =>
    cases h
    exact .shown (.value (.var (index_known 1 _)) shows1) (.shown (.value (sum_known (m := 5) rfl) shows5) (.holds (a' := [.char '.']) (.var (last_known 1 _)) (by decide) (.char .nil) .nil))
  | i + 2 => simp at h

theorem l_is : Plain.AheadExpr asciiEnv functions given [] (.base (v 'l')) (.list [.integer 1, .integer 2]) true := .var (.global rfl (.key rfl .here))
theorem k_is : Plain.AheadExpr asciiEnv functions given [] (.base (v 'k')) (.integer 5) true := .var (.global rfl (.key rfl .here))
theorem j_is : Plain.AheadExpr asciiEnv functions given [(['j'], .is (.integer 5) true)] (.base (v 'j')) (.integer 5) true := .var (.local_ rfl .here)
theorem z_is : Plain.AheadExpr asciiEnv functions given [(['j'], .is (.integer 5) true)] (.base (v 'z')) (.integer 9) true := .var (.global rfl (.key rfl .here))

theorem flattened : Plain.Ahead asciiEnv functions (fmtDefault asciiEnv) given [] (Plain.ofStmts looped.source looped.body) (Plain.ofStmts flat.source flat.body) := by
  rw [looped_tree, flat_tree]
  exact .items (rounds := rounds) (ss' := [.char '5', .expr (.base (v 'z'))]) l_is round_out
    (.named (b' := [.char '5', .expr (.base (v 'z'))]) (ss' := []) k_is
      (.shown (ss' := [.expr (.base (v 'z'))]) (.value j_is shows5) (.expr (.inr (.base (.var (.never (by simp))))) .nil)) .nil)

theorem all_known : Plain.Ahead asciiEnv functions (fmtDefault asciiEnv) given [] (Plain.ofStmts looped.source looped.body) ("04,15.59".toList.map .char) := by
  rw [looped_tree]
  exact .items (rounds := rounds) (ss' := [.char '5', .char '9']) l_is round_out
    (.named (b' := [.char '5', .char '9']) (ss' := []) k_is (.shown (ss' := [.char '9']) (.value j_is shows5) (.shown (ss' := []) (.value z_is shows9) .nil)) .nil)

theorem no_includes (e e' : Upon.Expr) (sp sp' : Span) (n : AstString) : ¬ ContainsAny [.inlineExpr e sp, .inlineExpr e' sp'] n none := by
  intro h
  cases h with
  | head h => cases h
  | tail h => exact Demo.Fill.no_include _ _ _ h
theorem looped_tame : Tame looped.body := by unfold looped; simp [Tame, TameStmt, no_includes]
theorem flat_tame : Tame flat.body := by unfold flat; simp [Tame, TameStmt]

theorem inner_parsed {a : AC.Auto} {t : Template} (ht : Includable ((pair a looped Demo.Fill.inner given).cfg asciiEnv stringSink) t) : Parsed asciiEnv t Demo.Fill.inner :=
  Demo.Fill.includable ht ▸ parsed (by simp)

/-- The two render alike … -/
example (a : AC.Auto) : RenderedAhead given asciiEnv (fun _ => Demo.Fill.inner) (code looped) (code flat) looped flat (pair a looped Demo.Fill.inner given) :=
  ⟨.inl rfl, fun t ht => inner_parsed ht, fun t ht => by unfold Demo.Fill.inner; simp [Tame, TameStmt],
    ⟨parsed (by simp), parsed (by simp), looped_tame, flat_tame, flattened⟩⟩

/-- … namely to `04,15.59`. -/
example (a : AC.Auto) : (pair a looped Demo.Fill.inner given).ToString asciiEnv (.ok "04,15.59".toList) :=
  C82_text (tree := fun _ => Demo.Fill.inner) (T := looped) (g := given) (.inl rfl) (fun t ht => inner_parsed ht)
    (fun t ht => by unfold Demo.Fill.inner; simp [Tame, TameStmt]) (parsed (by simp)) looped_tame all_known

theorem looped_alone : Plain.Alone (Plain.ofStmts looped.source looped.body) := by
  rw [looped_tree]
  have one (n : Char) : Plain.PlainExpr (.base (v n)) := .base (.var (by simp))
  have lps (m : Str) : Plain.PlainExpr (.base (lp m)) := .base (.var (by simp))
  have un : Plain.PlainBase (vm 'u' .direct 'n') := .var (by simp)
  exact .for_ (one 'l') (.expr (lps _) (.expr (.call (one 'x') (by simpa using un)) (.ifElse (lps _) (.char .nil) (.char .nil) .nil)))
    (.with_ (one 'k') (.expr (one 'j') (.expr (one 'z') .nil)) .nil)

/-- It renders to nothing else. -/
example (a : AC.Auto) {s : Str} (h : (pair a looped Demo.Fill.inner given).ToString asciiEnv (.ok s)) :
    Plain.Ahead asciiEnv functions (fmtDefault asciiEnv) given [] (Plain.ofStmts looped.source looped.body) (s.map .char) :=
  (C82_iff (r := pair a looped Demo.Fill.inner given) (tree := fun _ => Demo.Fill.inner) (T := looped) (g := given) (.inl rfl) (fun t ht => inner_parsed ht)
    (fun t ht => by unfold Demo.Fill.inner; simp [Tame, TameStmt]) (parsed (by simp)) looped_tame looped_alone).mp h

end Upon.Demo.Ahead
