import Verif.Examples.Loops
import Verif.Props.Escaping
import Verif.Props.Format
import Verif.Examples.Compose
/-
A concrete case that meets the hypotheses of the theorems of Props/Escaping: the formatter of examples/escape_html.rs as the default
formatter, with the formatter `unescape` registered but not used.
-/
namespace Upon.Demo
open Spec

/-- The table of `escape_html`, examples/escape_html.rs:49-56. -/
def entity : Char → Option Str
  | '>' => some "&gt;".toList
  | '<' => some "&lt;".toList
  | '&' => some "&amp;".toList
  | '\'' => some "&#39;".toList
  | '"' => some "&quot;".toList
  | _ => none

/-- The loop of `escape_html`, examples/escape_html.rs:44-64; `last` is the text `s[last..i]`. The example loops over bytes; the characters
it looks for are single bytes that occur in no other character. -/
def escapeFrom (last : Str) : Str → FmtProg
  | [] => if last = [] then .done (.ok ()) else .write last fun ok => if ok then .done (.ok ()) else .done (.error none)
  | c :: cs =>
    match entity c with
    | some e => .write last fun ok => if ok then .write e fun ok => if ok then escapeFrom [] cs else .done (.error none) else .done (.error none)
    | none => escapeFrom (last ++ [c]) cs

/-- `escape_html`, examples/escape_html.rs:36-66. -/
def escapeHtml (env : Env) : Formatter
  | .string s => escapeFrom [] s
  | v => fmtDefault env v

/-- The text `escape_html` writes. -/
def escaped (s : Str) : Str := s.flatMap fun c => (entity c).getD [c]

theorem escapeFrom_run (last s out : Str) : (escapeFrom last s).run stringSink out = (out ++ last ++ escaped s, .ok ()) := by
  induction s generalizing last out with
  | nil =>
    rw [escapeFrom]
    split
    · rename_i h; simp [FmtProg.run, escaped, h]
    · simp [FmtProg.run, escaped, stringSink]
  | cons c cs ih =>
    rw [escapeFrom]
    have e : escaped (c :: cs) = (entity c).getD [c] ++ escaped cs := rfl
    rw [e]
    cases entity c with
    | some x => simp only [FmtProg.run, stringSink, if_true, Option.getD_some]; exact (ih [] _).trans (by simp)
    | none => simp only [Option.getD_none]; rw [ih]; simp

/-- A text without the characters that `escape_html` escapes, except for `&`. -/
def Clean (s : Str) : Prop := ∀ c ∈ s, c ≠ '<' ∧ c ≠ '>' ∧ c ≠ '"' ∧ c ≠ '\''

instance (s : Str) : Decidable (Clean s) := by unfold Clean; infer_instance

theorem entity_clean {c : Char} {e : Str} (h : entity c = some e) : Clean e := by
  unfold entity at h
  split at h <;> first | (cases h; decide) | cases h

theorem other_clean {c : Char} (h : entity c = none) : Clean [c] := by
  have k : ∀ x ∈ ['<', '>', '"', '\''], c ≠ x := by
    intro x hx e
    subst e
    simp only [List.mem_cons, List.not_mem_nil, or_false] at hx
    rcases hx with rfl | rfl | rfl | rfl <;> cases h
  intro d hd
  rw [List.mem_singleton.mp hd]
  exact ⟨k _ (by simp), k _ (by simp), k _ (by simp), k _ (by simp)⟩

theorem Clean.append {x y : Str} (hx : Clean x) (hy : Clean y) : Clean (x ++ y) := by
  intro c hc
  rcases List.mem_append.mp hc with h | h
  · exact hx c h
  · exact hy c h

theorem escapeFrom_writes {last : Str} (hl : Clean last) (s : Str) : OnlyWrites Clean (escapeFrom last s) := by
  induction s generalizing last with
  | nil =>
    rw [escapeFrom]
    split
    · exact .done _
    · exact .write hl fun ok => by cases ok <;> exact .done _
  | cons c cs ih =>
    rw [escapeFrom]
    cases he : entity c with
    | some e =>
      refine .write hl fun ok => ?_
      cases ok
      · exact .done _
      · refine .write (entity_clean he) fun ok => ?_
        cases ok
        · exact .done _
        · exact ih (last := []) (by intro c h; cases h)
    | none => exact ih (hl.append (other_clean he))

theorem writeAll_writes {P : Str → Prop} {l : List Str} (h : ∀ s ∈ l, P s) : OnlyWrites P (.writeAll l) := by
  induction l with
  | nil => exact .done _
  | cons s l ih =>
    refine .write (h s (by simp)) fun ok => ?_
    cases ok
    · exact .done _
    · exact ih fun s hs => h s (by simp [hs])

theorem digits_clean (n : Nat) : Clean (Nat.toDigits 10 n) := by
  intro c hc
  have := Nat.isDigit_of_mem_toDigits (by omega) (by omega) hc
  refine ⟨?_, ?_, ?_, ?_⟩ <;> rintro rfl <;> cases this

theorem int_clean (i : Int) : ∀ s ∈ intPieces i, Clean s := by
  intro s hs
  unfold intPieces at hs
  split at hs
  · simp only [List.mem_cons, List.not_mem_nil, or_false] at hs
    rcases hs with rfl | rfl
    · decide
    · rw [showInt_ofNat]; exact digits_clean _
  · rename_i h
    rw [List.mem_singleton] at hs
    subst hs
    obtain ⟨n, rfl⟩ := Int.eq_ofNat_of_zero_le (by omega : 0 ≤ i)
    rw [showInt_ofNat]; exact digits_clean _

theorem escapeHtml_writes (v : Value) : OnlyWrites Clean (escapeHtml asciiEnv v) := by
  cases v with
  | none => exact .done _
  | bool b => exact writeAll_writes (by cases b <;> decide)
  | integer i => exact writeAll_writes (int_clean i)
  | float f => exact writeAll_writes (by intro s hs; simp [asciiEnv] at hs)
  | string s => exact escapeFrom_writes (by intro c h; cases h) s
  | list l => exact .done _
  | map m => exact .done _

/-- A value, and an include that shows another one. -/
def esc : Tree := ⟨"v: {{ v }}{% include \"b\" %}".toList,
  [.raw ⟨0, 3⟩, .inlineExpr (.base (.var (name 6 7))) ⟨3, 10⟩, .include_ ⟨['b'], ⟨21, 24⟩⟩ none]⟩

set_option maxRecDepth 100000 in
theorem check_esc : (AC.new Syn.default).map (fun a => decide (Parser.parseTemplate ⟨asciiEnv, a, esc.source⟩ = .ok esc.body)) = some true := by
  decide +kernel

theorem esc_parsed : Parsed asciiEnv (code esc) esc := by
  obtain ⟨a, ha, _⟩ := C02_total default_built
  have s : Setup defaultBuilder ⟨asciiEnv, a, esc.source⟩ := ⟨default_built, ha⟩
  have hc := check_esc
  have ha : AC.new Syn.default = some a := ha
  rw [ha] at hc
  have hp := of_decide_eq_true (Option.some.inj hc)
  have hc : compileSource ⟨asciiEnv, a, esc.source⟩ = .ok (code esc) := by
    rw [compileSource, hp, Res.ok_bind, Compiler.compileTemplate_eq]; rfl
  obtain ⟨ts, h1, h2⟩ := (parseTemplate_iff (good s (default_tidy _)) esc.body).mp hp
  have hcl : Closed ts := by
    simpa using gstmts_closed h2 (rest := []) (by intro xs t ys e; simp at e)
  exact ⟨defaultBuilder, a, ts, s, default_tidy _, hc, (C06_layout s (default_tidy _) ts).mp ⟨h1, hcl⟩, h2⟩

/-- An engine that escapes by default, and knows `unescape`. -/
def escaping (a : AC.Auto) (v : Value) : Renderer :=
  .new ⟨a, escapeHtml asciiEnv, [("unescape".toList, .formatter (fmtDefault asciiEnv))], [(['b'], code qB)], 64⟩ (code esc) none (.borrowed v)

theorem esc_found {a : AC.Auto} {v : Value} {n : Str} {t : Template} (hn : BMap.get (escaping a v).engine.templates n = some t) : t = code qB := by
  have hn : BMap.get [(['b'], code qB)] n = some t := hn
  by_cases h : n = ['b']
  · subst h; simpa [BMap.get] using hn.symm
  · simp [BMap.get, Ne.symm h] at hn

theorem esc_needs {a : AC.Auto} {v : Value} {U : Tree} (h : Needs ((escaping a v).cfg asciiEnv stringSink) (fun _ => qB) esc U) :
    U = esc ∨ U = qB := by
  cases h with
  | self => exact .inl rfl
  | registered => exact .inr rfl
  | provided _ _ h1 => cases h1

/-- The engine is safe, whatever the globals are. -/
theorem esc_safe (a : AC.Auto) (v : Value) : Airtight asciiEnv (fun _ => qB) esc (escaping a v) Clean := by
  refine ⟨fun U hU s hs => ?_, escapeHtml_writes, fun U hU n f hf hg => ?_⟩
  · obtain ⟨sp, hsp, hs⟩ := hs
    rcases esc_needs hU with rfl | rfl
    · have e : stmtsRaws esc.body = [⟨0, 3⟩] := rfl
      rw [e, List.mem_singleton] at hsp
      subst hsp
      have e : Span.of ⟨0, 3⟩ esc.source = some "v: ".toList := by decide +kernel
      cases e.symm.trans hs
      decide
    · have e : stmtsRaws qB.body = [⟨7, 8⟩] := rfl
      rw [e, List.mem_singleton] at hsp
      subst hsp
      have e : Span.of ⟨7, 8⟩ qB.source = some ",".toList := by decide +kernel
      cases e.symm.trans hs
      decide
  · obtain ⟨i, recv, sp, hm, _⟩ := hf
    rcases esc_needs hU with rfl | rfl
    · have e : stmtsShown esc.body = [.base (.var (name 6 7))] := rfl
      rw [e] at hm
      simp at hm
    · have e : stmtsShown qB.body = [.base (.var (name 3 4))] := rfl
      rw [e] at hm
      simp at hm

theorem esc_all {a : AC.Auto} {v : Value} (t : Template) (ht : Includable ((escaping a v).cfg asciiEnv stringSink) t) :
    Parsed asciiEnv t ((fun _ => qB) t) := by
  obtain ⟨n, hn⟩ := ht
  rw [esc_found (a := a) (v := v) hn]
  exact (part (ws := qBWords) (by simp)).parsed

/-- Whatever the globals are, the output is clean. -/
example (a : AC.Auto) (v : Value) {s : Str} (h : (escaping a v).ToString asciiEnv (.ok s)) : Clean s :=
  C47_to_string (esc_safe a v) esc_all esc_parsed (by intro c h; cases h) (fun _ _ => Clean.append) h

/-- And it is rendered: `<i>` and `"` come out as `&lt;i&gt;` and `&quot;`. -/
example (a : AC.Auto) : (escaping a (globals [("v", .string "<i>".toList), ("x", .string "\"".toList)])).ToString asciiEnv
    (.ok "v: &lt;i&gt;&quot;,".toList) := by
  refine .ok _ ⟨"v: &lt;i&gt;&quot;,".toList, []⟩ rfl ⟨40, ?_⟩
  show Upon.run ⟨asciiEnv, escapeHtml asciiEnv, [("unescape".toList, .formatter (fmtDefault asciiEnv))], [(['b'], code qB)], none, 64, stringSink⟩ 40
    (initVM (code esc) none (.scope (.borrowed (globals [("v", .string "<i>".toList), ("x", .string "\"".toList)]))) []) = _
  decide +kernel

/-- On a writer that collects the bytes, also when the render fails: every byte written is part of a clean text. -/
example {ω : Type} (a : AC.Auto) (v : Value) (io : IoWriter ω) (log : ω → List UInt8)
    (hlog : ∀ w bs, ∃ n, log (io.writeAll w bs).1 = log w ++ bs.take n) {w₀ w : ω} (h0 : log w₀ = []) {res : Res Unit}
    (h : (escaping a v).ToWriter asciiEnv io w₀ res w) (hc : res ≠ .crash) : ∀ x ∈ log w, ∃ t, Clean t ∧ x ∈ utf8 t := by
  refine C47_to_writer (I := fun w => ∀ x ∈ log w, ∃ t, Clean t ∧ x ∈ utf8 t) (esc_safe a v) esc_all esc_parsed ?_ ?_ h hc
  · intro w t hw ht x hx
    obtain ⟨n, e⟩ := hlog w (utf8 t)
    rw [e] at hx
    rcases List.mem_append.mp hx with hx | hx
    · exact hw x hx
    · exact ⟨t, ht, List.mem_of_mem_take hx⟩
  · rw [h0]; intro x hx; cases hx

end Upon.Demo
