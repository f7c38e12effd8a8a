import Verif.Props.Serial
import Verif.Props.Literals
import Verif.Props.Pipeline
import Verif.Props.Errors
import Verif.Examples.Errors
/-
Concrete cases that meet the hypotheses of the theorems of Props/Serial, Props/Literals,
Props/Pipeline, Props/Errors, Props/C07, Props/Parsing and Props/C04_C06.
-/
namespace Upon.Demo
open Spec

/-! C33, C34, C38 -/

example : (SV.newtypeStruct (.int .i8 (-5))).toKey = .ok "-5".toList := (C34_key _ _).mpr (.newtype_ (.int id ((C32_integer _ _).mp (by decide))))
example : ∃ m, (SV.some (.str ['a'])).toKey = .err (Err.custom m) := C34_not_key _ (fun s h => by cases h)
example (j : Int) (s : Str) (h1 : KeyText (.int .i32 (-1)) s) (h2 : KeyText (.int .i32 j) s) : SV.int .i32 (-1) = .int .i32 j := C34_injective .int h1 h2
/-- A sequence with an integer that is too large has no value. -/
def tooLarge : SV := .seq [.int .u64 1, .int .u64 (2 ^ 63)]
theorem tooLarge_typed (env : Env) : Typed env tooLarge := by
  simp [tooLarge, Typed, TypedAll, Fits]
example (env : Env) (hu : env.usizeBits ≤ 64) : ∃ m, tooLarge.toValue env = .err (Err.custom m) :=
  C33_no_value hu (tooLarge_typed env) (by
    intro v h
    unfold tooLarge at h
    generalize hl : [SV.int .u64 1, SV.int .u64 (2 ^ 63)] = l at h
    cases h with
    | seq h =>
      cases h with
      | nil => cases hl
      | cons h1 h2 =>
        cases hl
        cases h2 with
        | cons h3 h4 =>
          cases h3 with
          | int _ h => revert h; unfold FitsI64; decide)
/-- A value of every kind. -/
def sample : Value := globals [("a", .list [.integer 1, .float 0, .none]), ("b", globals [("x", .bool true)]), ("c", .string "t".toList)]
theorem sample_ordered : Ordered sample := by
  simp only [sample, globals, Ordered, OrderedMap, OrderedList, Ascending, List.map, List.pairwise_cons, List.mem_cons, List.not_mem_nil, or_false]
  refine ⟨⟨?_, ?_, ?_, .nil⟩, ⟨trivial, trivial, trivial, trivial⟩, ⟨⟨fun b h => absurd h id, .nil⟩, trivial, trivial⟩, trivial, trivial⟩
  · rintro b (rfl | rfl) <;> exact strLt_iff.mp (by decide)
  · rintro b rfl; exact strLt_iff.mp (by decide)
  · exact fun b h => absurd h id
example (env : Env) : sample.serialize.toValue env = .ok sample := C33_value sample_ordered
example (env : Env) (hu : env.usizeBits ≤ 64) {v : Value} (h : exampleTree.toValue env = .ok v) : Ordered v ∧ Machine v ∧ v.serialize.toValue env = .ok v :=
  C33_stable hu (by simp [exampleTree, Typed, TypedFields, TypedEntries, Fits]) h
/-- The entries of a map with integer keys. -/
example (env : Env) (hu : env.usizeBits ≤ 64) : ∃ m, (SV.map [(.int .i32 2, .char 'b'), (.int .i32 (-1), .str ['a'])]).toValue env = .ok (.map m) ∧
    ∀ n x, (n, x) ∈ m ↔ ∃ p ∈ [(SV.int .i32 2, SV.char 'b'), (.int .i32 (-1), .str ['a'])], KeyText p.1 n ∧ Becomes env p.2 x := by
  have h : (SV.map [(.int .i32 2, .char 'b'), (.int .i32 (-1), .str ['a'])]).toValue env =
    .ok (.map [("-1".toList, .string ['a']), ("2".toList, .string ['b'])]) := rfl
  obtain ⟨m, h1, h2⟩ := C34_entries hu (by simp [Typed, TypedEntries, Fits]) (by
    simp only [List.pairwise_cons, List.mem_singleton, List.not_mem_nil]
    refine ⟨fun q hq => ?_, ⟨fun _ h => (by cases h), .nil⟩⟩
    subst hq
    exact ⟨.int, by simp⟩) h
  exact ⟨m, by rw [h, h1], h2⟩
example : Value.ofPairs String.toList Value.integer [("b", 1), ("a", 2)] = Value.ofPairs String.toList Value.integer [("a", 2), ("b", 1)] :=
  (C38_distinct _ _ _ _ (List.Perm.swap _ _ _) (by decide)).1
example : Value.ofPairs String.toList Value.integer [("b", 1), ("a", 2), ("b", 3)] = .map [(['a'], .integer 2), (['b'], .integer 3)] := rfl
/-- Serializing `{"b": None, "a": Some(5u8)}` and converting it give the same. -/
example (env : Env) : (SV.map [(.str ['b'], .none), (.str ['a'], .some (.int .u8 5))]).toValue env =
    .ok (Value.ofPairs id (Value.ofOption fun i => Value.ofScalar env (.int i)) [(['b'], none), (['a'], some 5)]) :=
  (C38_serialized env (fun o : Option Int => o.elim .none fun i => .some (.int .u8 i)) (Value.ofOption fun i => Value.ofScalar env (.int i))
    (fun o => by cases o with | none => rfl | some x => exact C38_scalar env (.int (t := .u8) (by simp)))).2.2.1 id [(['b'], none), (['a'], some 5)]

/-! C10-C12 -/

/-- `1_000` is a number token, `-1_000` is the integer -1000. -/
theorem thousand : TokText asciiEnv .number "1_000".toList := ⟨'1', "_000".toList, rfl, by decide, by decide⟩
theorem thousand_lit : IntLit "1_000".toList 1000 :=
  .dec (by simp) (by simp) (by simp) (.digit (d := 0) (.digit (d := 0) (.digit (d := 0) (.under (.digit (d := 1) .nil (by decide) (by decide))) (by decide) (by decide)) (by decide) (by decide)) (by decide) (by decide))
example {e : Engine} (he : Engine.new asciiEnv = some e) : e.compile asciiEnv (emitting (['-'] ++ "1_000".toList)) =
    .ok (litTemplate (emitting (['-'] ++ "1_000".toList)) (.integer (-1000)) ⟨3, 9⟩) :=
  C10_exact he thousand_lit ⟨'1', _, rfl, by decide⟩ (by decide) (by unfold FitsI64; decide)
example {e : Engine} (he : Engine.new asciiEnv = some e) : ∃ n, IntLit "1_000".toList n ∧ (-1000 : Int) = signed (['-'] == ['-']) n ∧ FitsI64 (-1000) :=
  C10_never_other he thousand (sign := ['-']) (by decide)
    (C10_exact he thousand_lit ⟨'1', _, rfl, by decide⟩ (by decide) (by unfold FitsI64; decide)) (by simp [litTemplate, signed])
/-- `0x8000000000000000` is too large, and not a float. -/
theorem huge_digits : ∀ n, Digits 16 ('8' :: List.replicate n '0') (8 * 16 ^ n)
  | 0 => .digit (ds := []) (n := 0) (d := 8) .nil (by decide) (by decide)
  | n + 1 => by
    have h := Digits.digit (c := '0') (d := 0) (huge_digits n) (by decide) (by decide)
    rwa [Nat.add_zero, Nat.mul_assoc, ← Nat.pow_succ, List.cons_append, ← List.replicate_succ'] at h
example {e : Engine} (he : Engine.new asciiEnv = some e) (t : Template) : e.compile asciiEnv (emitting ([] ++ "0x8000000000000000".toList)) ≠ .ok t :=
  C10_overflow he (n := 8 * 16 ^ 15) (.hex (huge_digits 15)) ⟨'0', _, rfl, by decide⟩ (by decide) (by unfold FitsI64; decide) (by decide) t

/-- `"a\q"` is a string token with an escape that does not exist. -/
theorem bad_escape : TokText asciiEnv .string ('"' :: (['a'] ++ '\\' :: 'q' :: [] ++ ['"'])) := by
  refine ⟨['a', '\\', 'q'], rfl, by decide, ?_, ?_⟩
  · intro x y h hx
    rcases x with _ | ⟨_, _ | ⟨_, _ | ⟨_, _ | ⟨_, x⟩⟩⟩⟩ <;> simp at h hx
  · intro x h
    have := congrArg List.getLast? h
    simp at this
example {e : Engine} (he : Engine.new asciiEnv = some e) (t : Template) : e.compile asciiEnv (emitting ('"' :: (['a'] ++ '\\' :: 'q' :: [] ++ ['"']))) ≠ .ok t :=
  C11_unknown_escape he bad_escape (by decide) (by decide) t

/-! C36 -/

theorem ascii_widths : AsciiWidths asciiEnv := fun s _ => rfl
example : ∃ p, Pretty.build asciiEnv "Hello\n{{ name }}".toList ⟨9, 13⟩ = some p ∧ Place "Hello\n{{ name }}".toList 9 p.ln p.col p.text ∧
    p.width = max 1 (asciiEnv.width "name".toList) :=
  C36_location (t := "name".toList) (sp := ⟨9, 13⟩) ascii_widths
    (show ∀ c ∈ "Hello\n{{ name }}".toList, c = '\n' ∨ (' ' ≤ c ∧ c ≤ '~') by decide) (by decide) (.inl (by decide))

/-! C13 -/

/-- `m.p | add: m.q` calls `add` once, with 3 and 0. -/
def sum_ : Expr := .call ⟨⟨17, 20⟩⟩ (some ⟨[.var (path .direct 5 6 9 10)], ⟨5, 10⟩⟩) mp_ ⟨0, 20⟩
theorem sum_calls : Pipeline (cfg 64) src st sum_ [⟨"add".toList, .int 3, [.int 0]⟩] (.ok (.owned (.integer 3))) := by
  have h : lookupVar (cfg 64).env src st (path .direct 5 6 7 8) = .ok (.borrowed (.integer 3)) := by decide +kernel
  exact .call (cs := []) (v := .borrowed (.integer 3)) (h ▸ .var) (by decide) (f := add) (by rfl) (.int (by unfold Fits; decide)) passes_mq rfl
example {k name sp w cs res} (hp : PieceCalls (cfg 64) k name src [.inlineExpr sum_ sp] st w cs res) : cs = [⟨"add".toList, .int 3, [.int 0]⟩] :=
  C13_emit (by unfold sum_; nofun) sum_calls hp
/-- `s | twice` calls no filter. -/
example {k nm sp w cs res} (hp : PieceCalls (cfg 64) k nm src [.inlineExpr (call_ 21 26 s_) sp] st w cs res) : cs = [] := by
  have h : lookupVar (cfg 64).env src st (name 0 1) = .ok (.borrowed (.string "hi".toList)) := by decide +kernel
  exact C13_emit_formatter (n := "twice".toList) (f := twice) (by decide) (by rfl) (r := .ok (.borrowed (.string "hi".toList))) (h ▸ .var) hp

/-! C03, C08, C09 -/

example {a : AC.Auto} (ha : Setup defaultBuilder ⟨asciiEnv, a, main.source⟩) : ∃ ts ast, Layout defaultBuilder.build asciiEnv main.source (.text false) 0 ts ∧
    GStmts asciiEnv main.source ts ast ∧ Compiler.compileTemplate main.source ast = some (code main) :=
  (C09_grammar ha (default_tidy _) _).mp (compiles ha.searcher (by simp [all]))

end Upon.Demo
