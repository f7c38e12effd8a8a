import Verif.Spec.Debug
import Verif.Model.Display
import Verif.Props.Format
/-
`Debug` output can be read back.
-/
namespace Upon
open Spec

namespace Dbg

/-! Hexadecimal numerals -/

theorem hex_chars (n : Nat) : ∀ c ∈ Nat.toDigits 16 n, c ≠ '}' := by
  induction n using Nat.strongRecOn with
  | _ n ih =>
    by_cases hn : n < 16
    · rw [Nat.toDigits_of_lt_base hn]
      intro c hc
      rw [List.mem_singleton.mp hc]
      have : ∀ k : Fin 16, k.val.digitChar ≠ '}' := by decide
      exact this ⟨n, hn⟩
    · rw [Nat.toDigits_of_base_le (by decide) (by omega)]
      intro c hc
      rcases List.mem_append.mp hc with hc | hc
      · exact ih _ (by omega) c hc
      · rw [List.mem_singleton.mp hc]
        have : ∀ k : Fin 16, k.val.digitChar ≠ '}' := by decide
        exact this ⟨n % 16, by omega⟩

theorem hex_inj : ∀ n m, Nat.toDigits 16 n = Nat.toDigits 16 m → n = m := by
  have hd : ∀ j k : Fin 16, j.val.digitChar = k.val.digitChar → j = k := by decide
  intro n
  induction n using Nat.strongRecOn with
  | _ n ih =>
    intro m h
    by_cases hn : n < 16 <;> by_cases hm : m < 16
    · rw [Nat.toDigits_of_lt_base hn, Nat.toDigits_of_lt_base hm] at h
      have := hd ⟨n, hn⟩ ⟨m, hm⟩ (List.cons.inj h).1
      exact congrArg Fin.val this
    · rw [Nat.toDigits_of_lt_base hn, Nat.toDigits_of_base_le (by decide) (by omega)] at h
      have h0 : 0 < (Nat.toDigits 16 (m / 16)).length := List.length_pos_iff.mpr Nat.toDigits_ne_nil
      have := congrArg List.length h
      simp only [List.length_append, List.length_singleton] at this
      omega
    · rw [Nat.toDigits_of_lt_base hm, Nat.toDigits_of_base_le (by decide) (by omega)] at h
      have h0 : 0 < (Nat.toDigits 16 (n / 16)).length := List.length_pos_iff.mpr Nat.toDigits_ne_nil
      have := congrArg List.length h
      simp only [List.length_append, List.length_singleton] at this
      omega
    · rw [Nat.toDigits_of_base_le (b := 16) (n := n) (by decide) (by omega), Nat.toDigits_of_base_le (b := 16) (n := m) (by decide) (by omega)] at h
      obtain ⟨h1, h2⟩ := List.append_inj' h rfl
      have e1 := ih _ (by omega) _ h1
      have e2 := congrArg Fin.val (hd ⟨n % 16, by omega⟩ ⟨m % 16, by omega⟩ (List.cons.inj h2).1)
      simp only at e2
      omega

/-- A text up to the first occurrence of a character. -/
theorem up_to {c : Char} : ∀ {a b x y : Str}, c ∉ a → c ∉ b → a ++ c :: x = b ++ c :: y → a = b ∧ x = y
  | [], [], x, y, _, _, h => ⟨rfl, (List.cons.inj h).2⟩
  | [], d :: b, x, y, _, hb, h => by
    have := (List.cons.inj h).1
    exact absurd (this ▸ List.mem_cons_self) hb
  | d :: a, [], x, y, ha, _, h => by
    have := (List.cons.inj h).1
    exact absurd (this ▸ List.mem_cons_self) ha
  | d :: a, e :: b, x, y, ha, hb, h => by
    obtain ⟨h1, h2⟩ := List.cons.inj h
    obtain ⟨h3, h4⟩ := up_to (fun hc => ha (List.mem_cons_of_mem _ hc)) (fun hc => hb (List.mem_cons_of_mem _ hc)) h2
    exact ⟨by rw [h1, h3], h4⟩

variable {printable : Char → Bool}

/-! Characters -/

inductive Shown (printable : Char → Bool) (c : Char) : Str → Prop
  | short (d : Char) (hd : d ≠ 'u') (back : c = if d = '0' then '\x00' else if d = 't' then '\t' else if d = 'r' then '\r' else if d = 'n' then '\n' else d) :
      Shown printable c ['\\', d]
  | plain (h1 : c ≠ '\\') (h2 : c ≠ '"') : Shown printable c [c]
  | long : Shown printable c (['\\', 'u', '{'] ++ (Nat.toDigits 16 c.toNat ++ ['}']))

theorem shown (c : Char) : Shown printable c (debugChar printable c) := by
  unfold debugChar
  by_cases h1 : c = '\x00'
  · rw [if_pos h1]; exact .short '0' (by decide) (by rw [h1]; decide)
  rw [if_neg h1]
  by_cases h2 : c = '\t'
  · rw [if_pos h2]; exact .short 't' (by decide) (by rw [h2]; decide)
  rw [if_neg h2]
  by_cases h3 : c = '\r'
  · rw [if_pos h3]; exact .short 'r' (by decide) (by rw [h3]; decide)
  rw [if_neg h3]
  by_cases h4 : c = '\n'
  · rw [if_pos h4]; exact .short 'n' (by decide) (by rw [h4]; decide)
  rw [if_neg h4]
  by_cases h5 : c = '\\'
  · rw [if_pos h5]; exact .short '\\' (by decide) (by rw [h5]; decide)
  rw [if_neg h5]
  by_cases h6 : c = '"'
  · rw [if_pos h6]; exact .short '"' (by decide) (by rw [h6]; decide)
  rw [if_neg h6]
  by_cases h7 : printable c = true
  · rw [if_pos h7]; exact .plain h5 h6
  · rw [if_neg h7]; exact .long

theorem toNat_inj {a b : Char} (h : a.toNat = b.toNat) : a = b := by
  apply Char.ext
  exact UInt32.toNat_inj.mp h

theorem shown_inj {a b : Char} {s t x y : Str} (ha : Shown printable a s) (hb : Shown printable b t) (h : s ++ x = t ++ y) : a = b ∧ x = y := by
  cases ha with
  | short d hd back =>
    cases hb with
    | short e he back' =>
      simp only [List.cons_append, List.nil_append, List.cons.injEq, true_and] at h
      obtain ⟨rfl, rfl⟩ := h
      exact ⟨back.trans back'.symm, rfl⟩
    | plain h1 h2 =>
      simp only [List.cons_append, List.nil_append, List.cons.injEq] at h
      exact absurd h.1.symm h1
    | long =>
      simp only [List.cons_append, List.nil_append, List.cons.injEq, true_and] at h
      exact absurd h.1 hd
  | plain h1 h2 =>
    cases hb with
    | short e he back' =>
      simp only [List.cons_append, List.nil_append, List.cons.injEq] at h
      exact absurd h.1 h1
    | plain h3 h4 =>
      simp only [List.cons_append, List.nil_append, List.cons.injEq] at h
      exact h
    | long =>
      simp only [List.cons_append, List.nil_append, List.cons.injEq] at h
      exact absurd h.1 h1
  | long =>
    cases hb with
    | short e he back' =>
      simp only [List.cons_append, List.nil_append, List.cons.injEq, true_and] at h
      exact absurd h.1.symm he
    | plain h1 h2 =>
      simp only [List.cons_append, List.nil_append, List.cons.injEq] at h
      exact absurd h.1.symm h1
    | long =>
      simp only [List.cons_append, List.nil_append, List.append_assoc, List.cons.injEq, true_and] at h
      obtain ⟨h1, h2⟩ := up_to (fun hc => hex_chars _ _ hc rfl) (fun hc => hex_chars _ _ hc rfl) h
      exact ⟨toNat_inj (hex_inj _ _ h1), h2⟩

theorem shown_head {c : Char} {s : Str} (h : Shown printable c s) : ∃ d r, s = d :: r ∧ d ≠ '"' := by
  cases h with
  | short d => exact ⟨_, _, rfl, by decide⟩
  | plain h1 h2 => exact ⟨_, _, rfl, h2⟩
  | long => exact ⟨_, _, rfl, by decide⟩

/-- The `Debug` of a string can be read back, whatever follows. -/
theorem str_body : ∀ {s t x y : Str}, s.flatMap (debugChar printable) ++ '"' :: x = t.flatMap (debugChar printable) ++ '"' :: y → s = t ∧ x = y
  | [], [], x, y, h => ⟨rfl, (List.cons.inj h).2⟩
  | [], c :: t, x, y, h => by
    obtain ⟨d, r, e, hd⟩ := shown_head (shown (printable := printable) c)
    rw [List.flatMap_cons, e] at h
    exact absurd (List.cons.inj h).1.symm hd
  | c :: s, [], x, y, h => by
    obtain ⟨d, r, e, hd⟩ := shown_head (shown (printable := printable) c)
    rw [List.flatMap_cons, e] at h
    exact absurd (List.cons.inj h).1 hd
  | c :: s, d :: t, x, y, h => by
    rw [List.flatMap_cons, List.flatMap_cons, List.append_assoc, List.append_assoc] at h
    obtain ⟨h1, h2⟩ := shown_inj (shown c) (shown d) h
    obtain ⟨h3, h4⟩ := str_body h2
    exact ⟨by rw [h1, h3], h4⟩

theorem str_inj {s t x y : Str} (h : debugStr printable s ++ x = debugStr printable t ++ y) : s = t ∧ x = y := by
  unfold debugStr at h
  simp only [List.cons_append, List.append_assoc, List.nil_append, List.cons.injEq, true_and] at h
  exact str_body h

theorem str_cons (s : Str) : ∃ r, debugStr printable s = '"' :: r := ⟨_, rfl⟩

theorem int_closed (i : Int) : ')' ∉ showInt i := by
  intro h
  cases i with
  | ofNat n =>
    rw [show showInt (Int.ofNat n) = _ from showInt_ofNat n] at h
    exact absurd ((numeral_toDigits n).digits _ h) (by decide)
  | negSucc n =>
    rw [showInt_negSucc] at h
    rcases List.mem_cons.mp h with h | h
    · exact absurd h (by decide)
    · exact absurd ((numeral_toDigits _).digits _ h) (by decide)

theorem nat_closed (n : Nat) : ' ' ∉ showInt (n : Int) := by
  intro h
  rw [showInt_ofNat] at h
  exact absurd ((numeral_toDigits n).digits _ h) (by decide)

/-! Values -/

variable {float : BitVec 64 → Str}

/-- The first letter. -/
def letter : Value → Char
  | .none => 'N'
  | .bool _ => 'B'
  | .integer _ => 'I'
  | .float _ => 'F'
  | .string _ => 'S'
  | .list _ => 'L'
  | .map _ => 'M'

theorem lit_None : "None".toList = ['N', 'o', 'n', 'e'] := rfl
theorem lit_Bool : "Bool".toList = ['B', 'o', 'o', 'l'] := rfl
theorem lit_Integer : "Integer".toList = ['I', 'n', 't', 'e', 'g', 'e', 'r'] := rfl
theorem lit_Float : "Float".toList = ['F', 'l', 'o', 'a', 't'] := rfl
theorem lit_String : "String".toList = ['S', 't', 'r', 'i', 'n', 'g'] := rfl
theorem lit_List : "List".toList = ['L', 'i', 's', 't'] := rfl
theorem lit_Map : "Map".toList = ['M', 'a', 'p'] := rfl
theorem bool_true : debugBool true = ['t', 'r', 'u', 'e'] := rfl
theorem bool_false : debugBool false = ['f', 'a', 'l', 's', 'e'] := rfl

theorem value_cons (v : Value) : ∃ r, v.debug printable float = letter v :: r := by
  cases v <;> simp only [Value.debug, debugUnit, debugTuple, letter, lit_None, lit_Bool, lit_Integer, lit_Float, lit_String, lit_List, lit_Map, List.cons_append] <;> exact ⟨_, rfl⟩

theorem tuple_inj {n : String} {a b x y : Str} (h : debugTuple n a ++ x = debugTuple n b ++ y) : a ++ ')' :: x = b ++ ')' :: y := by
  simp only [debugTuple, List.append_assoc, List.cons_append, List.nil_append] at h
  exact (List.cons.inj (List.append_cancel_left h)).2

theorem letter_ne (v : Value) : letter v ≠ ']' ∧ letter v ≠ ',' := by cases v <;> simp [letter]

theorem same_letter {v w : Value} {x y : Str} (h : v.debug printable float ++ x = w.debug printable float ++ y) : letter v = letter w := by
  obtain ⟨r, hr⟩ := value_cons (printable := printable) (float := float) v
  obtain ⟨r', hr'⟩ := value_cons (printable := printable) (float := float) w
  rw [hr, hr'] at h
  exact (List.cons.inj h).1

theorem prefix_inj {p a b x y : Str} (h : (p ++ a) ++ x = (p ++ b) ++ y) : a ++ x = b ++ y := by
  rw [List.append_assoc, List.append_assoc] at h
  exact List.append_cancel_left h

mutual
theorem value_inj (hf : ShowsFloats float) : ∀ (v w : Value) {x y : Str}, v.debug printable float ++ x = w.debug printable float ++ y → ShownAs v w ∧ x = y
  | .none, w, x, y, h => by
    have hl := same_letter h
    cases w with
    | none => exact ⟨.none, by simp only [Value.debug] at h; exact List.append_cancel_left h⟩
    | _ => exact absurd hl (by simp [letter])
  | .bool b, w, x, y, h => by
    have hl := same_letter h
    cases w with
    | bool c =>
      simp only [Value.debug] at h
      have h1 := tuple_inj h
      cases b <;> cases c <;> simp only [bool_true, bool_false] at h1 <;> simp at h1
      · exact ⟨.bool, h1⟩
      · exact ⟨.bool, h1⟩
    | _ => exact absurd hl (by simp [letter])
  | .integer i, w, x, y, h => by
    have hl := same_letter h
    cases w with
    | integer j =>
      simp only [Value.debug] at h
      obtain ⟨h1, h2⟩ := up_to (int_closed i) (int_closed j) (tuple_inj h)
      rw [C32_integer_inj h1]
      exact ⟨.integer, h2⟩
    | _ => exact absurd hl (by simp [letter])
  | .float f, w, x, y, h => by
    have hl := same_letter h
    cases w with
    | float g =>
      simp only [Value.debug] at h
      obtain ⟨h1, h2⟩ := up_to (hf.closed f) (hf.closed g) (tuple_inj h)
      rcases hf.apart f g h1 with rfl | ⟨h3, h4⟩
      · exact ⟨.float, h2⟩
      · exact ⟨.nan h3 h4, h2⟩
    | _ => exact absurd hl (by simp [letter])
  | .string s, w, x, y, h => by
    have hl := same_letter h
    cases w with
    | string t =>
      simp only [Value.debug] at h
      obtain ⟨rfl, h2⟩ := str_inj (tuple_inj h)
      exact ⟨.string, (List.cons.inj h2).2⟩
    | _ => exact absurd hl (by simp [letter])
  | .list l, w, x, y, h => by
    have hl := same_letter h
    cases w with
    | list l' =>
      simp only [Value.debug] at h
      have h3 := tuple_inj h
      simp only [List.cons_append, List.append_assoc, List.nil_append, List.cons.injEq, true_and] at h3
      obtain ⟨h1, h2⟩ := items_inj hf true l l' h3
      exact ⟨.list h1, (List.cons.inj h2).2⟩
    | _ => exact absurd hl (by simp [letter])
  | .map m, w, x, y, h => by
    have hl := same_letter h
    cases w with
    | map m' =>
      simp only [Value.debug] at h
      have h3 := tuple_inj h
      simp only [List.cons_append, List.append_assoc, List.nil_append, List.cons.injEq, true_and] at h3
      obtain ⟨h1, h2⟩ := entries_inj hf true m m' h3
      exact ⟨.map h1, (List.cons.inj h2).2⟩
    | _ => exact absurd hl (by simp [letter])
theorem items_inj (hf : ShowsFloats float) (first : Bool) : ∀ (l l' : List Value) {x y : Str},
    debugItems printable float first l ++ ']' :: x = debugItems printable float first l' ++ ']' :: y → ShownList l l' ∧ x = y
  | [], [], x, y, h => ⟨.nil, (List.cons.inj h).2⟩
  | [], w :: ws, x, y, h => by
    obtain ⟨r, hr⟩ := value_cons (printable := printable) (float := float) w
    simp only [debugItems, hr] at h
    cases first
    · exact absurd (List.cons.inj h).1 (by decide)
    · exact absurd (List.cons.inj h).1.symm (letter_ne w).1
  | v :: vs, [], x, y, h => by
    obtain ⟨r, hr⟩ := value_cons (printable := printable) (float := float) v
    simp only [debugItems, hr] at h
    cases first
    · exact absurd (List.cons.inj h).1 (by decide)
    · exact absurd (List.cons.inj h).1 (letter_ne v).1
  | v :: vs, w :: ws, x, y, h => by
    simp only [debugItems] at h
    have h := prefix_inj h
    rw [List.append_assoc, List.append_assoc] at h
    obtain ⟨h1, h2⟩ := value_inj hf v w h
    obtain ⟨h3, h4⟩ := items_inj hf false vs ws h2
    exact ⟨.cons h1 h3, h4⟩
theorem entries_inj (hf : ShowsFloats float) (first : Bool) : ∀ (m m' : List (Str × Value)) {x y : Str},
    debugEntries printable float first m ++ '}' :: x = debugEntries printable float first m' ++ '}' :: y → ShownMap m m' ∧ x = y
  | [], [], x, y, h => ⟨.nil, (List.cons.inj h).2⟩
  | [], (k, w) :: ws, x, y, h => by
    simp only [debugEntries] at h
    cases first <;> exact absurd (List.cons.inj h).1 (by decide)
  | (k, v) :: vs, [], x, y, h => by
    simp only [debugEntries] at h
    cases first <;> exact absurd (List.cons.inj h).1 (by decide)
  | (k, v) :: vs, (k', w) :: ws, x, y, h => by
    simp only [debugEntries] at h
    simp only [List.append_assoc] at h
    obtain ⟨hk, h6⟩ := str_inj (List.append_cancel_left h)
    have h5 := List.append_cancel_left h6
    cases hk
    obtain ⟨h1, h2⟩ := value_inj hf v w h5
    obtain ⟨h3, h4⟩ := entries_inj hf false vs ws h2
    exact ⟨.cons h1 h3, h4⟩
end

mutual
theorem value_same (hf : ShowsFloats float) : ∀ {v w : Value}, ShownAs v w → v.debug printable float = w.debug printable float
  | _, _, .none => rfl
  | _, _, .bool => rfl
  | _, _, .integer => rfl
  | _, _, .float => rfl
  | _, _, .nan h1 h2 => by simp only [Value.debug]; rw [hf.nan _ _ h1 h2]
  | _, _, .string => rfl
  | _, _, .list h => by simp only [Value.debug]; rw [items_same hf true h]
  | _, _, .map h => by simp only [Value.debug]; rw [entries_same hf true h]
theorem items_same (hf : ShowsFloats float) (first : Bool) : ∀ {l l' : List Value}, ShownList l l' →
    debugItems printable float first l = debugItems printable float first l'
  | _, _, .nil => rfl
  | _, _, .cons h1 h2 => by simp only [debugItems]; rw [value_same hf h1, items_same hf false h2]
theorem entries_same (hf : ShowsFloats float) (first : Bool) : ∀ {l l' : List (Str × Value)}, ShownMap l l' →
    debugEntries printable float first l = debugEntries printable float first l'
  | _, _, .nil => rfl
  | _, _, .cons h1 h2 => by simp only [debugEntries]; rw [value_same hf h1, entries_same hf false h2]
end

/-! Engines -/

/-- If the text of a value can be read back, so can that of a map. -/
theorem map_inj {V K : Type} {show_ : V → Str} {kind : V → K} (hs : ∀ v w x y, show_ v ++ x = show_ w ++ y → kind v = kind w ∧ x = y) (first : Bool) :
    ∀ (m m' : BMap V) {x y : Str}, debugMap printable show_ first m ++ '}' :: x = debugMap printable show_ first m' ++ '}' :: y →
      m.map (fun p => (p.1, kind p.2)) = m'.map (fun p => (p.1, kind p.2)) ∧ x = y
  | [], [], x, y, h => ⟨rfl, (List.cons.inj h).2⟩
  | [], (k, w) :: ws, x, y, h => by
    simp only [debugMap] at h
    cases first <;> exact absurd (List.cons.inj h).1 (by decide)
  | (k, v) :: vs, [], x, y, h => by
    simp only [debugMap] at h
    cases first <;> exact absurd (List.cons.inj h).1 (by decide)
  | (k, v) :: vs, (k', w) :: ws, x, y, h => by
    simp only [debugMap] at h
    simp only [List.append_assoc] at h
    obtain ⟨hk, h6⟩ := str_inj (List.append_cancel_left h)
    have h5 := List.append_cancel_left h6
    cases hk
    obtain ⟨h1, h2⟩ := hs v w _ _ h5
    obtain ⟨h3, h4⟩ := map_inj hs false vs ws h2
    exact ⟨by simp only [List.map_cons, h1, h3], h4⟩

theorem map_same {V K : Type} {show_ : V → Str} {kind : V → K} (hs : ∀ v w, kind v = kind w → show_ v = show_ w) (first : Bool) :
    ∀ (m m' : BMap V), m.map (fun p => (p.1, kind p.2)) = m'.map (fun p => (p.1, kind p.2)) →
      debugMap printable show_ first m = debugMap printable show_ first m'
  | [], [], _ => rfl
  | [], _ :: _, h => by cases h
  | _ :: _, [], h => by cases h
  | (k, v) :: vs, (k', w) :: ws, h => by
    simp only [List.map_cons, List.cons.injEq, Prod.mk.injEq] at h
    obtain ⟨⟨rfl, h1⟩, h2⟩ := h
    simp only [debugMap]
    rw [hs v w h1, map_same hs false vs ws h2]

theorem fn_text (f : EngFn) : f.debug = match f.discriminant with
    | .filter => ['F', 'i', 'l', 't', 'e', 'r']
    | .formatter => ['F', 'o', 'r', 'm', 'a', 't', 't', 'e', 'r'] := by
  cases f <;> rfl

theorem fn_inj (f g : EngFn) (x y : Str) (h : f.debug ++ x = g.debug ++ y) : f.discriminant = g.discriminant ∧ x = y := by
  rw [fn_text, fn_text] at h
  cases hf : f.discriminant <;> cases hg : g.discriminant <;> rw [hf, hg] at h <;> simp at h ⊢ <;> exact h

theorem lit_close : "}, templates: {".toList = '}' :: [',', ' ', 't', 'e', 'm', 'p', 'l', 'a', 't', 'e', 's', ':', ' ', '{'] := rfl
theorem lit_depth : "}, max_include_depth: ".toList = '}' :: [',', ' ', 'm', 'a', 'x', '_', 'i', 'n', 'c', 'l', 'u', 'd', 'e', '_', 'd', 'e', 'p', 't', 'h', ':', ' '] := rfl

/-! Errors -/

theorem kind_Syntax : "Syntax".toList = ['S', 'y', 'n', 't', 'a', 'x'] := rfl
theorem kind_Render : "Render".toList = ['R', 'e', 'n', 'd', 'e', 'r'] := rfl
theorem kind_Filter : "Filter".toList = ['F', 'i', 'l', 't', 'e', 'r'] := rfl
theorem kind_Format : "Format".toList = ['F', 'o', 'r', 'm', 'a', 't'] := rfl
theorem kind_Serialize : "Serialize".toList = ['S', 'e', 'r', 'i', 'a', 'l', 'i', 'z', 'e'] := rfl
theorem kind_Io : "Io(".toList = ['I', 'o', '('] := rfl
theorem lit_some : "Some(".toList = ['S', 'o', 'm', 'e', '('] := rfl
theorem lit_par : ")".toList = [')'] := rfl

theorem shown_syntax (io : Nat → Str) : ErrKind.syntax.debug io = "Syntax".toList := by delta ErrKind.debug; dsimp only
theorem shown_render (io : Nat → Str) : ErrKind.render.debug io = "Render".toList := by delta ErrKind.debug; dsimp only
theorem shown_filter (io : Nat → Str) : ErrKind.filter.debug io = "Filter".toList := by delta ErrKind.debug; dsimp only
theorem shown_format (io : Nat → Str) : ErrKind.format.debug io = "Format".toList := by delta ErrKind.debug; dsimp only
theorem shown_serialize (io : Nat → Str) : ErrKind.serialize.debug io = "Serialize".toList := by delta ErrKind.debug; dsimp only
theorem shown_io (io : Nat → Str) (x : Nat) : (ErrKind.io x).debug io = "Io(".toList ++ io x ++ ")".toList := by delta ErrKind.debug; dsimp only

theorem kind_inj {io : Nat → Str} (hio : Readable io) (k k' : ErrKind) (x y : Str) (h : k.debug io ++ x = k'.debug io ++ y) : k = k' ∧ x = y := by
  cases k <;> cases k' <;> simp only [shown_syntax, shown_render, shown_filter, shown_format, shown_serialize, shown_io, lit_par, kind_Syntax, kind_Render, kind_Filter, kind_Format, kind_Serialize, kind_Io, List.append_assoc, List.cons_append, List.nil_append] at h <;>
    simp at h
  case io.io a b =>
    obtain ⟨rfl, h2⟩ := hio _ _ _ _ h
    simp at h2
    exact ⟨rfl, h2⟩
  all_goals exact ⟨rfl, h⟩

theorem option_inj {α : Type} {f : α → Str} (hf : ∀ a b x y, f a ++ x = f b ++ y → a = b ∧ x = y) (o o' : Option α) (x y : Str)
    (h : debugOption f o ++ x = debugOption f o' ++ y) : o = o' ∧ x = y := by
  cases o <;> cases o' <;> simp only [debugOption, lit_None, lit_some, lit_par, List.append_assoc, List.cons_append, List.nil_append] at h <;> simp at h
  · exact ⟨rfl, h⟩
  · obtain ⟨rfl, h2⟩ := hf _ _ _ _ h
    simp at h2
    exact ⟨rfl, h2⟩

theorem comma_free (n : Nat) : ',' ∉ showInt (n : Int) := by
  intro h
  rw [showInt_ofNat] at h
  exact absurd ((numeral_toDigits n).digits _ h) (by decide)

theorem lit_col : ", col: ".toList = ',' :: [' ', 'c', 'o', 'l', ':', ' '] := rfl
theorem lit_width : ", width: ".toList = ',' :: [' ', 'w', 'i', 'd', 't', 'h', ':', ' '] := rfl
theorem lit_text : ", text: ".toList = ',' :: [' ', 't', 'e', 'x', 't', ':', ' '] := rfl

theorem pretty_inj (p p' : Pretty) (x y : Str) (h : p.debug (debugStr printable) ++ x = p'.debug (debugStr printable) ++ y) : p = p' ∧ x = y := by
  unfold Pretty.debug at h
  simp only [List.append_assoc] at h
  have h1 := List.append_cancel_left h
  rw [lit_col, lit_width, lit_text] at h1
  obtain ⟨e1, h2⟩ := up_to (comma_free _) (comma_free _) h1
  obtain ⟨e2, h3⟩ := up_to (comma_free _) (comma_free _) (List.append_cancel_left h2)
  obtain ⟨e3, h4⟩ := up_to (comma_free _) (comma_free _) (List.append_cancel_left h3)
  obtain ⟨e4, h5⟩ := str_inj (List.append_cancel_left h4)
  have e1 := C32_integer_inj e1
  have e2 := C32_integer_inj e2
  have e3 := C32_integer_inj e3
  refine ⟨?_, List.append_cancel_left h5⟩
  cases p
  cases p'
  simp only at e1 e2 e3 e4
  rw [Pretty.mk.injEq]
  exact ⟨by omega, by omega, by omega, e4⟩

end Dbg
end Upon
