import Verif.Spec.Ways
/-
Renders that differ only in the name of their template, or in where included templates come from.
-/
namespace Upon
open Spec
variable {σ : Type}

namespace Ways

/-- Both renders get the same templates; `R` relates what was asked before. -/
structure Alike (R : List Str → List Str → Prop) (c c' : RenderCfg σ) : Prop where
  cfg : c' = { c with templateFn := c'.templateFn }
  get : ∀ src nm (w w' : World σ), w.out = w'.out → R w.asked w'.asked →
    (getTemplate c src nm w).2 = (getTemplate c' src nm w').2 ∧ (getTemplate c src nm w).1.out = (getTemplate c' src nm w').1.out ∧
      R (getTemplate c src nm w).1.asked (getTemplate c' src nm w').1.asked

/-- The names of the templates being rendered: only that of the first may differ. -/
inductive Frames (n : Str) : List Frame → List Frame → Prop
  | same (fs) : Frames n fs fs
  | named (t pc s) : Frames n [⟨t, none, pc, s⟩] [⟨t, some n, pc, s⟩]
  | cons (f) {fs fs'} : Frames n fs fs' → Frames n (f :: fs) (f :: fs')

theorem Frames.length {n : Str} {fs fs' : List Frame} (h : Frames n fs fs') : fs.length = fs'.length := by
  induction h <;> simp_all

structure W (R : List Str → List Str → Prop) (w w' : World σ) : Prop where
  out : w.out = w'.out
  asked : R w.asked w'.asked

structure V (R : List Str → List Str → Prop) (n : Str) (v v' : VM σ) : Prop where
  frames : Frames n v.frames v'.frames
  stack : v.stack = v'.stack
  expr : v.expr = v'.expr
  w : W R v.w v'.w

/-- Related effects of an instruction. -/
inductive One (R : List Str → List Str → Prop) : OneStep σ → OneStep σ → Prop
  | next (pc st x) {w w'} : W R w w' → One R (.next pc st x w) (.next pc st x w')
  | incl (pc nm) : One R (.include_ pc nm) (.include_ pc nm)
  | inclWith (pc nm g) : One R (.includeWith pc nm g) (.includeWith pc nm g)
  | err (e) {w w'} : W R w w' → One R (.err e w) (.err e w')
  | crash : One R .crash .crash

inductive Ends (R : List Str → List Str → Prop) (n : Str) : RunRes σ → RunRes σ → Prop
  | ok {w w'} : W R w w' → Ends R n (.ok w) (.ok w')
  | err {e e' w w'} : NamedAs n e e' → W R w w' → Ends R n (.err e w) (.err e' w')
  | crash : Ends R n .crash .crash

inductive Stp (R : List Str → List Str → Prop) (n : Str) : StepRes σ → StepRes σ → Prop
  | next {v v'} : V R n v v' → Stp R n (.next v) (.next v')
  | halt {r r'} : Ends R n r r' → Stp R n (.halt r) (.halt r')

variable {R : List Str → List Str → Prop} {n : Str} {c c' : RenderCfg σ}

theorem ofRes {α : Type} {w w' : World σ} (hw : W R w w') (r : Res α) {k k' : α → OneStep σ} (h : ∀ a, One R (k a) (k' a)) :
    One R (OneStep.ofRes w r k) (OneStep.ofRes w' r k') := by
  cases r with
  | ok a => exact h a
  | err e => exact .err e hw
  | crash => exact .crash

theorem emit (a : Alike R c c') (f : Formatter) (v : Value) (src : Str) (sp : Span) {w w' : World σ} (hw : W R w w')
    {k k' : World σ → OneStep σ} (h : ∀ w w', W R w w' → One R (k w) (k' w')) :
    One R (Upon.emit c f v src sp w k) (Upon.emit c' f v src sp w' k') := by
  have es : c'.sink = c.sink := by rw [a.cfg]
  have ee : c'.env = c.env := by rw [a.cfg]
  simp only [Upon.emit, es, ee, ← hw.out]
  split
  · exact h _ _ ⟨rfl, hw.asked⟩
  · refine ofRes ?_ _ fun _ => .crash
    exact ⟨rfl, hw.asked⟩

theorem exec (a : Alike R c c') (src : Str) (pc : Nat) (st : Stack) (x : Option Cow) {w w' : World σ} (hw : W R w w') (i : Instr) :
    One R (execInstr c src pc st x w i) (execInstr c' src pc st x w' i) := by
  have es : c'.sink = c.sink := by rw [a.cfg]
  have ee : c'.env = c.env := by rw [a.cfg]
  have ef : c'.functions = c.functions := by rw [a.cfg]
  have ed : c'.defaultFormatter = c.defaultFormatter := by rw [a.cfg]
  cases i <;> simp only [execInstr, es, ee, ef, ed]
  case jump => exact .next _ _ _ hw
  case jumpIfTrue => split; · exact .crash
                     · split <;> exact .next _ _ _ hw
  case jumpIfFalse => split; · exact .crash
                      · split <;> exact .next _ _ _ hw
  case emit => split; · exact .crash
               · exact emit a _ _ _ _ hw fun _ _ h => .next _ _ _ h
  case emitRaw =>
    refine ofRes hw _ fun raw => ?_
    rw [← hw.out]
    split
    · exact .next _ _ _ ⟨rfl, hw.asked⟩
    · exact .err _ ⟨rfl, hw.asked⟩
  case emitWith =>
    refine ofRes hw _ fun nm => ?_
    split
    · split; · exact .crash
      · exact ofRes hw _ fun _ => emit a _ _ _ _ hw fun _ _ h => .next _ _ _ h
    · split; · exact .crash
      · exact emit a _ _ _ _ hw fun _ _ h => .next _ _ _ h
    · exact ofRes hw _ fun _ => .crash
  case loopStart => split; · exact .crash
                    · exact ofRes hw _ fun _ => .next _ _ _ hw
  case loopNext =>
    split
    · split <;> exact .next _ _ _ hw
    · exact .crash
  case withStart => split; · exact .crash
                    · exact .next _ _ _ hw
  case withEnd => split; · exact .next _ _ _ hw
                  · exact .crash
  case include_ => exact .incl _ _
  case includeWith => split; · exact .crash
                      · exact .inclWith _ _ _
  case exprStart =>
    refine ofRes hw _ fun _ => ?_
    split
    · exact .next _ _ _ hw
    · exact .crash
  case exprStartLit => split; · exact .next _ _ _ hw
                       · exact .crash
  case apply =>
    refine ofRes hw _ fun nm => ?_
    split
    · split; · exact .crash
      · exact ofRes hw _ fun _ => .next _ _ _ hw
    · exact ofRes hw _ fun _ => .crash
    · exact ofRes hw _ fun _ => .crash

theorem depth (a : Alike R c c') {v v' : VM σ} (h : V R n v v') : Stp R n (checkDepth c v) (checkDepth c' v') := by
  have em : c'.maxIncludeDepth = c.maxIncludeDepth := by rw [a.cfg]
  rw [checkDepth, checkDepth, em, ← h.frames.length]
  split
  · exact .halt (.err (.inl rfl) h.w)
  · exact .next h

/-- The first frame, and what is below it. -/
theorem Frames.inv {f : Frame} {fs fs' : List Frame} (h : Frames n (f :: fs) fs') :
    ∃ nm gs, fs' = { f with name := nm } :: gs ∧ Frames n fs gs ∧ (nm = f.name ∨ (f.name = none ∧ nm = some n)) ∧
      ∀ pc, Frames n ({ f with pc } :: fs) ({ f with pc, name := nm } :: gs) := by
  cases h with
  | same => exact ⟨f.name, fs, rfl, .same _, .inl rfl, fun _ => .same _⟩
  | named t pc s => exact ⟨some n, [], rfl, .same _, .inr ⟨rfl, rfl⟩, fun _ => .named _ _ _⟩
  | cons _ h => exact ⟨f.name, _, rfl, h, .inl rfl, fun _ => .cons _ h⟩

theorem attach (e : Err) {a b : Option Str} (h : b = a ∨ (a = none ∧ b = some n)) : NamedAs n (e.attachName a) (e.attachName b) := by
  rcases h with rfl | ⟨rfl, rfl⟩
  · exact .inl rfl
  · cases he : e.name with
    | none => exact .inr ⟨he, by simp [Err.attachName, Err.withTemplateName, he]⟩
    | some x => exact .inl (by obtain ⟨k, m, r, p⟩ := e; cases he; rfl)

theorem step (a : Alike R c c') {v v' : VM σ} (h : V R n v v') : Stp R n (step c v) (step c' v') := by
  obtain ⟨fr, st, x, w⟩ := v
  obtain ⟨fr', st', x', w'⟩ := v'
  obtain ⟨hf, h1, h2, hw⟩ := h
  cases h1; cases h2
  cases fr with
  | nil =>
    cases fr' with
    | nil => exact .halt (.ok hw)
    | cons => cases hf
  | cons f fs =>
    obtain ⟨nm, gs, e, hfs, hn, hpc⟩ := Frames.inv hf
    simp only at e
    subst e
    simp only [Upon.step]
    split
    · split
      · split
        · split
          · exact depth a ⟨hfs, rfl, rfl, hw⟩
          · exact .halt .crash
        · exact depth a ⟨hfs, rfl, rfl, hw⟩
      · exact .halt .crash
    · next i _ =>
      have := exec a f.tmpl.source f.pc st x hw i
      generalize execInstr c f.tmpl.source f.pc st x w i = o at this
      generalize execInstr c' f.tmpl.source f.pc st x w' i = o' at this
      cases this with
      | next pc st x hw => exact .next ⟨hpc pc, rfl, rfl, hw⟩
      | err e hw => exact .halt (.err (attach e hn) hw)
      | crash => exact .halt .crash
      | incl pc m =>
        obtain ⟨g1, g2, g3⟩ := a.get f.tmpl.source m w w' hw.out hw.asked
        simp only
        cases hg : getTemplate c f.tmpl.source m w with
        | mk w1 r1 =>
          cases hg' : getTemplate c' f.tmpl.source m w' with
          | mk w2 r2 =>
            rw [hg, hg'] at g1 g2 g3
            simp only at g1 g2 g3
            subst g1
            cases r1 with
            | ok t => exact depth a ⟨.cons _ (hpc pc), rfl, rfl, ⟨g2, g3⟩⟩
            | err e => exact .halt (.err (attach e hn) ⟨g2, g3⟩)
            | crash => exact .halt .crash
      | inclWith pc m g =>
        obtain ⟨g1, g2, g3⟩ := a.get f.tmpl.source m w w' hw.out hw.asked
        simp only
        cases hg : getTemplate c f.tmpl.source m w with
        | mk w1 r1 =>
          cases hg' : getTemplate c' f.tmpl.source m w' with
          | mk w2 r2 =>
            rw [hg, hg'] at g1 g2 g3
            simp only at g1 g2 g3
            subst g1
            cases r1 with
            | ok t => exact depth a ⟨.cons _ (hpc pc), rfl, rfl, ⟨g2, g3⟩⟩
            | err e => exact .halt (.err (attach e hn) ⟨g2, g3⟩)
            | crash => exact .halt .crash

theorem run (a : Alike R c c') (k : Nat) {v v' : VM σ} (h : V R n v v') :
    (∀ r, run c k v = some r → ∃ r', run c' k v' = some r' ∧ Ends R n r r') ∧
    (∀ r', run c' k v' = some r' → ∃ r, run c k v = some r ∧ Ends R n r r') := by
  induction k generalizing v v' with
  | zero =>
    constructor
    · intro _ h; cases h
    · intro _ h; cases h
  | succ k ih =>
    have hs := step a h
    simp only [Upon.run]
    generalize Upon.step c v = s at hs
    generalize Upon.step c' v' = s' at hs
    cases hs with
    | next hv => exact ih hv
    | halt he => exact ⟨fun r h => by cases h; exact ⟨_, rfl, he⟩, fun r h => by cases h; exact ⟨_, rfl, he⟩⟩

theorem halts (a : Alike R c c') {v v' : VM σ} (h : V R n v v') :
    (∀ r, Halts c v r → ∃ r', Halts c' v' r' ∧ Ends R n r r') ∧ (∀ r', Halts c' v' r' → ∃ r, Halts c v r ∧ Ends R n r r') := by
  constructor
  · rintro r ⟨k, hk⟩
    obtain ⟨r', h', he⟩ := (run a k h).1 r hk
    exact ⟨r', ⟨k, h'⟩, he⟩
  · rintro r ⟨k, hk⟩
    obtain ⟨r', h', he⟩ := (run a k h).2 r hk
    exact ⟨r', ⟨k, h'⟩, he⟩

end Ways
end Upon
