import Verif.Proofs.Simplify
import Verif.Props.Partial
/-
C72: templates can be rewritten with the help of what the engine's functions do.
-/
namespace Upon
open Spec

section
variable {env : Env} {tree tree' : Template → Tree} {T T' : Tree} {r r' : Renderer}

/-- **C72** Pipelines can be fused, literals computed beforehand, filters that change nothing left out and the default formatter named, at any
places of the template and of the templates it includes: nothing changes but the place in an error. -/
theorem C72_to_string (h : Rewritten (Plain.Simplified env r.engine.functions r.engine.defaultFormatter) env tree tree' T T' r r') {res res' : Res Str}
    (h1 : r.ToString env res) (h2 : r'.ToString env res') : Unplaced res = Unplaced res' :=
  Plain.rewritten_to_string (Plain.sound_simplified env _ _) ⟨rfl, rfl, rfl⟩ h h1 h2

/-- **C72** So also on every writer that takes what it is given: the bytes written are the same, also when the render fails. -/
theorem C72_to_writer {ω : Type} (h : Rewritten (Plain.Simplified env r.engine.functions r.engine.defaultFormatter) env tree tree' T T' r r')
    {io : IoWriter ω} {log : ω → List UInt8} (ha : Accepts io log) {w₀ w w' : ω} {res res' : Res Unit} (h1 : r.ToWriter env io w₀ res w)
    (h2 : r'.ToWriter env io w₀ res' w') : Unplaced res = Unplaced res' ∧ (res ≠ .crash → log w = log w') :=
  rewritten_leaves (Plain.sound_simplified env _ _) ⟨rfl, rfl, rfl⟩ h ha h1 h2

end
end Upon
