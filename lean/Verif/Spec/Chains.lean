import Verif.Spec.Mentions
/-
Vocabulary for C73: chains of include tags.
-/
namespace Upon.Spec

variable {σ : Type}

/-- An include of this name may find this template. -/
def MayFind (cfg : RenderCfg σ) (n : Str) (t : Template) : Prop :=
  match cfg.templateFn with
  | some f => ∃ asked, f asked n = .ok t
  | none => BMap.get cfg.templates n = some t

/-- Following include tags of these names, one after the other, leads from one template to another. Whether the tags are ever reached does not matter. -/
inductive ChainTo (cfg : RenderCfg σ) (tree : Template → Tree) (T : Tree) : List Str → Tree → Prop
  | here : ChainTo cfg tree T [] T
  | on {ns U n t} : ChainTo cfg tree T ns U → HasInclude U n → MayFind cfg n t → ChainTo cfg tree T (ns ++ [n]) (tree t)

end Upon.Spec
