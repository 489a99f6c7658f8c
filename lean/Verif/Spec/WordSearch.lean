import Verif.Spec.WordChain
import Verif.Spec.ConfiguredSearch
/-!
# Searching for a chain of strings with `Rebulk` (`C117`)
-/
namespace Rebulk.Spec
variable {Ctx : Type}

/-- The parts of a chain are these strings, each one exactly once. -/
inductive WordParts : PartObjs Ctx → List Word → Prop where
  | nil : WordParts .nil []
  | cons {rest ws} (info : PatternInfo Ctx) (id : Nat) (w : Word) : WordParts rest ws →
      WordParts (.cons (.string info (Pattern.init id w.opts) {} [w.text]) 1 (some 1) false rest) (w :: ws)

/-- The hits at these places. -/
noncomputable def Config.placeHits (c : Config) (input : Str) (l : List (Nat × Nat)) : List Hit :=
  l.mapIdx (fun i sp => ⟨sp.1, sp.2, i, c.valueOf c.name .none (textAt input sp.1 sp.2), c.name, c.tags⟩)

end Rebulk.Spec
