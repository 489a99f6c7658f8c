import Verif.Spec.Chain
/-!
# Where the parts of an attempt are searched
-/
namespace Rebulk.Spec

/-- What the part emits stops no later than the occurrence it comes from. -/
def EndsInside (part : Part) : Prop :=
  ∀ s em raws, part.search s = .ok (em, raws) → ∀ e ∈ em, ∃ r ∈ raws, r.root.matchIndex = e.root.matchIndex ∧ e.root.stop ≤ r.root.stop

/-- Each part is searched in the rest of the input from some place `q`, at or after the position `pos` its matches are counted from; and
from that very position if an earlier part of the attempt was found. -/
def PlacedLate (input : Str) (steps : List Step) : Prop :=
  ∀ (i : Nat) (s : Step), steps[i]? = some s → ∃ q : Nat, q ≤ input.length ∧ s.text = input.drop q ∧ 0 ≤ s.pos ∧ s.pos ≤ q ∧
    ((∃ i' < i, ∃ s', steps[i']? = some s' ∧ s'.raws ≠ []) → s.pos = q)

end Rebulk.Spec
