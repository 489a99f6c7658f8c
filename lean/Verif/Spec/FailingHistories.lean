import Verif.Spec.FailingExact
/-!
# Specification: removals when values cannot be read, in any container
-/
namespace Rebulk.Spec
open Matches

/-- Some lookup made before looks for `x` among the matches it gives now for a name, a tag, the start, the end or an index of `x`, and stumbles. -/
def LookupStumblesNow (broken : Match → Option Nat) (s : Matches) (x : Match) : Prop :=
  (s.nameD.isSome = true ∧ ∃ n, (x.name = some n ∧ n ≠ "") ∧ Stumbles broken (s.lookName n).2 x) ∨
  (s.tagD.isSome = true ∧ ∃ t, t ∈ x.tags ∧ Stumbles broken (s.lookTag t).2 x) ∨
  (s.startD.isSome = true ∧ Stumbles broken (s.lookStart x.start).2 x) ∨
  (s.endD.isSome = true ∧ Stumbles broken (s.lookEnd x.stop).2 x) ∨
  (s.indexD.isSome = true ∧ ∃ i, (x.start ≤ i ∧ i < x.stop) ∧ Stumbles broken (s.lookIndex i).2 x)

end Rebulk.Spec
