import Verif.Spec.Failing
import Verif.Spec.Container
/-!
# Specification: deletions by position when values cannot be read
-/
namespace Rebulk.Spec

/-- Some lookup made before looks for `x` among the matches it gives for a name, a tag, the start, the end or an index of `x`, and stumbles. -/
def LookupStumbles (broken : Match → Option Nat) (s : Matches) (x : Match) : Prop :=
  (s.nameD.isSome = true ∧ ∃ n, x.name = some n ∧ n ≠ "" ∧ Stumbles broken (named s.delegate n) x) ∨
  (s.tagD.isSome = true ∧ ∃ t, t ∈ x.tags ∧ Stumbles broken (tagged s.delegate t) x) ∨
  (s.startD.isSome = true ∧ Stumbles broken (starting s.delegate x.start) x) ∨
  (s.endD.isSome = true ∧ Stumbles broken (ending s.delegate x.stop) x) ∨
  (s.indexD.isSome = true ∧ ∃ i, x.start ≤ i ∧ i < x.stop ∧ Stumbles broken (covering s.delegate i) x)

/-- The container, or a lookup made before, holds the match. -/
def HeldBy (s : Matches) (y : Match) : Prop :=
  y ∈ s.delegate ∨ (∃ d k, s.nameD = some d ∧ y ∈ d.getList k) ∨ (∃ d k, s.tagD = some d ∧ y ∈ d.getList k) ∨
  (∃ d k, s.startD = some d ∧ y ∈ d.getList k) ∨ (∃ d k, s.endD = some d ∧ y ∈ d.getList k) ∨ (∃ d k, s.indexD = some d ∧ y ∈ d.getList k)

end Rebulk.Spec
