import Verif.Model.Failing
import Verif.Spec.Consequences
/-!
# Specification: removal when values cannot be read
-/
namespace Rebulk.Spec

/-- Comparing `y` with `x` calls no formatter that raises: they are one object, or have different spans, or both values can be read. -/
def SafePair (broken : Match → Option Nat) (x y : Match) : Prop :=
  y.id = x.id ∨ y.span ≠ x.span ∨ (broken y = none ∧ broken x = none)

/-- Looking for `m` from the left meets a comparison that raises before a match equal to `m`: all the matches of `before` could be compared and are not
equal, the next one cannot. -/
def Stumbles (broken : Match → Option Nat) (l : List Match) (m : Match) : Prop :=
  ∃ before y after, l = before ++ y :: after ∧ (∀ x ∈ before, SafePair broken m x ∧ x.eqv m = false) ∧ ¬ SafePair broken m y

end Rebulk.Spec
