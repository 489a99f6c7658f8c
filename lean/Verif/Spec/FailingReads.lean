import Verif.Model.FailingReads
import Verif.Spec.Project
import Verif.Spec.Truth
/-!
# Specification: reading results when a formatter raises
-/
namespace Rebulk.Spec

/-- What a call does that reads the values of `needed`, one after the other, and would return `r` if they could all be read. -/
def readsOr {α : Type} (broken : Match → Option Nat) (needed : List Match) (r : Except PyErr α) : Except PyErr α :=
  match needed.findSome? broken with
  | some n => .error (.user n)
  | none => r

/-- The value of every one of these matches can be read. -/
def Readable (broken : Match → Option Nat) (l : List Match) : Prop := ∀ m ∈ l, broken m = none

/-- Two matches have the same name and the same span, and the value of one of them cannot be read. -/
def SamePlaceClash (broken : Match → Option Nat) (l : List Match) : Prop :=
  ∃ x ∈ l, ∃ y ∈ l, x.id ≠ y.id ∧ x.name = y.name ∧ x.span = y.span ∧ broken x ≠ none

/-- `m` is to be checked against the declared key `k`: a non-empty declared name, public, no (truthy) literal value. -/
def Due (declared : Dict String Key) (m : Match) (k : Key) : Prop :=
  (∃ n, m.name = some n ∧ n ≠ "" ∧ declared.get? n = some k) ∧ m.priv = false ∧ ¬ IsTrue m.lit

/-- The value of `m` is neither `None` nor an instance of the declared type. -/
def Violates (isinstance : Val → Nat → Bool) (m : Match) (k : Key) : Prop := m.value ≠ .none ∧ isinstance m.value k.valueType = false

end Rebulk.Spec
