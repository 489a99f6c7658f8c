import Verif.Spec.Failing
import Verif.Spec.Rebulk
import Verif.Model.FailingRules
/-!
# Specification: the default rules when values cannot be read (`C124`)
-/
namespace Rebulk.Spec

/-- Two matches that cannot be compared share a character with a public match: they are two objects of one span, and the value of one of them cannot be read. -/
def Clash (broken : Match → Option Nat) (l : List Match) : Prop :=
  ∃ a ∈ l, ∃ b ∈ l, ¬ SafePair broken a b ∧ ∃ m ∈ l, m.priv = false ∧ Overlap a m

/-- The same for a list of matches that are all different objects, told by their positions. -/
def ClashAt (broken : Match → Option Nat) (l : List Match) : Prop :=
  ∃ (i j : Nat) (a b : Match), i ≠ j ∧ l[i]? = some a ∧ l[j]? = some b ∧ a.span = b.span ∧ (broken a ≠ none ∨ broken b ≠ none) ∧
    ∃ m ∈ l, m.priv = false ∧ Overlap a m

/-- Whether the value of a match can be read does not depend on which object it is. -/
def ByContent (broken : Match → Option Nat) : Prop := ∀ m m', content m = content m' → broken m = broken m'

/-- The conflict solvers of matches answer `"__default__"`, `None` or one of the two matches they are given, or raise. -/
def Choosing (custom : Nat → Match → Match → Except PyErr SolverRet) : Prop :=
  ∀ k a b r, custom k a b = .ok (.drop r) → r = a ∨ r = b

/-- Two runs with the default rules alone and the same everything, but for the values: in the second one, reading the value of `m` raises
`.user n` when `broken m = some n`. -/
structure OnlyFormattersDiffer (broken : Match → Option Nat) (env envF : Env (List Match)) : Prop where
  rules : ∃ custom order, env.rule = defaultRule (.withDefault custom) order ∧ envF = { env with rule := defaultRuleF broken (.withDefault custom) order } ∧
    Choosing custom ∧ ∀ l, (order l).Perm l
  truthy : env.truthy = listTruthy
  unchecked : env.checkKeys = false

end Rebulk.Spec
