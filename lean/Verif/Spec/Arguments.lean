import Verif.Model.Arguments
/-!
# What the arguments of lookups mean
-/
namespace Rebulk.Spec

/-- The element of a list at a Python index: from the start when non-negative, from the end when negative, `None` when out
of range. -/
def AtPyIndex (l : List Match) (i : Int) (o : Option Match) : Prop :=
  (∀ k : Nat, i = k → o = l[k]?) ∧ (∀ k : Nat, i = -(k : Int) - 1 → o = l.reverse[k]?)

/-- The results `c` of a lookup, given a predicate and an index or not: those that satisfy the predicate, in order; with an index, the one at this index. -/
def Selected (c : List Match) (predicate : Option (Match → Bool)) (index : Option Int) : FResult → Prop
  | .list l => index = none ∧ l = (match predicate with | some f => c.filter f | none => c)
  | .one o => ∃ i, index = some i ∧ AtPyIndex (match predicate with | some f => c.filter f | none => c) i o

/-- A predicate as an argument: `None` when there is none. -/
def predArg : Option (Match → Bool) → Arg
  | some f => .fn f
  | none => .none

/-- An index as an argument. -/
def indexArg : Option Int → Arg
  | some i => .int i
  | none => .none

/-- A call selects from `c`. -/
def Selects (c : List Match) (predicate : Option (Match → Bool)) (index : Option Int) (r : Except PyErr FResult) : Prop :=
  ∃ x, r = .ok x ∧ Selected c predicate index x

/-- The names without repetition, in the order of their first occurrences. -/
def firsts : List String → List String
  | [] => []
  | n :: ns => n :: (firsts ns).filter (fun x => decide (x ≠ n))

end Rebulk.Spec
