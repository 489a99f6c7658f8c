import Verif.Model.Raising
/-!
# Specification: user functions that raise
-/
namespace Rebulk.Spec
variable {Ctx : Type}

/-- Some validator or processor of the pattern raises `e` on some argument. -/
def ConfigRaises (p : RPattern) (e : PyErr) : Prop :=
  (∃ k v t, (k, some v) ∈ p.validators ∧ v t = .error e) ∨
  (∃ v t, p.defaultValidator = some v ∧ v t = .error e) ∨
  (∃ g t, p.preMatch = some g ∧ g t = .error e) ∨
  (∃ g t, p.postMatch = some g ∧ g t = .error e) ∨
  (∃ g l, p.postProcessor = some g ∧ g l = .error e)

mutual
/-- Some user function of the pattern object raises `e` on some argument: its validators and processors, its functions or the iterators
they return, its chain breaker, or one of the patterns in its parts. -/
def UserRaises : RPatternObj Ctx → PyErr → Prop
  | .string _ p _ _, e => ConfigRaises p e
  | .regex _ p _ _, e => ConfigRaises p e
  | .functional _ p fs, e => ConfigRaises p e ∨ ∃ f ∈ fs, ∃ s, f s = .error e ∨ ∃ r, f s = .ok r ∧ r.after = some e
  | .chain _ p b parts, e => ConfigRaises p e ∨ (∃ g l, b = some g ∧ g l = .error e) ∨ UserRaisesIn parts e
/-- Same for the parts of a chain. -/
def UserRaisesIn : RPartObjs Ctx → PyErr → Prop
  | .nil, _ => False
  | .cons p _ _ _ rest, e => UserRaises p e ∨ UserRaisesIn rest e
end

/-- The exceptions a user function can cause: those it raises, and `RuntimeError` for a `StopIteration` that goes through a generator. -/
def CausedBy (raises : PyErr → Prop) (e : PyErr) : Prop := raises e ∨ (e = .runtimeError ∧ raises .stopIteration)

end Rebulk.Spec
