import Verif.Spec.Rules
/-!
# Dependencies given as rule objects
-/
namespace Rebulk.Spec

/-- A dependency on the class instead of on an object of it. -/
def classOf : DepItem → DepItem
  | .cls c => .cls c
  | .inst x => .cls x.cls

/-- The dependencies with classes for objects. -/
def classesOf : Dependency → Dependency
  | .none => .none
  | .one d => .one (classOf d)
  | .many l => .many (l.map classOf)

/-- The same rule, its dependencies being given as classes. -/
def withClasses (r : RuleInfo) : RuleInfo := { r with dependency := classesOf r.dependency }

/-- Where a rule depends on an object, a rule of the class of this object is registered at the priority of the dependent rule. -/
def ObjectsRegistered (rules : List RuleInfo) : Prop :=
  ∀ r ∈ rules, ∀ x, Asks r.dependency (.inst x) → ∃ r' ∈ rules, r'.priority = r.priority ∧ r'.cls = x.cls

end Rebulk.Spec
