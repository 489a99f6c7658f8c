import Verif.Model.RuleLog
import Verif.Spec.Rules
/-!
# Specification of the log of the rule engine
-/
namespace Rebulk.Spec

/-- The calls made to the rules, the records left out. -/
def callsMade (events : List LogEvent) : List RuleEvent := events.filterMap (fun e => match e with | .call c => some c | _ => none)

/-- What the run of the rule `r`, of level `l`, leaves in the log: it is found disabled; or its condition is called and it stops there; or
its condition is called, then its consequence. Each call is announced, at level `l`. -/
inductive RuleLines (r : RuleRef) (l : Int) : List LogEvent → Prop where
  | off : RuleLines r l [.call (.enabled r), .disabled l r]
  | checked : RuleLines r l [.call (.enabled r), .checking l r, .call (.when_ r)]
  | ran : RuleLines r l [.call (.enabled r), .checking l r, .call (.when_ r), .triggered l r, .running l r, .call (.then_ r)]

/-- A part of the log: the record of a group of rules of one priority, at the greatest of their levels, then the run of rules of the group,
from the first one on. -/
def GroupPart (rules : List RuleInfo) (level : RuleRef → Option Int) (events : List LogEvent) : Prop :=
  ∃ (group : List RuleRef) (n p : Int) (runs : List (RuleRef × List LogEvent)),
    events = .group n group.length p :: (runs.map (fun x => x.2)).flatten ∧
    (∃ r ∈ group, level r = some n) ∧ (∀ r ∈ group, ∃ l, level r = some l ∧ l ≤ n) ∧
    (∀ r ∈ group, ∃ a ∈ rules, a.ref = r ∧ a.priority = p) ∧
    (∀ x ∈ runs, ∃ l, level x.1 = some l ∧ RuleLines x.1 l x.2) ∧ runs.map (fun x => x.1) <+: group

/-- The log is made of such parts. -/
def GroupedLog (rules : List RuleInfo) (level : RuleRef → Option Int) (events : List LogEvent) : Prop :=
  ∃ parts : List (List LogEvent), events = parts.flatten ∧ ∀ x ∈ parts, GroupPart rules level x

end Rebulk.Spec
