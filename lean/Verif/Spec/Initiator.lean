import Verif.Model.Match
/-!
# The initiator of a match
-/
namespace Rebulk.Spec

/-- The parent, its parent and so on, until the first one that is empty (an empty match is false, and so ends the climb). -/
def climbed (m : Match) : List Core := m.ancestors.takeWhile (fun p => decide (p.start ≠ p.stop))

/-- The last match reached by the climb. -/
def topOf (m : Match) : Core := ((climbed m).getLast?).getD { start := m.start, stop := m.stop, value := m.value, name := m.name }

/-- The raw positions of the last match reached by the climb. -/
def topRaw (m : Match) : Int × Int :=
  match (climbed m).getLast? with
  | some p => (p.start, p.stop)
  | none => (m.rawStart.getD m.start, m.rawStop.getD m.stop)

end Rebulk.Spec
