import Verif.Model.Handles
/-!
# Lists that belong to the caller
-/
namespace Rebulk.Spec

/-- The calls made on the container. -/
def callsOf : List HOp → List Matches.Op
  | [] => []
  | .call op _ :: r => op :: callsOf r
  | .change _ _ :: r => callsOf r

/-- A list filtered by a predicate, if there is one. -/
def filteredBy : Option (Match → Bool) → List Match → List Match
  | some f, l => l.filter f
  | none, l => l

/-- What a call gives the caller: the list found by the lookup, filtered by the predicate if there is one. -/
def given (predicate : Option (Match → Bool)) : Matches.Out → List (List Match)
  | .list l => [filteredBy predicate l]
  | _ => []

/-- The caller's lists, when each of them is a list of its own: it has what was found by the lookup, changed by the caller alone. -/
def ownLists : Matches → List HOp → List (List Match) → List (List Match)
  | _, [], held => held
  | s, .call op predicate :: r, held => ownLists (s.step op).1 r (held ++ given predicate (s.step op).2)
  | s, .change k f :: r, held => ownLists s r (held.modify k f)

/-- The lists belong to the caller: what it does with them does not matter to the container, and they have what it expects. -/
def BelongToCaller (s : Matches) (ops : List HOp) : Prop :=
  (Desk.run ⟨s, []⟩ ops).box = s.runOps (callsOf ops) ∧
  (Desk.run ⟨s, []⟩ ops).held.map (Handle.read (Desk.run ⟨s, []⟩ ops).box) = ownLists s ops []

/-- An `at_index` call without a predicate. -/
def isPlainAtIndex : HOp → Bool
  | .call (.atIndex _) none => true
  | _ => false

/-- The caller changes one of its lists. -/
def isChange : HOp → Bool
  | .change _ _ => true
  | _ => false

end Rebulk.Spec
