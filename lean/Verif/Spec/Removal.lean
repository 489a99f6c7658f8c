import Verif.Spec.Consequences
/-!
# Specification of removal in closed form

`list.remove` takes out the first match *equal* to the argument. Removing several answers in turn therefore takes out, in each class of equal matches,
the first ones, as many as there are answers in that class. Positions are what `list.index` counts; nothing here follows the loop of the code.
-/
namespace Rebulk.Spec

/-- How many matches of `l` equal `m`. -/
def equalTo (m : Match) (l : List Match) : Nat := (l.filter (fun x => x.eqv m)).length

/-- `l` without, in each class of equal matches, its first `k` members, where `k` is the number of answers in that class: the match at position `i` stays
when at least `k` equal ones stand before it. -/
def withoutFirst (ms l : List Match) : List Match :=
  (l.zipIdx.filter (fun x => decide (equalTo x.1 ms ≤ equalTo x.1 (l.take x.2)))).map Prod.fst

end Rebulk.Spec
