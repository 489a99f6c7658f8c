import Verif.Spec.Project
/-!
# Specification of `to_dict()` for matches whose values are lists
-/
namespace Rebulk.Spec

/-- The value of a match, given the contents `h` of the list objects: a match whose literal value is the list object `a` (`addr m = some a`)
has the value it would have with the contents of this list as literal value. -/
def currentValue (h : ListHeap) (addr : Match → Option Nat) (m : Match) : Val :=
  match addr m with
  | some a => ({ m with lit := .list (h a) } : Match).value
  | none => m.value

/-- Adds at the end of `acc` those values that are not yet there, one after the other. -/
def addNew (acc : List Val) : List Val → List Val
  | [] => acc
  | v :: vs => if v ∈ acc then addNew acc vs else addNew (acc ++ [v]) vs

/-- What `to_dict()[n]` is for a name whose matches have the values `vs`, in position order. A list-valued first match gives its elements,
a list-valued later match counts as a single value. -/
def expectedValue (firstValue enforceList : Bool) : List Val → Option Val
  | [] => none
  | .list elems :: vs => some (.list (if firstValue then elems else addNew elems vs))
  | v :: vs =>
    if firstValue then some (if enforceList then .list [v] else v)
    else if enforceList then some (.list (addNew [v] vs))
    else if vs.all (fun w => decide (w = v)) then some v
    else some (.list (addNew [v] vs))

/-- The Python value of an item of the result. -/
def itemValue (h : ListHeap) : DV → Val
  | .val v => v
  | .ref a => .list (h a)
  | .mtch m => .obj m.id

/-- The Python value of an entry of the result, given the contents of the list objects. -/
def entryValue (h : ListHeap) : Entry → Val
  | .one d => itemValue h d
  | .own l => .list (l.map (itemValue h))
  | .alias a => .list (h a)

end Rebulk.Spec
