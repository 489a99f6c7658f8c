import Verif.Model.Project
import Verif.Spec.Container
/-!
# Specification of projections
-/
namespace Rebulk.Spec

/-- The elements of a list that are not equal (`eq`) to an earlier one nor to one of `seen`. -/
def distinctFrom {α : Type} (eq : α → α → Bool) (seen : List α) : List α → List α
  | [] => []
  | x :: xs => if seen.any (fun y => eq y x) then distinctFrom eq seen xs else x :: distinctFrom eq (seen ++ [x]) xs

/-- Distinct elements, in order of first occurrence. -/
def distinct {α : Type} (eq : α → α → Bool) (l : List α) : List α := distinctFrom eq [] l

/-- The names occurring in a list of matches (`None` included), in order of first occurrence. -/
def namesIn (l : List Match) : List (Option String) := distinct (fun a b => decide (a = b)) (l.map Match.name)

/-- The matches with a given name (`None` allowed). -/
def withName (l : List Match) (n : Option String) : List Match := l.filter (fun m => decide (m.name = n))

/-- What `to_dict` shows for a match. -/
def shown (details : Bool) (m : Match) : DV := if details then .mtch m else .val m.value

/-- Equality of shown items: `==` on matches, equality on values. -/
def shownEq : DV → DV → Bool
  | .mtch a, .mtch b => a.eqv b
  | .val a, .val b => decide (a = b)
  | _, _ => false

/-- The distinct things shown for name `n`. -/
def shownFor (details : Bool) (l : List Match) (n : Option String) : List DV :=
  distinct shownEq ((withName l n).map (shown details))

/-- The expected value of `to_dict()[n]` when the distinct things to show are `ds`. -/
def expectedEntry (firstValue enforceList : Bool) (ds : List DV) : Option Entry :=
  match ds with
  | [] => none
  | d :: rest =>
    if firstValue then some (if enforceList then .own [d] else .one d)
    else if enforceList then some (.own (d :: rest))
    else if rest.isEmpty then some (.one d) else some (.own (d :: rest))

/-- `c` is the element type an annotation pins: a class that is not a container, possibly under `list[...]` and under unions whose
other members are all `None`. -/
inductive Pins (env : ClassEnv) : Hint → Nat → Prop where
  | cls {c} : env.container c = false → Pins env (.cls c) c
  | list {h c} : Pins env h c → Pins env (.list (some h)) c
  | union {pre h post c} : (∀ x ∈ pre ++ post, x = .cls env.noneType) → h ≠ .cls env.noneType → Pins env h c →
      Pins env (.union (pre ++ h :: post)) c

/-- A field is incompatible with the declared keys: it pins an element type that is neither a subclass nor a superclass of the
declared type of the key of that name. -/
def Incompatible (env : ClassEnv) (declared : Dict String Key) (f : Field) : Prop :=
  ∃ k c, declared.get? f.name = some k ∧ Pins env f.hint c ∧ env.sub c k.valueType = false ∧ env.sub k.valueType c = false

/-- The values of the matches named `n`. -/
def valuesOf (l : List Match) (n : String) : List Val := (named l n).map Match.value

/-- What field `f` must receive from the matches `l`: all values for a list field, the first for another, nothing if there is
none. -/
def fieldValue (l : List Match) (f : Field) : Option FieldVal :=
  match f.hint with
  | .list _ => some (.all (valuesOf l f.name))
  | _ => (valuesOf l f.name).head?.map .one

end Rebulk.Spec
