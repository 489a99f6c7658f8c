import Verif.Model.Assign
import Verif.Spec.Consequences
/-!
# Specification of assignments to attributes of matches
-/
namespace Rebulk.Spec

/-- The attributes a container looks matches up by. -/
def isKey : Attr → Bool
  | .name _ | .tags _ | .start _ | .stop _ => true
  | _ => false

/-- The container holds the match object. -/
def HoldsObject (s : Matches) (id : Nat) : Prop := ∃ m ∈ s.delegate, m.id = id

/-- Match objects and an empty container: the object of identity `i` is `objs i`. -/
def ObjDesk.Fresh (isMarkers : Bool) (d : ObjDesk) : Prop :=
  (∀ i, (d.objs i).id = i) ∧ (∀ i, (d.objs i).marker = isMarkers) ∧ ∃ input, d.cont = Matches.empty isMarkers input

/-- A careful user: adds at the end, removes by value, looks up, and assigns to `name`, `tags`, `start`, `end` only of matches that the
container does not hold at that moment (any other attribute at any moment). -/
def Careful (d : ObjDesk) : Act → Prop
  | .call op => (isByValue op || isLookup op) = true
  | .set id a => isKey a = true → ¬ HoldsObject d.cont id

/-- What a careful user can obtain. -/
inductive CarefulRun (isMarkers : Bool) : ObjDesk → Prop where
  | start {d : ObjDesk} : ObjDesk.Fresh isMarkers d → CarefulRun isMarkers d
  | act {d : ObjDesk} (a : Act) : CarefulRun isMarkers d → Careful d a → CarefulRun isMarkers (d.act a).1

/-- Adding and reordering, and assignments to any attribute, but no lookup and no removal yet. -/
inductive BlindRun (isMarkers : Bool) : ObjDesk → Prop where
  | start {d : ObjDesk} : ObjDesk.Fresh isMarkers d → BlindRun isMarkers d
  | call {d : ObjDesk} (op : Matches.Op) : BlindRun isMarkers d → isBlind op = true → BlindRun isMarkers (d.act (.call op)).1
  | set {d : ObjDesk} (id : Nat) (a : Attr) : BlindRun isMarkers d → BlindRun isMarkers (d.act (.set id a)).1

/-- The attributes shown by the container are those the objects have now. -/
def ShowsObjects (d : ObjDesk) : Prop := ∀ m ∈ d.cont.delegate, m = d.objs m.id

/-- The object as it is after the assignment. -/
def afterSet (id : Nat) (a : Attr) (m : Match) : Match := if m.id = id then a.assign m else m

end Rebulk.Spec
