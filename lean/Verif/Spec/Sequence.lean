import Verif.Model.Sequence
import Verif.Spec.Container
/-!
# A Python list

What the calls of the sequence interface do to a plain list: the contents after the call, and what it returns or raises. Written from Python's
documentation of sequences, without the model of slices of `Model/Sequence.lean`.
-/
namespace Rebulk.Spec

/-- A negative index counts from the end. -/
def fromEnd (n : Nat) (i : Int) : Int := if i < 0 then i + n else i

/-- Where a slice with a positive step begins (at the first element if nothing is given), a slice with a negative step (at the last one). -/
def sliceFrom (n : Nat) (k : Int) : Option Int → Int
  | none => if 0 < k then 0 else (n : Int) - 1
  | some a => if 0 < k then max 0 (fromEnd n a) else min ((n : Int) - 1) (fromEnd n a)

/-- The position a slice does not reach. -/
def sliceTo (n : Nat) (k : Int) : Option Int → Int
  | none => if 0 < k then n else -1
  | some b => fromEnd n b

/-- The position `x` is in the slice `a:b:k`: it is between the bounds, a whole number of steps away from the first one. -/
def Chosen (n : Nat) (a b : Option Int) (k : Int) (x : Nat) : Prop :=
  (if 0 < k then sliceFrom n k a ≤ x ∧ x < sliceTo n k b else x ≤ sliceFrom n k a ∧ sliceTo n k b < x) ∧ k ∣ x - sliceFrom n k a

instance (n : Nat) (a b : Option Int) (k : Int) (x : Nat) : Decidable (Chosen n a b k x) := by unfold Chosen; exact inferInstance

/-- The positions of a slice, from left to right for a positive step, from right to left for a negative one. -/
def positions (n : Nat) (a b : Option Int) (k : Int) : List Nat :=
  if 0 < k then (List.range n).filter (fun x => decide (Chosen n a b k x)) else ((List.range n).filter (fun x => decide (Chosen n a b k x))).reverse

/-- The elements at some positions. -/
def elementsAt {α} (l : List α) (ps : List Nat) : List α := ps.filterMap (fun i => l[i]?)

/-- The list without the positions of a slice. -/
def withoutSlice {α} (l : List α) (a b : Option Int) (k : Int) : List α :=
  elementsAt l ((List.range l.length).filter (fun x => !decide (Chosen l.length a b k x)))

/-- The new value at position `x`: the `j`-th one if `x` is the `j`-th position of the slice, the old one `m` if it is not in the slice. -/
def newValue {α} (ps : List Nat) (vs : List α) (x : Nat) (m : α) : α :=
  match ps.idxOf? x with
  | some j => vs.getD j m
  | none => m

/-- The list with new values at the positions of a slice. -/
def withSlice {α} (l : List α) (a b : Option Int) (k : Int) (vs : List α) : List α :=
  l.mapIdx (newValue (positions l.length a b k) vs)

/-- The list with the slice `a:b` (of step 1) replaced. -/
def spliced {α} (l : List α) (a b : Option Int) (vs : List α) : List α :=
  l.take (sliceFrom l.length 1 a).toNat ++ vs ++ l.drop (max (sliceFrom l.length 1 a) (sliceTo l.length 1 b)).toNat

/-- What a list call returns. -/
inductive Answer where
  | nothing
  | one (m : Match)
  | items (l : List Match)
  | num (n : Int)
  | flag (b : Bool)
  | raised (e : PyErr)

/-- The values on the right side of a slice assignment. -/
def itemsAt (l : List Match) : Rhs → List Match
  | .list ms => ms
  | .oneShot ms => ms
  | .self => l

/-- The position `i` is before `stop`, if there is a stop. -/
def notPast (n : Nat) (i : Nat) : Option Int → Bool
  | none => true
  | some e => decide ((i : Int) < fromEnd n e)

/-- The element at position `i` is equal to `m`, at or after `start` and before `stop`. -/
def indexHit (l : List Match) (m : Match) (start : Int) (stop : Option Int) (i : Nat) : Bool :=
  decide (fromEnd l.length start ≤ i) && notPast l.length i stop && (l[i]?.any (fun x => x.eqv m))

/-- The first position at or after `start`, and before `stop`, of an element equal to `m`. -/
def firstIndex (l : List Match) (m : Match) (start : Int) (stop : Option Int) : Option Nat :=
  (List.range l.length).find? (indexHit l m start stop)

/-- `l[i]`. -/
def itemAnswer (l : List Match) (i : Int) : Answer :=
  match pyGet l i with | some m => .one m | none => .raised .indexError

/-- Deleting a slice. -/
def delAnswer (l : List Match) (a b step : Option Int) : List Match × Answer :=
  if step.getD 1 = 0 then (l, .raised .valueError) else (withoutSlice l a b (step.getD 1), .nothing)

/-- Assigning a slice. -/
def setAnswer (l : List Match) (a b step : Option Int) (vs : List Match) : List Match × Answer :=
  if step.getD 1 = 0 then (l, .raised .valueError)
  else if step.getD 1 = 1 then (spliced l a b vs, .nothing)
  else if (positions l.length a b (step.getD 1)).length = vs.length then (withSlice l a b (step.getD 1) vs, .nothing)
  else (l, .raised .valueError)

/-- Outcome of a call of `Spec/Container.lean`'s `listStep`. -/
def plainAnswer : Option PyErr → Answer
  | none => .nothing
  | some e => .raised e

/-- A plain Python list under the same calls. Lookups, which lists do not have, leave it alone (and nothing is said of their result). -/
def listCall (l : List Match) : SOp → List Match × Option Answer
  | .base (.delSlice a b) => ((delAnswer l a b none).1, some (delAnswer l a b none).2)
  | .base (.pop i) => ((listStep l (.pop i)).1, some (itemAnswer l i))
  | .base op => ((listStep l op).1, if isLookup op then none else some (plainAnswer (listStep l op).2))
  | .setSlice a b k rhs => ((setAnswer l a b k (itemsAt l rhs)).1, some (setAnswer l a b k (itemsAt l rhs)).2)
  | .delSlice a b k => ((delAnswer l a b k).1, some (delAnswer l a b k).2)
  | .getSlice a b k => (l, some (if k.getD 1 = 0 then .raised .valueError else .items (elementsAt l (positions l.length a b (k.getD 1)))))
  | .getItem i => (l, some (itemAnswer l i))
  | .len => (l, some (.num l.length))
  | .iterate => (l, some (.items l))
  | .reversed => (l, some (.items l.reverse))
  | .contains m => (l, some (.flag (l.any (fun x => x.eqv m))))
  | .count m => (l, some (.num (l.countP (fun x => x.eqv m))))
  | .index m a b => (l, some (match firstIndex l m a b with | some i => .num i | none => .raised .valueError))
  | .extendSelf => (l ++ l, some .nothing)

/-- A plain list under a history of calls. -/
def listCalls (l : List Match) (ops : List SOp) : List Match := ops.foldl (fun l op => (listCall l op).1) l

/-- What the outcome of a call shows of a list call (a slice of a container shows its elements). -/
def answerOf : SOut → Option Answer
  | .base .unit => some .nothing
  | .base (.one m) => some (.one m)
  | .base (.raised e) => some (.raised e)
  | .base _ => none
  | .container s => some (.items s.delegate)
  | .items l => some (.items l)
  | .num n => some (.num n)
  | .flag b => some (.flag b)

/-- The call acted as the list call: same contents, same answer (when lists have the call). -/
def ActsAsList (l : List Match) (op : SOp) (s' : Matches) (out : SOut) : Prop :=
  s'.delegate = (listCall l op).1 ∧ ∀ a, (listCall l op).2 = some a → answerOf out = some a

/-- The call raised. -/
def SRaised : SOut → Prop
  | .base (.raised _) => True
  | _ => False

/-- The call only adds matches of the right kind; slices are read from a container of matches (not of markers, `C19`); no iterator or generator is
assigned to a slice. -/
def PlainCall (isMarkers : Bool) (l : List Match) : SOp → Prop
  | .base op => Fits isMarkers op
  | .setSlice _ _ _ (.oneShot _) => False
  | .setSlice _ _ _ rhs => ∀ m ∈ itemsAt l rhs, m.marker = isMarkers
  | .getSlice .. => isMarkers = false
  | _ => True

/-- The call deletes a slice of at least two matches. -/
def deletesMany (l : List Match) : SOp → Bool
  | .base (.delSlice a b) => decide (2 ≤ (positions l.length a b 1).length)
  | .delSlice a b k => decide (2 ≤ (positions l.length a b (k.getD 1)).length)
  | _ => false

end Rebulk.Spec
