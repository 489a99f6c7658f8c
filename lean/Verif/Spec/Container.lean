import Verif.Model.Matches
/-!
# Specification of the containers

What a user expects from a container holding the list `l` of matches, without indexes.
-/
namespace Rebulk.Spec

/-- Same matches with the same multiplicities, up to `Match.__eq__`, in any order. -/
def SameUpToEq (l₁ l₂ : List Match) : Prop := ∀ e : Match, l₁.countP (fun x => x.eqv e) = l₂.countP (fun x => x.eqv e)

/-- No two equal matches. -/
def NoEqual (l : List Match) : Prop := l.Pairwise (fun a b => a.eqv b = false)

/-- Matches with a given name. -/
def named (l : List Match) (n : String) : List Match := l.filter (fun m => decide (m.name = some n))
/-- Matches with a given tag. -/
def tagged (l : List Match) (t : String) : List Match := l.filter (fun m => decide (t ∈ m.tags))
/-- Matches starting at a given position. -/
def starting (l : List Match) (i : Int) : List Match := l.filter (fun m => decide (m.start = i))
/-- Matches ending at a given position. -/
def ending (l : List Match) (i : Int) : List Match := l.filter (fun m => decide (m.stop = i))
/-- Matches covering a given position. -/
def covering (l : List Match) (i : Int) : List Match := l.filter (fun m => decide (m.start ≤ i ∧ i < m.stop))

/-- Calls that leave the sequence alone. -/
def isLookup : Matches.Op → Bool
  | .append _ | .insert .. | .extend _ | .remove _ | .pop _ | .delItem _ | .clear | .delSlice .. | .setItem .. | .reverse => false
  | _ => true

/-- Adding and removing single matches. -/
def isAddRemove : Matches.Op → Bool
  | .append _ | .insert .. | .extend _ | .remove _ | .pop _ | .delItem _ | .clear => true
  | _ => false

/-- Adding at the end and removing. -/
def isAppendRemove : Matches.Op → Bool
  | .append _ | .extend _ | .remove _ | .pop _ | .delItem _ | .clear => true
  | _ => false

/-- Adding at the end, removing by value, clearing. -/
def isByValue : Matches.Op → Bool
  | .append _ | .extend _ | .remove _ | .clear => true
  | _ => false

/-- The matches a call adds. -/
def added : Matches.Op → List Match
  | .append m => [m]
  | .insert _ m => [m]
  | .extend ms => ms
  | .setItem _ m => [m]
  | _ => []

/-- The calls only add matches of the right kind (markers in a markers container, others in the other one). -/
def Fits (isMarkers : Bool) (op : Matches.Op) : Prop := ∀ m ∈ added op, m.marker = isMarkers

/-- A plain Python list under the same calls: the new list, and the exception raised if any. -/
def listStep (l : List Match) : Matches.Op → List Match × Option PyErr
  | .append m => (l ++ [m], none)
  | .insert i m => (l.insertIdx (clampIdx l.length i) m, none)
  | .extend ms => (l ++ ms, none)
  | .remove m =>
    match removeFirst (fun x => x.eqv m) l with
    | some l' => (l', none)
    | none => (l, some .valueError)
  | .pop i | .delItem i =>
    match normIdx l.length i with
    | some k => (l.eraseIdx k, none)
    | none => (l, some .indexError)
  | .clear => ([], none)
  | .setItem i m =>
    match normIdx l.length i with
    | some k => (l.set k m, none)
    | none => (l, some .indexError)
  | .reverse => (l.reverse, none)
  | _ => (l, none)

/-- A plain list under a history of calls. -/
def listRun (l : List Match) (ops : List Matches.Op) : List Match := ops.foldl (fun l op => (listStep l op).1) l

/-- The exception shown by an outcome. -/
def raisedBy : Matches.Out → Option PyErr
  | .raised e => some e
  | _ => none

/-- The matches having tag `t`, as often as they have it. -/
def taggedTimes (l : List Match) (t : String) : List Match := l.flatMap (fun m => List.replicate (m.tags.count t) m)

/-- Calls that change the sequence without ever reading an index. -/
def isBlind : Matches.Op → Bool
  | .append _ | .insert .. | .extend _ | .setItem .. | .reverse => true
  | _ => false

/-- Calls that only add. -/
def isAdd : Matches.Op → Bool
  | .append _ | .insert .. | .extend _ => true
  | _ => false

/-- A predicate that gives equal matches the same answer. -/
def RespectsEq (pred : Match → Bool) : Prop := ∀ a b : Match, a.eqv b = true → pred a = pred b

/-- The containers a user can obtain with adding, removing and lookup calls. -/
def Reachable (isMarkers : Bool) (input : Option Str) (s : Matches) : Prop :=
  ∃ ops : List Matches.Op, (∀ op ∈ ops, (isAddRemove op || isLookup op) = true ∧ Fits isMarkers op) ∧
    s = (Matches.empty isMarkers input).runOps ops

/-- The containers a user can obtain by adding at the end, removing and lookups, never holding two equal matches. -/
def ReachableInOrder (isMarkers : Bool) (input : Option Str) (s : Matches) : Prop :=
  ∃ ops : List Matches.Op, (∀ op ∈ ops, (isAppendRemove op || isLookup op) = true ∧ Fits isMarkers op) ∧
    (∀ n, NoEqual ((Matches.empty isMarkers input).runOps (ops.take n)).delegate) ∧
    s = (Matches.empty isMarkers input).runOps ops

/-- The containers a user can obtain by adding at the end, removing by value, clearing and lookups; equal matches are allowed. -/
def ReachableByValue (isMarkers : Bool) (input : Option Str) (s : Matches) : Prop :=
  ∃ ops : List Matches.Op, (∀ op ∈ ops, (isByValue op || isLookup op) = true ∧ Fits isMarkers op) ∧
    s = (Matches.empty isMarkers input).runOps ops

/-- `x` covers the index `i`. -/
def Covers (x : Match) (i : Int) : Prop := x.start ≤ i ∧ i < x.stop

/-- `l` holds a match equal (`==`) to `e`. -/
def Holds (l : List Match) (e : Match) : Prop := ∃ x ∈ l, x.eqv e = true

end Rebulk.Spec
