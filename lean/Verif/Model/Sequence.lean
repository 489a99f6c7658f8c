import Verif.Model.Matches
/-!
# `rebulk/match.py`: the containers as mutable sequences

The rest of the sequence interface of `_BaseMatches`: slices with any step, slice assignment (`match.py:950-964`), slice deletion (`match.py:966-974`),
and the methods inherited from `collections.abc.Sequence` (`__iter__`, `__reversed__`, `__contains__`, `index`, `count`), which are all built on
`__getitem__` and `__len__` (`match.py:820-839`).
-/
namespace Rebulk

/-! ## Slices of Python lists (CPython's `PySlice_AdjustIndices` and `list_ass_subscript`; not code of `/repo`) -/

/-- A given bound, adjusted to a list of `n` elements; `neg` when the step is negative. -/
def adjustBound (n : Nat) (neg : Bool) (i : Int) : Int :=
  if i < 0 then (if i + n < 0 then (if neg then -1 else 0) else i + n)
  else if (n : Int) ≤ i then (if neg then (n : Int) - 1 else n)
  else i

/-- The adjusted first bound. -/
def sliceStart (n : Nat) (neg : Bool) : Option Int → Int
  | none => if neg then (n : Int) - 1 else 0
  | some i => adjustBound n neg i

/-- The adjusted second bound. -/
def sliceStop (n : Nat) (neg : Bool) : Option Int → Int
  | none => if neg then -1 else n
  | some i => adjustBound n neg i

/-- The number of positions of a slice. -/
def sliceLength (start stop step : Int) : Nat :=
  if step < 0 then (if stop < start then ((start - stop - 1) / (-step) + 1).toNat else 0)
  else (if start < stop then ((stop - start - 1) / step + 1).toNat else 0)

/-- The positions of a slice with a step that is not zero, in order. -/
def sliceIndices (n : Nat) (a b : Option Int) (step : Int) : List Nat :=
  (List.range (sliceLength (sliceStart n (decide (step < 0)) a) (sliceStop n (decide (step < 0)) b) step)).map
    (fun (i : Nat) => (sliceStart n (decide (step < 0)) a + step * (i : Int)).toNat)

/-- `l[a:b:step]`; a step of zero raises `ValueError`. -/
def listGetSlice {α} (l : List α) (a b step : Option Int) : Except PyErr (List α) :=
  if step.getD 1 = 0 then .error .valueError
  else .ok ((sliceIndices l.length a b (step.getD 1)).filterMap (fun i => l[i]?))

/-- Elements whose position is not in `idxs`. -/
def dropPositions {α} (l : List α) (idxs : List Nat) : List α :=
  (l.zipIdx.filter (fun p => !idxs.contains p.2)).map Prod.fst

/-- `del l[a:b:step]`. -/
def listDelSlice {α} (l : List α) (a b step : Option Int) : Except PyErr (List α) :=
  if step.getD 1 = 0 then .error .valueError
  else .ok (dropPositions l (sliceIndices l.length a b (step.getD 1)))

/-- Writes values at positions. -/
def setPositions {α} (l : List α) (idxs : List Nat) (vs : List α) : List α :=
  (idxs.zip vs).foldl (fun l p => l.set p.1 p.2) l

/-- `l[a:b:step] = vs`: with step 1 the slice is replaced by any number of values, otherwise their number must be the same. -/
def listSetSlice {α} (l : List α) (a b step : Option Int) (vs : List α) : Except PyErr (List α) :=
  if step.getD 1 = 0 then .error .valueError
  else if step.getD 1 = 1 then
    .ok (l.take (sliceStart l.length false a).toNat ++ vs ++
      l.drop (max (sliceStart l.length false a) (sliceStop l.length false b)).toNat)
  else if (sliceIndices l.length a b (step.getD 1)).length = vs.length then
    .ok (setPositions l (sliceIndices l.length a b (step.getD 1)) vs)
  else .error .valueError

/-- The right side of a slice assignment: something that can be iterated again (a list, a tuple), an iterator or generator, which is empty once it
has been iterated, or the container itself. -/
inductive Rhs where
  | list (ms : List Match)
  | oneShot (ms : List Match)
  | self

namespace Matches

/-- What a first iteration over the right side gives. -/
def rhsFirst (s : Matches) : Rhs → List Match
  | .list ms => ms
  | .oneShot ms => ms
  | .self => s.delegate

/-- What a second iteration gives, `s` being the container after the assignment of `self._delegate`. -/
def rhsSecond (s : Matches) : Rhs → List Match
  | .list ms => ms
  | .oneShot _ => []
  | .self => s.delegate

/-- `for match_item in match: self._add_match(match_item)` (`match.py:961-962`). -/
def addAll (s : Matches) : List Match → Matches × Option PyErr
  | [] => (s, none)
  | m :: ms =>
    match s.addMatch m with
    | (s', none) => addAll s' ms
    | (s', some e) => (s', some e)

/-- `__setitem__` with a slice (`match.py:958-964`): `match` is iterated by `self._delegate[index] = match` first, then by the loop. -/
def setSlice (s : Matches) (a b step : Option Int) (rhs : Rhs) : Matches × Option PyErr :=
  match listSetSlice s.delegate a b step (s.rhsFirst rhs) with
  | .error e => (s, some e)
  | .ok l => addAll { s with delegate := l } (rhsSecond { s with delegate := l } rhs)

/-- `__delitem__` with a slice (`match.py:966-974`). -/
def delStep (s : Matches) (a b step : Option Int) : Matches × Option PyErr :=
  match listGetSlice s.delegate a b step with
  | .error e => (s, some e)
  | .ok removed =>
    match listDelSlice s.delegate a b step with
    | .error e => (s, some e)
    | .ok l => removeAll { s with delegate := l } removed

/-- `__getitem__` with a slice (`match.py:836-839`): a new `Matches`. -/
def getStep (s : Matches) (a b step : Option Int) : Except PyErr Matches :=
  match listGetSlice s.delegate a b step with
  | .error e => .error e
  | .ok l =>
    match (empty false none).extend l with
    | (s', none) => .ok s'
    | (_, some e) => .error e

/-- `Sequence.__iter__`: `self[0]`, `self[1]`, … until `IndexError`. The fuel is more than the number of elements. -/
def iterLoop (s : Matches) : Nat → Int → List Match
  | 0, _ => []
  | n + 1, i =>
    match s.getItem i with
    | .error _ => []
    | .ok m => m :: iterLoop s n (i + 1)

/-- `list(matches)`. -/
def items (s : Matches) : List Match := iterLoop s (s.length + 1) 0

/-- `list(reversed(matches))`: `Sequence.__reversed__` reads `self[i]` for `i` from `len(self) - 1` down to 0. -/
def itemsReversed (s : Matches) : List Match :=
  (pyRange 0 s.length).reverse.filterMap (fun i => match s.getItem i with | .ok m => some m | .error _ => none)

/-- `m in matches`: `Sequence.__contains__`. -/
def containsMatch (s : Matches) (m : Match) : Bool := s.items.any (fun x => x.eqv m)

/-- `matches.count(m)`: `Sequence.count`. -/
def countMatch (s : Matches) (m : Match) : Nat := (s.items.filter (fun x => x.eqv m)).length

/-- The loop of `Sequence.index`: `while stop is None or i < stop`, until `IndexError`. -/
def indexLoop (s : Matches) (m : Match) (stop : Option Int) : Nat → Int → Option Int
  | 0, _ => none
  | n + 1, i =>
    if (match stop with | none => true | some e => decide (i < e)) then
      match s.getItem i with
      | .error _ => none
      | .ok x => if x.eqv m then some i else indexLoop s m stop n (i + 1)
    else none

/-- `matches.index(m, start, stop)`: `Sequence.index`. -/
def indexOf (s : Matches) (m : Match) (start : Int) (stop : Option Int) : Except PyErr Int :=
  let start' : Int := if start < 0 then max ((s.length : Int) + start) 0 else start
  let stop' := stop.map (fun (e : Int) => if e < 0 then e + (s.length : Int) else e)
  match indexLoop s m stop' (s.length + 1) start' with
  | some i => .ok i
  | none => .error .valueError

end Matches

/-! ## Calls as data -/

/-- The calls of the sequence interface (and the lookups, through `base`). -/
inductive SOp where
  | base (op : Matches.Op)
  | setSlice (a b step : Option Int) (rhs : Rhs)
  | delSlice (a b step : Option Int)
  | getSlice (a b step : Option Int)
  | getItem (i : Int)
  | len
  | iterate
  | reversed
  | contains (m : Match)
  | count (m : Match)
  | index (m : Match) (start : Int) (stop : Option Int)
  | extendSelf

/-- What they return. -/
inductive SOut where
  | base (o : Matches.Out)
  | container (s : Matches)
  | items (l : List Match)
  | num (n : Int)
  | flag (b : Bool)

/-- Outcome of a call that returns a number. -/
def SOut.ofNum : Except PyErr Int → SOut
  | .ok n => .num n
  | .error e => .base (.raised e)
/-- Outcome of a call that returns a container. -/
def SOut.ofContainer : Except PyErr Matches → SOut
  | .ok s => .container s
  | .error e => .base (.raised e)

/-- One call. `matches.extend(matches)` and `matches += matches` extend with a copy made first (`MutableSequence.extend`). -/
def Matches.sstep (s : Matches) : SOp → Matches × SOut
  | .base op => ((s.step op).1, .base (s.step op).2)
  | .setSlice a b k rhs => ((s.setSlice a b k rhs).1, .base (.ofErr (s.setSlice a b k rhs).2))
  | .delSlice a b k => ((s.delStep a b k).1, .base (.ofErr (s.delStep a b k).2))
  | .getSlice a b k => (s, .ofContainer (s.getStep a b k))
  | .getItem i => (s, .base (.ofOne (s.getItem i)))
  | .len => (s, .num s.length)
  | .iterate => (s, .items s.items)
  | .reversed => (s, .items s.itemsReversed)
  | .contains m => (s, .flag (s.containsMatch m))
  | .count m => (s, .num (s.countMatch m))
  | .index m a b => (s, .ofNum (s.indexOf m a b))
  | .extendSelf => ((s.extend s.delegate).1, .base (.ofErr (s.extend s.delegate).2))

/-- A history of calls. -/
def Matches.runS (s : Matches) (ops : List SOp) : Matches := ops.foldl (fun s op => (s.sstep op).1) s

end Rebulk
