import Verif.Model.MatchOps
/-!
# `Match.crop` and `Match.split` on a heap of objects

`Model/MatchOps.lean` computes the spans of the pieces. Here the pieces are objects: `copy.deepcopy` copies the match with everything it refers to (its
list of tags, its parent, its children and the indexes of their container, its pattern), and the copies live beside the objects there were.

An object is the list of its attributes (of a list or a dict: its items). Numbers, strings, `None` and what `copy.deepcopy` does not copy (functions,
classes, compiled regular expressions) are atoms. Simplifications: tuples of atoms are atoms and other tuples are objects; `__deepcopy__` methods,
objects that cannot be copied (`TypeError`) and `RecursionError` are not modelled.
-/
namespace Rebulk

/-- The value of an attribute: an atom, or a reference to an object. -/
inductive GV where
  | atom (v : Val)
  | ref (a : Nat)
  deriving DecidableEq

/-- The attributes of an object. -/
abbrev GObj := Dict String GV

/-- All objects; an address is an index. -/
abbrev GHeap := List GObj

namespace GHeap

/-- The attributes of the object at an address. -/
def obj (h : GHeap) (a : Nat) : GObj := h.getD a []

/-- `o.k = v`. -/
def assign (h : GHeap) (a : Nat) (k : String) (v : GV) : GHeap := h.set a (Dict.set (h.obj a) k v)

/-- An attribute holding an int. -/
def int? (h : GHeap) (a : Nat) (k : String) : Option Int :=
  match Dict.get? (h.obj a) k with
  | some (.atom (.int i)) => some i
  | _ => none

/-- `o.start, o.end` (`match.py:1051-1056`). An attribute that is not an int would raise; it counts as 0 here. -/
def span (h : GHeap) (a : Nat) : Int × Int := ((h.int? a "start").getD 0, (h.int? a "end").getD 0)

/-- `o.start = i`. -/
def setStart (h : GHeap) (a : Nat) (i : Int) : GHeap := h.assign a "start" (.atom (.int i))

/-- `o.end = i`. -/
def setEnd (h : GHeap) (a : Nat) (i : Int) : GHeap := h.assign a "end" (.atom (.int i))

/-- `bool(o)` of a match: see `SpanHeap.truthy`. -/
def truthy (h : GHeap) (a : Nat) : Except PyErr Bool :=
  if (h.span a).2 - (h.span a).1 < 0 then .error .valueError else .ok ((h.span a).2 - (h.span a).1 != 0)

end GHeap

/-! ## `copy.deepcopy` -/

/-- The `memo` of `copy.deepcopy`: the copies made so far. -/
abbrev Memo := Dict Nat Nat

/-- Copying the attributes of an object one after the other; `copy` copies a value. -/
def copyFields (copy : GV → GHeap × Memo → Option ((GHeap × Memo) × GV)) : GObj → GHeap × Memo → Option ((GHeap × Memo) × GObj)
  | [], s => some (s, [])
  | (k, v) :: r, s => match copy v s with
    | none => none
    | some (s, v) => match copyFields copy r s with
      | none => none
      | some (s, r) => some (s, (k, v) :: r)

/-- `copy.deepcopy(v, memo)`: an object met before is not copied again; the new object is in `memo` before its attributes are copied. `none` when the
recursion is deeper than `fuel`. -/
def copyValue : Nat → GV → GHeap × Memo → Option ((GHeap × Memo) × GV)
  | _, .atom v, s => some (s, .atom v)
  | fuel, .ref a, s => match s.2.get? a with
    | some b => some (s, .ref b)
    | none => match fuel with
      | 0 => none
      | fuel + 1 => match copyFields (copyValue fuel) (s.1.obj a) (s.1 ++ [[]], (a, s.1.length) :: s.2) with
        | none => none
        | some (t, fs) => some ((t.1.set s.1.length fs, t.2), .ref s.1.length)

/-- `copy.deepcopy(o)` (`match.py:1209`, `1222`, `1256`, `1263`): the objects after it and the copy. -/
def deepCopy (h : GHeap) (a : Nat) : Option (GHeap × Nat) :=
  match copyValue h.length (.ref a) (h, []) with
  | some ((h, _), .ref b) => some (h, b)
  | _ => none

/-! ## `Match.crop` -/

/-- `ret.remove(current)`: see `cropRemove`. -/
def cropRemoveG (h : GHeap) (ret : List Nat) (o : Nat) : Except PyErr (List Nat) :=
  match removeFirst (fun j => decide (h.span j = h.span o)) ret with
  | some r => .ok r
  | none => .error .valueError

/-- Body of the inner loop of `crop` (`match.py:1217-1232`). -/
def cropOneG (start stop : Int) (h : GHeap) (ret : List Nat) (cur : Nat) : Except PyErr (GHeap × List Nat) :=
  let cs := (h.span cur).1
  let ce := (h.span cur).2
  if start ≤ cs ∧ stop ≥ ce then
    match cropRemoveG h ret cur with
    | .error e => .error e
    | .ok ret => .ok (h, ret)
  else if start ≥ cs ∧ stop ≤ ce then
    match deepCopy h cur with
    | none => .error .diverges
    | some (h, right) =>
      let h := h.setEnd cur start
      match h.truthy cur with
      | .error e => .error e
      | .ok t =>
        match (if t then .ok ret else cropRemoveG h ret cur) with
        | .error e => .error e
        | .ok ret =>
          let h := h.setStart right stop
          match h.truthy right with
          | .error e => .error e
          | .ok t => .ok (h, if t then ret ++ [right] else ret)
  else if ce ≥ stop ∧ stop > cs then .ok (h.setStart cur stop, ret)
  else if cs ≤ start ∧ start < ce then .ok (h.setEnd cur start, ret)
  else .ok (h, ret)

/-- `for current in list(ret)` (`match.py:1216`). -/
def cropInnerG (start stop : Int) : List Nat → GHeap → List Nat → Except PyErr (GHeap × List Nat)
  | [], h, ret => .ok (h, ret)
  | c :: cs, h, ret =>
    match cropOneG start stop h ret c with
    | .error e => .error e
    | .ok (h, ret) => cropInnerG start stop cs h ret

/-- `for crop in crops` (`match.py:1211`). -/
def cropOuterG : List (Int × Int) → GHeap → List Nat → Except PyErr (GHeap × List Nat)
  | [], h, ret => .ok (h, ret)
  | c :: cs, h, ret =>
    match cropInnerG c.1 c.2 ret h ret with
    | .error e => .error e
    | .ok (h, ret) => cropOuterG cs h ret

/-- `o.crop(crops)` before `filter_index` (`match.py:1194-1233`): the objects after it, and the pieces. -/
def cropObject (h : GHeap) (a : Nat) (crops : List (Int × Int)) : Except PyErr (GHeap × List Nat) :=
  match deepCopy h a with
  | none => .error .diverges
  | some (h, initial) => cropOuterG crops h [initial]

/-! ## `Match.split` -/

/-- State of the loop of `split`. -/
structure SplitStG where
  heap : GHeap
  current : Nat
  split : Option Nat
  ret : List Nat

/-- Truthiness of `split_match`: `None` is falsy. -/
def SplitStG.splitTruthy (s : SplitStG) : Except PyErr Bool :=
  match s.split with
  | none => .ok false
  | some o => s.heap.truthy o

/-- Body of the loop of `split` (`match.py:1261-1271`). -/
def splitStepG (start : Int) (seps : Str) (s : SplitStG) (i : Nat) (c : Char) : Except PyErr SplitStG :=
  match s.splitTruthy with
  | .error e => .error e
  | .ok t =>
    if seps.contains c then
      if t then .ok s
      else match deepCopy s.heap s.current with
        | none => .error .diverges
        | some (h, o) => .ok { s with heap := h.setEnd s.current (start + i), split := some o }
    else
      match t, s.split with
      | true, some o => .ok { heap := s.heap.setStart o (start + i), current := o, split := none, ret := s.ret ++ [o] }
      | _, _ => .ok s

/-- `for i, char in enumerate(self.raw)` (`match.py:1260`). -/
def splitLoopG (start : Int) (seps : Str) : Nat → Str → SplitStG → Except PyErr SplitStG
  | _, [], s => .ok s
  | i, c :: cs, s =>
    match splitStepG start seps s i c with
    | .error e => .error e
    | .ok s => splitLoopG start seps (i + 1) cs s

/-- `o.split(seps)` before `filter_index` (`match.py:1243-1273`); `raw` is `o.raw` (`match.py:1161-1170`). `enumerate(None)` raises `TypeError`. -/
def splitObject (h : GHeap) (a : Nat) (raw : Val) (seps : Str) : Except PyErr (GHeap × List Nat) :=
  match raw with
  | .str raw =>
    match deepCopy h a with
    | none => .error .diverges
    | some (h', o) =>
      match splitLoopG (h.span a).1 seps 0 raw ⟨h', o, some o, []⟩ with
      | .error e => .error e
      | .ok s => .ok (s.heap, s.ret)
  | _ => .error .typeError

end Rebulk
