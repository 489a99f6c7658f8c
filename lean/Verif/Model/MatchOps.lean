import Verif.Model.Match
/-!
# `rebulk/match.py`: `Match.crop`, `Match.split`, and trees of matches

`crop` and `split` make deep copies of the match and move their bounds in place. All copies share every field but the span,
so a small heap of spans models them: an object is an index, `copy.deepcopy` allocates.
-/
namespace Rebulk

/-- Heap of the copies made by `crop` and `split`: their spans. -/
structure SpanHeap where
  span : Nat → Int × Int
  next : Nat

namespace SpanHeap

/-- `copy.deepcopy(o)` where `o` has span `sp`. -/
def alloc (h : SpanHeap) (sp : Int × Int) : SpanHeap × Nat :=
  ({ span := fun i => if i = h.next then sp else h.span i, next := h.next + 1 }, h.next)

/-- `o.start = v`. -/
def setStart (h : SpanHeap) (o : Nat) (v : Int) : SpanHeap :=
  { h with span := fun i => if i = o then (v, (h.span o).2) else h.span i }

/-- `o.end = v`. -/
def setEnd (h : SpanHeap) (o : Nat) (v : Int) : SpanHeap :=
  { h with span := fun i => if i = o then ((h.span o).1, v) else h.span i }

/-- `bool(o)`: `len` is `end - start` and a negative length raises `ValueError` (`match.py:1293-1294`). -/
def truthy (h : SpanHeap) (o : Nat) : Except PyErr Bool :=
  if (h.span o).2 - (h.span o).1 < 0 then .error .valueError else .ok ((h.span o).2 - (h.span o).1 != 0)

end SpanHeap

/-- `ret.remove(current)` (`match.py:1219`, `1225`): removes the first element *equal* to `current`; the elements of `ret`
are copies of one match, so they are equal iff their spans are. -/
def cropRemove (h : SpanHeap) (ret : List Nat) (o : Nat) : Except PyErr (List Nat) :=
  match removeFirst (fun j => decide (h.span j = h.span o)) ret with
  | some r => .ok r
  | none => .error .valueError

/-- Body of the inner loop of `crop` (`match.py:1217-1232`). -/
def cropOne (start stop : Int) (h : SpanHeap) (ret : List Nat) (cur : Nat) : Except PyErr (SpanHeap × List Nat) :=
  let cs := (h.span cur).1
  let ce := (h.span cur).2
  if start ≤ cs ∧ stop ≥ ce then
    match cropRemove h ret cur with
    | .error e => .error e
    | .ok ret => .ok (h, ret)
  else if start ≥ cs ∧ stop ≤ ce then
    let (h, right) := h.alloc (h.span cur)
    let h := h.setEnd cur start
    match h.truthy cur with
    | .error e => .error e
    | .ok t =>
      match (if t then .ok ret else cropRemove h ret cur) with
      | .error e => .error e
      | .ok ret =>
        let h := h.setStart right stop
        match h.truthy right with
        | .error e => .error e
        | .ok t => .ok (h, if t then ret ++ [right] else ret)
  else if ce ≥ stop ∧ stop > cs then .ok (h.setStart cur stop, ret)
  else if cs ≤ start ∧ start < ce then .ok (h.setEnd cur start, ret)
  else .ok (h, ret)

/-- `for current in list(ret)` (`match.py:1216`): the iteration is over a copy of `ret`. -/
def cropInner (start stop : Int) : List Nat → SpanHeap → List Nat → Except PyErr (SpanHeap × List Nat)
  | [], h, ret => .ok (h, ret)
  | c :: cs, h, ret =>
    match cropOne start stop h ret c with
    | .error e => .error e
    | .ok (h, ret) => cropInner start stop cs h ret

/-- `for crop in crops` (`match.py:1211`). -/
def cropOuter : List (Int × Int) → SpanHeap → List Nat → Except PyErr (SpanHeap × List Nat)
  | [], h, ret => .ok (h, ret)
  | c :: cs, h, ret =>
    match cropInner c.1 c.2 ret h ret with
    | .error e => .error e
    | .ok (h, ret) => cropOuter cs h ret

/-- `Match.crop` before `filter_index` (`match.py:1194-1233`), crops given as a list of spans (line 1207-1208 wraps a single
crop, line 1212-1215 reads the span of a match). -/
def Match.crop (m : Match) (crops : List (Int × Int)) : Except PyErr (List Match) :=
  let (h, initial) := SpanHeap.alloc ⟨fun _ => (0, 0), 0⟩ m.span
  match cropOuter crops h [initial] with
  | .error e => .error e
  | .ok (h, ret) => .ok (ret.map (fun o => { m with start := (h.span o).1, stop := (h.span o).2 }))

/-- State of the loop of `split`. -/
structure SplitSt where
  heap : SpanHeap
  current : Nat
  split : Option Nat
  ret : List Nat

/-- Truthiness of `split_match`: `None` is falsy. -/
def SplitSt.splitTruthy (s : SplitSt) : Except PyErr Bool :=
  match s.split with
  | none => .ok false
  | some o => s.heap.truthy o

/-- Body of the loop of `split` (`match.py:1261-1271`). -/
def splitStep (start : Int) (seps : Str) (s : SplitSt) (i : Nat) (c : Char) : Except PyErr SplitSt :=
  match s.splitTruthy with
  | .error e => .error e
  | .ok t =>
    if seps.contains c then
      if t then .ok s
      else
        let (h, o) := s.heap.alloc (s.heap.span s.current)
        .ok { s with heap := h.setEnd s.current (start + i), split := some o }
    else
      match t, s.split with
      | true, some o => .ok { heap := s.heap.setStart o (start + i), current := o, split := none, ret := s.ret ++ [o] }
      | _, _ => .ok s

/-- `for i, char in enumerate(self.raw)` (`match.py:1260`). -/
def splitLoop (start : Int) (seps : Str) : Nat → Str → SplitSt → Except PyErr SplitSt
  | _, [], s => .ok s
  | i, c :: cs, s =>
    match splitStep start seps s i c with
    | .error e => .error e
    | .ok s => splitLoop start seps (i + 1) cs s

/-- `Match.split` before `filter_index` (`match.py:1243-1273`). `enumerate(None)` raises `TypeError`. -/
def Match.split (m : Match) (seps : Str) : Except PyErr (List Match) :=
  match m.raw with
  | .str raw =>
    let (h, o) := SpanHeap.alloc ⟨fun _ => (0, 0), 0⟩ m.span
    match splitLoop m.start seps 0 raw ⟨h, o, some o, []⟩ with
    | .error e => .error e
    | .ok s => .ok (s.ret.map (fun o => { m with start := (s.heap.span o).1, stop := (s.heap.span o).2 }))
  | _ => .error .typeError

/-! ## Trees -/

/-- A match with its children (`Match.children`, `match.py:1058-1069`). -/
inductive MTree where
  | node (m : Match) (children : List MTree)

namespace MTree

/-- The match at the root. -/
def root : MTree → Match
  | node m _ => m
/-- The children. -/
def children : MTree → List MTree
  | node _ cs => cs

mutual
/-- `Match.names` (`match.py:1106-1119`), as a list standing for the returned set. -/
def names : MTree → List (Option String)
  | node m [] => [m.name]
  | node _ (c :: cs) => namesList (c :: cs)
/-- The loop of `Match.names` over the children. -/
def namesList : List MTree → List (Option String)
  | [] => []
  | c :: cs => names c ++ namesList cs
end

/-- `Match.named` (`match.py:1284-1291`). -/
def isNamed (t : MTree) (ns : List String) : Bool := ns.any (fun n => t.names.contains (some n))

end MTree
end Rebulk
