import Verif.Model.Sequence
/-!
# `rebulk/match.py`: iterators over a container that is changed meanwhile

`_BaseMatches` defines `__len__` and `__getitem__` (`match.py:820-839`) and gets `__iter__` and `__reversed__` from `collections.abc.Sequence`, where
they are generators:

```
def __iter__(self):                     def __reversed__(self):
    i = 0                                   for i in reversed(range(len(self))):
    try:                                        yield self[i]
        while True:
            v = self[i]
            yield v
            i += 1
    except IndexError:
        return
```

A generator is paused at its `yield`; the container may be changed before `next` is called again, and the body of `__reversed__` is not entered (so
`len(self)` is not read) before the first `next`.
-/
namespace Rebulk

/-- A live iterator: `forward i` is about to read `self[i]`; `unstarted` is `reversed(matches)` before the first `next`; `backward i` has the positions
`i - 1`, …, `0` still to read. A generator that has returned or raised is `finished`. -/
inductive Cursor where
  | forward (i : Nat)
  | unstarted
  | backward (i : Nat)
  | finished

/-- What `next(iterator)` does: gives a match, raises `StopIteration`, or raises something else. -/
inductive Yielded where
  | item (m : Match)
  | stop
  | raised (e : PyErr)

/-- `next` on the generator of `__reversed__`, with the positions below `i` to read; an exception of `self[i]` is not caught. -/
def Cursor.nextBack (s : Matches) : Nat → Cursor × Yielded
  | 0 => (.finished, .stop)
  | i + 1 => match s.getItem i with
    | .ok m => (.backward i, .item m)
    | .error e => (.finished, .raised e)

/-- `next(iterator)`, the container being `s`. `__iter__` catches `IndexError` only (`match.py:836-839` raises nothing else for an integer). -/
def Cursor.next (s : Matches) : Cursor → Cursor × Yielded
  | .finished => (.finished, .stop)
  | .forward i => match s.getItem i with
    | .ok m => (.forward (i + 1), .item m)
    | .error .indexError => (.finished, .stop)
    | .error e => (.finished, .raised e)
  | .unstarted => Cursor.nextBack s s.length
  | .backward i => Cursor.nextBack s i

/-- A container and the iterators made from it. -/
structure LoopDesk where
  held : Matches
  cursors : List Cursor

/-- What a program does with them: any call on the container, `iter(matches)`, `reversed(matches)`, `next` on the `k`-th iterator made. -/
inductive LoopEvent where
  | call (op : SOp)
  | iter
  | reversed
  | next (k : Nat)

/-- One event; the outcome of `next` is given. (`next` on an iterator that was not made does nothing.) -/
def LoopDesk.step (d : LoopDesk) : LoopEvent → LoopDesk × Option Yielded
  | .call op => ({ d with held := (d.held.sstep op).1 }, none)
  | .iter => ({ d with cursors := d.cursors ++ [.forward 0] }, none)
  | .reversed => ({ d with cursors := d.cursors ++ [.unstarted] }, none)
  | .next k => match d.cursors[k]? with
    | none => (d, none)
    | some c => ({ d with cursors := d.cursors.set k (c.next d.held).1 }, some (c.next d.held).2)

/-- A history, and what each event gave. -/
def LoopDesk.run : LoopDesk → List LoopEvent → LoopDesk × List (Option Yielded)
  | d, [] => (d, [])
  | d, e :: es => ((LoopDesk.run (d.step e).1 es).1, (d.step e).2 :: (LoopDesk.run (d.step e).1 es).2)

/-- `for m in iterator: body(m)`, where the body may change the container; `none` when the fuel runs out. An exception of the body or of the iterator
ends the loop. -/
def forEach (body : Match → Matches → Matches × Option PyErr) : Nat → Cursor → Matches → Option (Matches × Option PyErr)
  | 0, _, _ => none
  | n + 1, c, s => match c.next s with
    | (_, .stop) => some (s, none)
    | (_, .raised e) => some (s, some e)
    | (c', .item m) => match body m s with
      | (s', some e) => some (s', some e)
      | (s', none) => forEach body n c' s'

/-- The body `if p(m): matches.remove(m)`. -/
def removeIf (p : Match → Bool) (m : Match) (s : Matches) : Matches × Option PyErr := if p m then s.remove m else (s, none)

end Rebulk
