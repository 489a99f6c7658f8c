import Verif.Model.Iteration
import Verif.Spec.Sequence
/-!
# Iterators of a Python list that is changed meanwhile

Written from CPython's documentation and `listobject.c`: a list iterator keeps a position; `reversed(list)` notes the length when it is *made*; both give
the element that is at their position when asked, and stop for good as soon as there is none. Neither ever raises anything but `StopIteration`.
-/
namespace Rebulk.Spec

/-- An iterator of a list: `ahead i` reads position `i` next; `behind i started` has the positions below `i` to read (`started` tells whether it
was asked for something yet); `over` has stopped. -/
inductive ListIter where
  | ahead (i : Nat)
  | behind (i : Nat) (started : Bool)
  | over

/-- `next` on it, the list being `l`. -/
def ListIter.next (l : List Match) : ListIter → ListIter × Yielded
  | .over => (.over, .stop)
  | .ahead i => match l[i]? with
    | some m => (.ahead (i + 1), .item m)
    | none => (.over, .stop)
  | .behind 0 _ => (.over, .stop)
  | .behind (i + 1) _ => match l[i]? with
    | some m => (.behind i true, .item m)
    | none => (.over, .stop)

/-- A list and the iterators made from it. -/
structure ListDesk where
  items : List Match
  iters : List ListIter

/-- One event. -/
def ListDesk.step (d : ListDesk) : LoopEvent → ListDesk × Option Yielded
  | .call op => ({ d with items := (listCall d.items op).1 }, none)
  | .iter => ({ d with iters := d.iters ++ [.ahead 0] }, none)
  | .reversed => ({ d with iters := d.iters ++ [.behind d.items.length false] }, none)
  | .next k => match d.iters[k]? with
    | none => (d, none)
    | some c => ({ d with iters := d.iters.set k (c.next d.items).1 }, some (c.next d.items).2)

/-- A history, and what each event gave. -/
def ListDesk.run : ListDesk → List LoopEvent → ListDesk × List (Option Yielded)
  | d, [] => (d, [])
  | d, e :: es => ((ListDesk.run (d.step e).1 es).1, (d.step e).2 :: (ListDesk.run (d.step e).1 es).2)

/-- No call made on the container during the history raised. -/
def Quiet (d : LoopDesk) (es : List LoopEvent) : Prop :=
  ∀ pre op post, es = pre ++ .call op :: post → ¬ SRaised ((d.run pre).1.held.sstep op).2

/-- The list has, where a `reversed` iterator is about to read, an element; and before anything is read, its length is that noted. -/
def InReach (l : List Match) : ListIter → Prop
  | .behind n false => l.length = n
  | .behind (i + 1) true => i < l.length
  | _ => True

/-- Whenever a `reversed` iterator is asked, the list has not become too short for it. -/
def NeverShort (d : ListDesk) (es : List LoopEvent) : Prop :=
  ∀ pre k post, es = pre ++ .next k :: post → ∀ it, (d.run pre).1.iters[k]? = some it → InReach (d.run pre).1.items it

/-- `reversed(matches)`, asked for the `k`-th time (from 0), has something to read: it noted `n` matches, `ls` are the contents of the container each time,
and no position was missing before. -/
def StillGoing (n : Nat) (ls : List (List Match)) (k : Nat) : Prop :=
  k < n ∧ ∀ j < k, ∀ l, ls[j]? = some l → n - 1 - j < l.length

/-- What it gives then: the match at the position it has come down to, or an exception if there is none. -/
def readAt (l : List Match) (i : Nat) : Yielded :=
  match l[i]? with
  | some m => .item m
  | none => .raised .indexError

/-- What is left when matches are removed while iterating over the same sequence: the match after a removed one is not looked at. -/
def skipping (p : Match → Bool) : List Match → List Match
  | [] => []
  | [x] => if p x then [] else [x]
  | x :: y :: l => if p x then y :: skipping p l else x :: skipping p (y :: l)

end Rebulk.Spec
