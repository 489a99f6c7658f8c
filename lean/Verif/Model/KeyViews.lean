import Verif.Model.Sequence
/-!
# `rebulk/match.py`: the key views `names` and `tags`

`matches.names` and `matches.tags` (`match.py:761-775`) return `dict.keys()` of the index dictionary itself: a view that shows the keys the dictionary has when
it is looked at, not when it was obtained. An iterator of such a view (CPython, `dictiter_iternextkey`) notes the number of keys when it is made; `next` raises
`RuntimeError` when the number of keys is another one, and goes on raising it; keys are given in the order of their insertion. Keys are never deleted from an
index dictionary and the dictionary is never replaced (`match.py:120-155`), so nothing else can happen to an iterator.
-/
namespace Rebulk

/-- Which view. -/
inductive KeyKind where
  | names
  | tags

/-- The dictionary a view refers to; `none` before it is built. -/
def Matches.viewDict (s : Matches) : KeyKind → Option (Index String)
  | .names => s.nameD
  | .tags => s.tagD

/-- What a view obtained earlier shows now: `list(view)`. -/
def Matches.viewKeys (s : Matches) (kind : KeyKind) : List String := ((s.viewDict kind).getD []).keys

/-- `matches.names` and `matches.tags` (`match.py:761-775`): the container after it, and what the view shows then. -/
def Matches.view (s : Matches) : KeyKind → Matches × List String
  | .names => s.names
  | .tags => s.tags

/-- An iterator of a view: the number of keys noted, and the position; `stuck` once it has raised, `over` once it has stopped. -/
inductive KeyIter where
  | going (kind : KeyKind) (size pos : Nat)
  | stuck
  | over

/-- What `next(iterator)` does: gives a key, raises `StopIteration` or `RuntimeError`. -/
inductive KeyYield where
  | key (k : String)
  | stop
  | changed
deriving DecidableEq

/-- `iter(view)` of a view of the given kind. -/
def Matches.iterView (s : Matches) (kind : KeyKind) : KeyIter := .going kind (s.viewKeys kind).length 0

/-- `next(iterator)`, the container being `s`. -/
def KeyIter.next (s : Matches) : KeyIter → KeyIter × KeyYield
  | .over => (.over, .stop)
  | .stuck => (.stuck, .changed)
  | .going kind size pos =>
    if (s.viewKeys kind).length = size then
      match (s.viewKeys kind)[pos]? with
      | some k => (.going kind size (pos + 1), .key k)
      | none => (.over, .stop)
    else (.stuck, .changed)

/-- `next` asked again and again; `calls` are those made on the container before each. -/
def KeyIter.answers : KeyIter → Matches → List (List SOp) → List KeyYield
  | _, _, [] => []
  | it, s, ops :: calls => (it.next (s.runS ops)).2 :: KeyIter.answers (it.next (s.runS ops)).1 (s.runS ops) calls

/-- `for key in iterator: body(key)`, where the body may use the container; `none` when the fuel runs out. The `RuntimeError` of the iterator and an exception
of the body end the loop. -/
def forKeys (body : String → Matches → Matches × Option PyErr) : Nat → KeyIter → Matches → Option (Matches × Option PyErr)
  | 0, _, _ => none
  | n + 1, it, s => match it.next s with
    | (_, .stop) => some (s, none)
    | (_, .changed) => some (s, some .runtimeError)
    | (it', .key k) => match body k s with
      | (s', some e) => some (s', some e)
      | (s', none) => forKeys body n it' s'

/-- `for key in matches.names: body(key)` (or `matches.tags`). -/
def loopOver (body : String → Matches → Matches × Option PyErr) (fuel : Nat) (s : Matches) (kind : KeyKind) : Option (Matches × Option PyErr) :=
  forKeys body fuel ((s.view kind).1.iterView kind) (s.view kind).1

end Rebulk
