import Verif.Model.Matches
/-!
# `rebulk/match.py`: the arguments of the lookups

All lookups end with `filter_index(result, predicate, index)`. Arguments may be of any type: the ones that matter are `None`, integers, functions and
strings.
-/
namespace Rebulk

/-- A Python object given as an argument. A function is one of matches. -/
inductive Arg where
  | none
  | int (i : Int)
  | fn (f : Match → Bool)
  | str (s : String)

/-- What `filter_index` returns: a list, or a single element / `None`. -/
inductive FResult where
  | list (l : List Match)
  | one (o : Option Match)

/-- Truthiness. -/
def Arg.truthy : Arg → Bool
  | .none => false
  | .int i => i != 0
  | .fn _ => true
  | .str s => !s.isEmpty

/-- `if predicate: collection = collection.__class__(filter(predicate, collection))` (`loose.py:159-160`). What is not a function is called when there is
an element, and then raises. -/
def Arg.keep (predicate : Arg) (c : List Match) : Except PyErr (List Match) :=
  if !predicate.truthy then .ok c
  else match predicate with
    | .fn f => .ok (c.filter f)
    | _ => if c.isEmpty then .ok c else .error .typeError

/-- `if index is not None: collection[index]`, `None` out of range (`loose.py:161-165`). -/
def Arg.pick (index : Arg) (c : List Match) : Except PyErr FResult :=
  match index with
  | .none => .ok (.list c)
  | .int i => .ok (.one (pyGet c i))
  | _ => .error .typeError

/-- The filtering of `filter_index` once an integer given in the place of the predicate is known to be the index (`loose.py:159-166`). -/
def keepAndPick (c : List Match) (predicate index : Arg) : Except PyErr FResult :=
  match predicate.keep c with
  | .error e => .error e
  | .ok c => index.pick c

/-- `filter_index` (`rebulk/loose.py:142-166`). -/
def filterIndex (c : List Match) (predicate index : Arg) : Except PyErr FResult :=
  match index, predicate with
  | .none, .int i => keepAndPick c .none (.int i)
  | ix, p => keepAndPick c p ix

namespace Matches

/-- The loop of `named` over its positional arguments (`match.py:297-304`): names first, then the extras. -/
def sortNamedArgs : List Arg → List String → List Arg → List String × List Arg
  | [], ns, ex => (ns, ex)
  | .str n :: r, ns, [] => sortNamedArgs r (ns ++ [n]) []
  | a :: r, ns, ex => sortNamedArgs r ns (ex ++ [a])

/-- `if extras and predicate is None: predicate = extras[0]` (`match.py:305-306`). -/
def extraPredicate (extras : List Arg) (predicate : Arg) : Arg :=
  match extras, predicate with
  | x :: _, .none => x
  | _, p => p

/-- `if len(extras) > 1 and index is None: index = extras[1]` (`match.py:307-308`). -/
def extraIndex (extras : List Arg) (index : Arg) : Arg :=
  match extras, index with
  | _ :: y :: _, .none => y
  | _, i => i

/-- `named(*args, predicate=, index=)` (`match.py:278-312`); the last two are `None` when they are not given. -/
def namedArgs (s : Matches) (args : List Arg) (predicate index : Arg) : Matches × Except PyErr FResult :=
  let x := sortNamedArgs args [] []
  let r := s.named x.1
  (r.1, filterIndex r.2 (extraPredicate x.2 predicate) (extraIndex x.2 index))

/-- The other lookups with `predicate` and `index` (`match.py:216-236`, `246-266`, `314-424`, `673-759`): the outcome of the plain lookup goes through
`filter_index`. -/
def lookupArgs (s : Matches) (op : Op) (predicate index : Arg) : Matches × Except PyErr FResult :=
  let r := s.step op
  (r.1, match r.2 with
    | .list l => filterIndex l predicate index
    | .raised e => .error e
    | _ => .error .typeError)

/-- `range(start, end, predicate, index)` (`match.py:399-424`). -/
def rangeArgs (s : Matches) (start : Int) (stop : Option Int) (predicate index : Arg) : Except PyErr FResult :=
  filterIndex (s.range start stop) predicate index

/-- `holes(start, end, formatter, ignore, seps)` as matches (`match.py:600-661`). -/
def holeMatches (s : Matches) (formatter : Option (Val → Val)) (start : Int) (stop : Option Int) (ignore : Match → Bool) (seps : Option Str) :
    Matches × Except PyErr (List Match) :=
  let r := s.holes start stop ignore seps
  (r.1, match r.2 with
    | .ok l => .ok (l.map (holeMatch s formatter))
    | .error e => .error e)

end Matches
end Rebulk
