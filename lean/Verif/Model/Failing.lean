import Verif.Model.Matches
/-!
# `rebulk/match.py`: comparisons that raise

`Match.__eq__` (`match.py:1303-1311`) compares the spans first, then reads both values; reading a value calls the formatter (`match.py:1072-1083`), which is
user code and may raise. `list.remove`, `Sequence.index` and `in` compare with `item is x or item == x`. This module is the removal of matches
(`match.py:187-206`, `966-974`, `MutableSequence.remove` and `pop`) again, statement by statement, with comparisons that may raise; the exception leaves
everything done so far as it is.

`broken m` is the exception raised when the value of `m` is read, if any. Simplification: the values of parents (compared when spans, values and
names are equal) do not raise. The same object is recognised by `id`.
-/
namespace Rebulk

/-- `y is m or y == m` (`match.py:1303-1311`): the value of `y` is read before that of `m`. -/
def eqvF (broken : Match → Option Nat) (m y : Match) : Except PyErr Bool :=
  if y.id == m.id then .ok true
  else if y.span == m.span then
    match broken y with
    | some n => .error (.user n)
    | none => match broken m with
      | some n => .error (.user n)
      | none => .ok (y.eqv m)
  else .ok false

/-- `list.remove(m)` up to the `ValueError`, `none` here. -/
def removeFirstF (eq : Match → Except PyErr Bool) : List Match → Except PyErr (Option (List Match))
  | [] => .ok none
  | x :: xs => match eq x with
    | .error e => .error e
    | .ok true => .ok (some xs)
    | .ok false => match removeFirstF eq xs with
      | .error e => .error e
      | .ok r => .ok (r.map (x :: ·))

/-- `Sequence.index(m)` up to the `ValueError`, `none` here. -/
def findF (eq : Match → Except PyErr Bool) : List Match → Except PyErr (Option Nat)
  | [] => .ok none
  | x :: xs => match eq x with
    | .error e => .error e
    | .ok true => .ok (some 0)
    | .ok false => match findF eq xs with
      | .error e => .error e
      | .ok r => .ok (r.map (· + 1))

namespace Matches

/-- `for k in keys: d[k].remove(m)` (`match.py:193-204`); reading `d[k]` creates the key. -/
def removeKeysF {κ} [BEq κ] (broken : Match → Option Nat) (m : Match) : List κ → Index κ → Index κ × Option PyErr
  | [], d => (d, none)
  | k :: ks, d =>
    match removeFirstF (eqvF broken m) (d.getList k) with
    | .error e => (d.touch k, some e)
    | .ok (some l) => removeKeysF broken m ks (d.set k l)
    | .ok none => (d.touch k, some .valueError)

/-- `removeKeysF` when the dictionary is built, nothing otherwise. -/
def removeFromF {κ} [BEq κ] (broken : Match → Option Nat) (d : Option (Index κ)) (keys : List κ) (m : Match) : Option (Index κ) × Option PyErr :=
  match d with
  | none => (none, none)
  | some d => (some (removeKeysF broken m keys d).1, (removeKeysF broken m keys d).2)

/-- `_BaseMatches._remove_match` (`match.py:187-206`). -/
def removeMatchF (broken : Match → Option Nat) (s : Matches) (m : Match) : Matches × Option PyErr :=
  match removeFromF broken s.nameD (nameKeys m) m with
  | (d, some e) => ({ s with nameD := d }, some e)
  | (d, none) =>
  let s := { s with nameD := d }
  match removeFromF broken s.tagD (tagKeys m) m with
  | (d, some e) => ({ s with tagD := d }, some e)
  | (d, none) =>
  let s := { s with tagD := d }
  match removeFromF broken s.startD (startKeys m) m with
  | (d, some e) => ({ s with startD := d }, some e)
  | (d, none) =>
  let s := { s with startD := d }
  match removeFromF broken s.endD (endKeys m) m with
  | (d, some e) => ({ s with endD := d }, some e)
  | (d, none) =>
  let s := { s with endD := d }
  match removeFromF broken s.indexD (indexKeys m) m with
  | (d, some e) => ({ s with indexD := d }, some e)
  | (d, none) => ({ s with indexD := d }.shrinkMaxEnd m, none)

/-- `__delitem__` with an integer (`match.py:966-974`). -/
def delItemF (broken : Match → Option Nat) (s : Matches) (i : Int) : Matches × Option PyErr :=
  match normIdx s.delegate.length i with
  | none => (s, some .indexError)
  | some k =>
    match s.delegate[k]? with
    | none => (s, some .indexError)
    | some m => removeMatchF broken { s with delegate := s.delegate.eraseIdx k } m

/-- `MutableSequence.remove`: `del self[self.index(value)]`. -/
def removeF (broken : Match → Option Nat) (s : Matches) (m : Match) : Matches × Option PyErr :=
  match findF (eqvF broken m) s.delegate with
  | .error e => (s, some e)
  | .ok none => (s, some .valueError)
  | .ok (some k) => s.delItemF broken k

end Matches
end Rebulk
