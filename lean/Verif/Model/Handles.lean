import Verif.Model.Matches
/-!
# `rebulk/match.py`: the lists returned by lookups, as objects

Lookups return new lists: `named` (`match.py:309-312`), `tagged`, `starting`, `ending` (`_base(…)` copies, `match.py:334`, `358`, `378`), `previous` and
`next` (through `ending` and `starting`), `range`, `chain_before`, `chain_after`, `holes`, `conflicting` (`match.py:420`, `467`, `522`, `631`, `687`) and
`at_span` (`match.py:738`). `at_index` alone returns the list object of the index itself (`match.py:759`), unless a predicate makes a new one
(`loose.py:160`). Nothing else gives access to the lists of the indexes.
-/
namespace Rebulk

/-- A list object the caller holds: one of its own, or the one the container keeps for a position. -/
inductive Handle where
  | own (l : List Match)
  | live (pos : Int)

/-- A container, and the lists its caller got from it, in the order it got them. -/
structure Desk where
  box : Matches
  held : List Handle := []

/-- What the caller does: a lookup or another call, with a predicate or not; or changing in place the `k`-th list it holds. -/
inductive HOp where
  | call (op : Matches.Op) (predicate : Option (Match → Bool))
  | change (k : Nat) (f : List Match → List Match)

/-- The list object returned by a call that returned `l`. -/
def handleOf (op : Matches.Op) (predicate : Option (Match → Bool)) (l : List Match) : Handle :=
  match predicate, op with
  | some f, _ => .own (l.filter f)
  | none, .atIndex pos => .live pos
  | none, _ => .own l

/-- The contents of a list object now. -/
def Handle.read (s : Matches) : Handle → List Match
  | .own l => l
  | .live pos => s.indexDict.getList pos

/-- The caller's lists after a call. -/
def heldAfter (held : List Handle) (op : Matches.Op) (predicate : Option (Match → Bool)) : Matches.Out → List Handle
  | .list l => held ++ [handleOf op predicate l]
  | _ => held

/-- Changing a list object in place. -/
def Desk.change (d : Desk) (k : Nat) (f : List Match → List Match) : Desk :=
  match d.held[k]? with
  | none => d
  | some (.own l) => { d with held := d.held.set k (.own (f l)) }
  | some (.live pos) => { d with box := { d.box with indexD := some (d.box.indexDict.set pos (f (d.box.indexDict.getList pos))) } }

/-- One thing the caller does. -/
def Desk.step (d : Desk) : HOp → Desk
  | .call op predicate => ⟨(d.box.step op).1, heldAfter d.held op predicate (d.box.step op).2⟩
  | .change k f => d.change k f

/-- Any number of them. -/
def Desk.run (d : Desk) (ops : List HOp) : Desk := ops.foldl Desk.step d

/-- `matches.extend(matches.at_index(pos))`: `MutableSequence.extend` goes through the list object returned by `at_index`, from position `i`, appending
each match (`match.py:979-981`, which also appends it to the list of the index, `match.py:182-184`). `none` when the fuel is used up. -/
def extendLive (pos : Int) : Nat → Nat → Matches → Option (Matches × Option PyErr)
  | 0, _, _ => none
  | fuel + 1, i, s =>
    match (s.indexDict.getList pos)[i]? with
    | none => some (s, none)
    | some m =>
      match s.append m with
      | (s', none) => extendLive pos fuel (i + 1) s'
      | (s', some e) => some (s', some e)

end Rebulk
