/-!
# `IdentitySet` (`rebulk/utils.py`)

Objects are addresses: `a is b` is equality of addresses, `id(a)` is the address. Whether two objects are equal (`==`) plays no role. The set of
references keeps the objects alive, so an address stands for one object as long as it is in the set.

A Python `set` is a list of its elements; the order in which iteration lists them is a parameter `order` (it depends on hash values and on the
history of the table). The operators come from `collections.abc.Set` and `MutableSet`.
-/
namespace Rebulk

/-- `_Ref` (`utils.py:129-135`). -/
structure Ref where
  value : Nat

/-- `_Ref.__eq__` (`utils.py:137-138`). -/
def Ref.eq (r other : Ref) : Bool := r.value == other.value

/-- `_Ref.__hash__` (`utils.py:140-141`). -/
def Ref.hash (r : Ref) : Nat := r.value

/-- Whether a built-in set finds `r` where it holds `q`: the hash values are compared first. -/
def Ref.found (r q : Ref) : Bool := q.hash == r.hash && q.eq r

/-- `IdentitySet` (`utils.py:144-152`): `refs`. -/
abbrev IdSet := List Ref

namespace IdSet

/-- `elem in s` (`utils.py:154-155`). -/
def contains (s : IdSet) (x : Nat) : Bool := s.any (fun q => (Ref.mk x).found q)

/-- `s.add(x)` (`utils.py:163-164`): a built-in set keeps the element it has. -/
def add (s : IdSet) (x : Nat) : IdSet := if s.contains x then s else s ++ [⟨x⟩]

/-- `s.discard(x)` (`utils.py:166-167`). -/
def discard (s : IdSet) (x : Nat) : IdSet := s.filter (fun q => !(Ref.mk x).found q)

/-- `s.update(xs)` (`utils.py:169-178`). -/
def update (s : IdSet) (xs : List Nat) : IdSet := xs.foldl add s

/-- `IdentitySet(xs)` (`utils.py:149-152`). -/
def ofList (xs : List Nat) : IdSet := update [] xs

/-- `len(s)` (`utils.py:160-161`). -/
def len (s : IdSet) : Nat := List.length s

/-- `list(s)` (`utils.py:157-158`). -/
def iter (order : List Nat → List Nat) (s : IdSet) : List Nat := order (List.map (fun r => r.value) s)

/-- `s.remove(x)` (`MutableSet.remove`); `none` for `KeyError`. -/
def remove? (s : IdSet) (x : Nat) : Option IdSet := if s.contains x then some (s.discard x) else none

/-- `s.pop()` (`MutableSet.pop`): the first object iteration gives; `none` for `KeyError`. -/
def pop? (order : List Nat → List Nat) (s : IdSet) : Option (IdSet × Nat) :=
  match s.iter order with
  | [] => none
  | x :: _ => some (s.discard x, x)

/-- `s & t` (`Set.__and__`). -/
def inter (order : List Nat → List Nat) (s t : IdSet) : IdSet := ofList ((t.iter order).filter s.contains)

/-- `s | t` (`Set.__or__`). -/
def union (order : List Nat → List Nat) (s t : IdSet) : IdSet := ofList (s.iter order ++ t.iter order)

/-- `s - t` (`Set.__sub__`). -/
def diff (order : List Nat → List Nat) (s t : IdSet) : IdSet := ofList ((s.iter order).filter (fun x => !t.contains x))

/-- `s ^ t` (`Set.__xor__`): `(s - t) | (t - s)`. -/
def xor (order : List Nat → List Nat) (s t : IdSet) : IdSet := union order (diff order s t) (diff order t s)

/-- `s <= t` (`Set.__le__`). -/
def le (order : List Nat → List Nat) (s t : IdSet) : Bool := if s.len > t.len then false else (s.iter order).all t.contains

/-- `s == t` (`Set.__eq__`). -/
def eq (order : List Nat → List Nat) (s t : IdSet) : Bool := s.len == t.len && le order s t

/-- `s.isdisjoint(xs)` (`Set.isdisjoint`). -/
def isDisjoint (s : IdSet) (xs : List Nat) : Bool := xs.all (fun x => !s.contains x)

/-- `s |= xs` (`MutableSet.__ior__`). -/
def ior (s : IdSet) (xs : List Nat) : IdSet := xs.foldl add s

/-- `s -= xs` (`MutableSet.__isub__`) for another set or any iterable. -/
def isub (s : IdSet) (xs : List Nat) : IdSet := xs.foldl discard s

/-- `s &= t` (`MutableSet.__iand__`): discards `s - t`. -/
def iand (order : List Nat → List Nat) (s t : IdSet) : IdSet := ((diff order s t).iter order).foldl discard s

/-- One step of the loop of `MutableSet.__ixor__`. -/
def toggle (s : IdSet) (x : Nat) : IdSet := if s.contains x then s.discard x else s.add x

/-- `s ^= xs` (`MutableSet.__ixor__`): an iterable is first made a set. -/
def ixor (order : List Nat → List Nat) (s : IdSet) (xs : List Nat) : IdSet := ((ofList xs).iter order).foldl toggle s

/-- `s.clear()` (`MutableSet.clear`): pops until the set is empty; at most `fuel` pops. -/
def clearLoop (order : List Nat → List Nat) : Nat → IdSet → IdSet
  | 0, s => s
  | fuel + 1, s => match s.pop? order with
    | none => s
    | some (s, _) => clearLoop order fuel s

/-- `s.clear()`. -/
def clear (order : List Nat → List Nat) (s : IdSet) : IdSet := clearLoop order (s.len + 1) s

end IdSet

/-! ## Histories -/

/-- A call that changes the set. Iterables and other sets are given by the objects they list. -/
inductive IdOp where
  | add (x : Nat)
  | discard (x : Nat)
  | remove (x : Nat)
  | pop
  | update (xs : List Nat)
  | ior (xs : List Nat)
  | isub (xs : List Nat)
  | iand (xs : List Nat)
  | ixor (xs : List Nat)
  | clear

/-- The effect of a call; one that raises `KeyError` changes nothing. Iteration orders may be different for each call. -/
def IdSet.step (s : IdSet) : (List Nat → List Nat) × IdOp → IdSet
  | (_, .add x) => s.add x
  | (_, .discard x) => s.discard x
  | (_, .remove x) => (s.remove? x).getD s
  | (o, .pop) => ((s.pop? o).map (fun r => r.1)).getD s
  | (_, .update xs) => s.update xs
  | (_, .ior xs) => s.ior xs
  | (_, .isub xs) => s.isub xs
  | (o, .iand xs) => s.iand o (IdSet.ofList xs)
  | (o, .ixor xs) => s.ixor o xs
  | (o, .clear) => s.clear o

end Rebulk
