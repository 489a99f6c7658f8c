import Verif.Model.Py
/-!
# `rebulk/match.py`: the `Match` class

Model of `Match` (`rebulk/match.py:1011-1359`).
-/
namespace Rebulk

/-- Python values a match can carry (`Match.value`, `Any`): `None`, booleans, integers, strings, lists and
opaque objects (compared by identity, always truthy).
Simplification: `True == 1` and numeric cross-type equalities are not modelled. -/
inductive Val where
  | none
  | bool (b : Bool)
  | int (i : Int)
  | str (s : Str)
  | list (l : List Val)
  | obj (n : Nat)

mutual
/-- Decidable equality on values (nested inductive, so written by hand). -/
def Val.decEq : (a b : Val) → Decidable (a = b)
  | .none, .none => isTrue rfl
  | .bool a, .bool b => if h : a = b then isTrue (by rw [h]) else isFalse (by intro e; cases e; exact h rfl)
  | .int a, .int b => if h : a = b then isTrue (by rw [h]) else isFalse (by intro e; cases e; exact h rfl)
  | .str a, .str b => if h : a = b then isTrue (by rw [h]) else isFalse (by intro e; cases e; exact h rfl)
  | .obj a, .obj b => if h : a = b then isTrue (by rw [h]) else isFalse (by intro e; cases e; exact h rfl)
  | .list a, .list b =>
    match Val.decEqList a b with
    | isTrue h => isTrue (by rw [h])
    | isFalse h => isFalse (by intro e; cases e; exact h rfl)
  | .none, .bool _ => isFalse (by intro e; cases e)
  | .none, .int _ => isFalse (by intro e; cases e)
  | .none, .str _ => isFalse (by intro e; cases e)
  | .none, .list _ => isFalse (by intro e; cases e)
  | .none, .obj _ => isFalse (by intro e; cases e)
  | .bool _, .none => isFalse (by intro e; cases e)
  | .bool _, .int _ => isFalse (by intro e; cases e)
  | .bool _, .str _ => isFalse (by intro e; cases e)
  | .bool _, .list _ => isFalse (by intro e; cases e)
  | .bool _, .obj _ => isFalse (by intro e; cases e)
  | .int _, .none => isFalse (by intro e; cases e)
  | .int _, .bool _ => isFalse (by intro e; cases e)
  | .int _, .str _ => isFalse (by intro e; cases e)
  | .int _, .list _ => isFalse (by intro e; cases e)
  | .int _, .obj _ => isFalse (by intro e; cases e)
  | .str _, .none => isFalse (by intro e; cases e)
  | .str _, .bool _ => isFalse (by intro e; cases e)
  | .str _, .int _ => isFalse (by intro e; cases e)
  | .str _, .list _ => isFalse (by intro e; cases e)
  | .str _, .obj _ => isFalse (by intro e; cases e)
  | .list _, .none => isFalse (by intro e; cases e)
  | .list _, .bool _ => isFalse (by intro e; cases e)
  | .list _, .int _ => isFalse (by intro e; cases e)
  | .list _, .str _ => isFalse (by intro e; cases e)
  | .list _, .obj _ => isFalse (by intro e; cases e)
  | .obj _, .none => isFalse (by intro e; cases e)
  | .obj _, .bool _ => isFalse (by intro e; cases e)
  | .obj _, .int _ => isFalse (by intro e; cases e)
  | .obj _, .str _ => isFalse (by intro e; cases e)
  | .obj _, .list _ => isFalse (by intro e; cases e)
/-- Decidable equality on lists of values. -/
def Val.decEqList : (a b : List Val) → Decidable (a = b)
  | [], [] => isTrue rfl
  | [], _ :: _ => isFalse (by intro e; cases e)
  | _ :: _, [] => isFalse (by intro e; cases e)
  | a :: as, b :: bs =>
    match Val.decEq a b, Val.decEqList as bs with
    | isTrue h, isTrue h' => isTrue (by rw [h, h'])
    | isFalse h, _ => isFalse (by intro e; cases e; exact h rfl)
    | _, isFalse h => isFalse (by intro e; cases e; exact h rfl)
end

instance : DecidableEq Val := Val.decEq

/-- Python truthiness (`bool(x)`) of a value. -/
def Val.truthy : Val → Bool
  | .none => false
  | .bool b => b
  | .int i => i != 0
  | .str s => !s.isEmpty
  | .list l => !l.isEmpty
  | .obj _ => true

/-- Python `isinstance(x, list)`. -/
def Val.isList : Val → Bool
  | .list _ => true
  | _ => false

/-- The fields of a parent match that `Match.__eq__` and `Match.initiator` look at. -/
structure Core where
  start : Int
  stop : Int
  value : Val
  name : Option String
  deriving DecidableEq

/-- A `Match` object (`rebulk/match.py:1016-1049`).

* `id` is the Python object identity.
* `lit` is the stored `_value`, `formatter` the formatter function (formatters are total here: one that raises is
  not modelled), `ancestors` the parent chain, nearest first (snapshots of the fields used by `__eq__` and
  `initiator`), `solver` and `pattern` are tokens for the `conflict_solver` callable and the `pattern` object.
* `children` live in `MTree` (`Model/Pattern.lean`); `defined_at` is not modelled. -/
structure Match where
  id : Nat := 0
  start : Int
  stop : Int
  name : Option String := none
  lit : Val := .none
  formatter : Option (Val → Val) := none
  tags : List String := []
  marker : Bool := false
  priv : Bool := false
  inputString : Option Str := none
  rawStart : Option Int := none
  rawStop : Option Int := none
  matchIndex : Nat := 0
  pattern : Option Nat := none
  solver : Option Nat := none
  ancestors : List Core := []

namespace Match

/-- `Match.raw_start` (`match.py:1121-1130`). -/
def rawStartOf (m : Match) : Int := m.rawStart.getD m.start
/-- `Match.raw_end` (`match.py:1141-1150`). -/
def rawEndOf (m : Match) : Int := m.rawStop.getD m.stop

/-- `Match.raw` (`match.py:1161-1170`): `None` when the input string is missing or empty. -/
def raw (m : Match) : Val :=
  match m.inputString with
  | none => .none
  | some s => if s.isEmpty then .none else .str (pySlice s (some m.rawStartOf) (some m.rawEndOf))

/-- `Match.value` (`match.py:1072-1083`). -/
def value (m : Match) : Val :=
  if m.lit.truthy then m.lit
  else match m.formatter with
    | some f => f m.raw
    | none => m.raw

/-- `Match.has_literal_value` (`match.py:1096-1105`). -/
def hasLiteralValue (m : Match) : Bool := m.lit.truthy

/-- The snapshot of a match used when it is a parent. -/
def core (m : Match) : Core := ⟨m.start, m.stop, m.value, m.name⟩

/-- `Match.span` (`match.py:1051-1056`). -/
def span (m : Match) : Int × Int := (m.start, m.stop)

/-- The fields `Match.__eq__` compares. -/
structure EqKey where
  span : Int × Int
  value : Val
  name : Option String
  parents : List Core
  deriving DecidableEq

/-- The tuple of compared fields of a match (`match.py:1305-1310`). -/
def eqKey (m : Match) : EqKey := ⟨m.span, m.value, m.name, m.ancestors⟩

/-- `Match.__eq__` (`match.py:1303-1311`). Comparing `parent` recursively is comparing the parent chains. -/
def eqv (a b : Match) : Bool :=
  a.span == b.span && a.value == b.value && a.name == b.name && a.ancestors == b.ancestors

/-- `Match.__ne__` (`match.py:1313-1321`). -/
def nev (a b : Match) : Bool :=
  a.span != b.span || a.value != b.value || a.name != b.name || a.ancestors != b.ancestors

/-- What `Match.__hash__` (`match.py:1296-1301`) feeds to `hash`. -/
def hashKey (m : Match) : Int × Int := (m.start, m.stop)

/-- Lexicographic `<` on tuples of two ints. -/
def tupleLt (a b : Int × Int) : Bool := a.1 < b.1 || (a.1 == b.1 && a.2 < b.2)

/-- `Match.__lt__` (`match.py:1323-1326`). -/
def lt (a b : Match) : Bool := tupleLt a.span b.span
/-- `Match.__gt__` (`match.py:1328-1331`). -/
def gt (a b : Match) : Bool := tupleLt b.span a.span
/-- `Match.__le__` (`match.py:1333-1336`). -/
def le (a b : Match) : Bool := tupleLt a.span b.span || a.span == b.span
/-- `Match.__ge__` (`match.py:1338-1341`). -/
def ge (a b : Match) : Bool := tupleLt b.span a.span || a.span == b.span

/-- `Match.__len__` (`match.py:1293-1294`) as Python's `len()`: a negative length raises `ValueError`. -/
def len? (m : Match) : Except PyErr Int :=
  if m.stop - m.start < 0 then .error .valueError else .ok (m.stop - m.start)

/-- `bool(match)`, which Python derives from `__len__`. -/
def truthy? (m : Match) : Except PyErr Bool :=
  if m.stop - m.start < 0 then .error .valueError else .ok (m.stop - m.start != 0)

/-- Length as an integer (no error), for matches known to be well formed. -/
def len (m : Match) : Int := m.stop - m.start

/-- The loop `while match.parent: match = match.parent` of `Match.initiator` (`match.py:1181-1184`), from a match whose
snapshot is `c` and whose parent chain is `ps`. `if match.parent` is the truthiness of a match, that is `len(...) != 0`:
the loop stops below a zero-length parent. (A parent of negative length would raise; not modelled.) -/
def initiatorFrom : Core → List Core → Core
  | c, [] => c
  | c, p :: ps => if p.stop - p.start == 0 then c else initiatorFrom p ps

/-- `Match.initiator` (`match.py:1172-1184`) restricted to what its callers read (span, value, name). -/
def initiator (m : Match) : Core := initiatorFrom m.core m.ancestors

/-- `len(match.initiator)`. -/
def initLen (m : Match) : Int := m.initiator.stop - m.initiator.start

/-- `Match.tagged` (`match.py:1275-1282`). -/
def tagged (m : Match) (tags : List String) : Bool := tags.any (fun t => m.tags.contains t)

/-- Truthiness of `match.name` (`None` and `""` are falsy). -/
def nameKey (m : Match) : Option String :=
  match m.name with
  | none => none
  | some n => if n.isEmpty then none else some n

end Match
end Rebulk
