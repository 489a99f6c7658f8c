/-!
# Python primitives used by the rebulk model

Lean counterparts of the built-in Python operations the modelled code relies on.
They model CPython's documented behaviour, not code of `/repo`; the `/repo` call sites are cited
where they are used.
-/
namespace Rebulk

/-- A Python `str`: a sequence of code points. -/
abbrev Str := List Char

/-- The exceptions the modelled code can raise (`_InvalidChainException` of `rebulk/chain.py:21`
and `CyclicDependency` of `rebulk/toposort.py:19` included). `diverges` is no exception: it stands for a loop that never ends. -/
inductive PyErr where
  | valueError | indexError | assertionError | typeError | lookupError | keyError
  | stopIteration | runtimeError | cyclicDependency | invalidChain | attributeError | diverges
  | user (n : Nat)
  deriving DecidableEq, Repr

/-- Python `range(a, b)` as a list. -/
def pyRange (a b : Int) : List Int :=
  (List.range (b - a).toNat).map (fun (i : Nat) => a + (i : Int))

/-- Normalise a Python sequence index: negative indexes count from the end; `none` is `IndexError`. -/
def normIdx (n : Nat) (i : Int) : Option Nat :=
  if 0 ≤ i then (if i < n then some i.toNat else none)
  else (if 0 ≤ i + n then some (i + n).toNat else none)

/-- Python `l[i]`; `none` models `IndexError`. -/
def pyGet {α} (l : List α) (i : Int) : Option α :=
  match normIdx l.length i with
  | some k => l[k]?
  | none => none

/-- Clamp a slice bound the way Python does for step 1. -/
def clampIdx (n : Nat) (i : Int) : Nat :=
  if i < 0 then (i + n).toNat else min i.toNat n

/-- Python `l[a:b]` with optional bounds. -/
def pySlice {α} (l : List α) (a b : Option Int) : List α :=
  let lo := match a with | none => 0 | some i => clampIdx l.length i
  let hi := match b with | none => l.length | some i => clampIdx l.length i
  (l.take hi).drop lo

/-- Python `list.remove(x)` with `==` given by `eq`; `none` models `ValueError`. -/
def removeFirst {α} (eq : α → Bool) : List α → Option (List α)
  | [] => none
  | x :: xs => if eq x then some xs else (removeFirst eq xs).map (x :: ·)

/-- Insertion of `x` in an ordered list, before the first element that is not smaller
(`lt y x` false): this keeps `x` before the elements equal to it. -/
def insertSorted {α} (lt : α → α → Bool) (x : α) : List α → List α
  | [] => [x]
  | y :: ys => if lt y x then y :: insertSorted lt x ys else x :: y :: ys

/-- Python `sorted(l)` for a `__lt__` given by `lt`. Python guarantees a stable sort, which for a strict
weak order determines the result; it is computed here by insertion sort. -/
def pySorted {α} (lt : α → α → Bool) : List α → List α
  | [] => []
  | x :: xs => insertSorted lt x (pySorted lt xs)

/-- Put `x` in front of a list of `(key, group)` pairs, joining the first group if its key is the key of `x`. -/
def groupCons {α κ} [BEq κ] (key : α → κ) (x : α) : List (κ × List α) → List (κ × List α)
  | [] => [(key x, [x])]
  | (k, g) :: r => if key x == k then (k, x :: g) :: r else (key x, [x]) :: (k, g) :: r

/-- `itertools.groupby(l, key)`: groups of *consecutive* elements with equal keys. -/
def groupBy {α κ} [BEq κ] (key : α → κ) : List α → List (κ × List α)
  | [] => []
  | x :: xs => groupCons key x (groupBy key xs)

/-! ## Insertion-ordered dictionaries -/

/-- A Python `dict` / `defaultdict`: association list in insertion order. -/
abbrev Dict (κ ν : Type) := List (κ × ν)

namespace Dict
variable {κ ν : Type} [BEq κ]

/-- `d.get(k)`. -/
def get? (d : Dict κ ν) (k : κ) : Option ν :=
  match d with
  | [] => none
  | (k', v) :: r => if k' == k then some v else get? r k

/-- `k in d`. -/
def contains (d : Dict κ ν) (k : κ) : Bool := (d.get? k).isSome

/-- `d[k] = v`: keeps the position of an existing key, appends a new one. -/
def set (d : Dict κ ν) (k : κ) (v : ν) : Dict κ ν :=
  match d with
  | [] => [(k, v)]
  | (k', v') :: r => if k' == k then (k', v) :: r else (k', v') :: set r k v

/-- `d.keys()`. -/
def keys (d : Dict κ ν) : List κ := List.map Prod.fst d

/-- `d.setdefault(k, v)`. -/
def setDefault (d : Dict κ ν) (k : κ) (v : ν) : Dict κ ν :=
  if d.contains k then d else d.set k v

/-- `d.update(e)`. -/
def update (d e : Dict κ ν) : Dict κ ν := e.foldl (fun acc kv => acc.set kv.1 kv.2) d

end Dict

/-- Value of a `defaultdict(list)` entry (without the key creation, see `touch`). -/
def Dict.getList {κ α : Type} [BEq κ] (d : Dict κ (List α)) (k : κ) : List α := (d.get? k).getD []

/-- Reading `d[k]` on a `defaultdict(list)` creates the key when it is missing. -/
def Dict.touch {κ α : Type} [BEq κ] (d : Dict κ (List α)) (k : κ) : Dict κ (List α) :=
  if d.contains k then d else d.set k []

/-- `d[k].append(x)` on a `defaultdict(list)`. -/
def Dict.append {κ α : Type} [BEq κ] (d : Dict κ (List α)) (k : κ) (x : α) : Dict κ (List α) :=
  d.set k (d.getList k ++ [x])

/-- `d[k].extend(xs)` on a `defaultdict(list)`. -/
def Dict.extend {κ α : Type} [BEq κ] (d : Dict κ (List α)) (k : κ) (xs : List α) : Dict κ (List α) :=
  d.set k (d.getList k ++ xs)

end Rebulk
