import Verif.Model.Match
/-!
# `rebulk/match.py`: the match containers

Model of `_BaseMatches`, `Matches` and `Markers` (`rebulk/match.py:97-1008`): a list (`_delegate`), five lazily built
index dictionaries and `_max_end`. Methods that Python inherits from `collections.abc.MutableSequence` (`append`, `extend`,
`pop`, `remove`, `clear`, `reverse`) are modelled after that class, on top of `insert`, `__getitem__`, `__setitem__`
and `__delitem__`.

A mutating method returns the new state and the exception raised, if any: the state matters after an exception too.
The arguments `predicate` and `index` of the lookups are in `Model/Arguments.lean`.
Simplifications: `declared_keys` is in `Model/Project.lean`; slices have step 1.
-/
namespace Rebulk

/-! ## Index dictionaries -/

/-- The keys of the five indexes under which a match is filed (`match.py:173-184`). -/
def nameKeys (m : Match) : List String := m.nameKey.toList
/-- See `nameKeys`. -/
def tagKeys (m : Match) : List String := m.tags
/-- See `nameKeys`. -/
def startKeys (m : Match) : List Int := [m.start]
/-- See `nameKeys`. -/
def endKeys (m : Match) : List Int := [m.stop]
/-- See `nameKeys`. -/
def indexKeys (m : Match) : List Int := pyRange m.start m.stop

/-- An index dictionary from `κ` to lists of matches. -/
abbrev Index (κ : Type) := Dict κ (List Match)

/-- `for k, values in groupby(l, key): d[k].extend(values)` on an empty defaultdict
(`match.py:124-125`, `133-134`, `142-143`). -/
def buildGroups {κ} [BEq κ] (key : Match → κ) (l : List Match) : Index κ :=
  (groupBy key l).foldl (fun d kv => d.extend kv.1 kv.2) []

/-- `for m in l: for k in keys(m): d[k].append(m)` on an empty defaultdict (`match.py:151-153`, `161-163`). -/
def buildEach {κ} [BEq κ] (keys : Match → List κ) (l : List Match) : Index κ :=
  l.foldl (fun d m => (keys m).foldl (fun d k => d.append k m) d) []

/-- `_name_dict` construction (`match.py:120-127`). The key of a match with a truthy name is its name. -/
def buildName (l : List Match) : Index String :=
  buildGroups (fun m => m.name.getD "") (l.filter (fun m => m.nameKey.isSome))
/-- `_start_dict` construction (`match.py:129-136`). -/
def buildStart (l : List Match) : Index Int := buildGroups Match.start l
/-- `_end_dict` construction (`match.py:138-145`). -/
def buildEnd (l : List Match) : Index Int := buildGroups Match.stop l
/-- `_tag_dict` construction (`match.py:147-155`). -/
def buildTag (l : List Match) : Index String := buildEach tagKeys l
/-- `_index_dict` construction (`match.py:157-165`). -/
def buildIndex (l : List Match) : Index Int := buildEach indexKeys l

/-- A container (`match.py:107-118`, `984-1008`). `isMarkers` tells `Markers` from `Matches`. -/
structure Matches where
  isMarkers : Bool := false
  inputString : Option Str := none
  maxEnd : Int := 0
  delegate : List Match := []
  nameD : Option (Index String) := none
  tagD : Option (Index String) := none
  startD : Option (Index Int) := none
  endD : Option (Index Int) := none
  indexD : Option (Index Int) := none

namespace Matches

/-- A new empty container (`match.py:107-116`). -/
def empty (isMarkers : Bool) (inputString : Option Str) : Matches :=
  { isMarkers := isMarkers, inputString := inputString }

/-! ### Adding and removing in the indexes -/

/-- `for k in keys: d[k].append(m)` when the dictionary is built. -/
def addTo {κ} [BEq κ] (d : Option (Index κ)) (keys : List κ) (m : Match) : Option (Index κ) :=
  d.map (fun d => keys.foldl (fun d k => d.append k m) d)

/-- `for k in keys: d[k].remove(m)`: `list.remove` raises `ValueError` when no element is equal to `m`; `false` then.
Reading `d[k]` creates the key. -/
def removeKeys {κ} [BEq κ] (m : Match) : List κ → Index κ → Index κ × Bool
  | [], d => (d, true)
  | k :: ks, d =>
    match removeFirst (fun x => x.eqv m) (d.getList k) with
    | some l => removeKeys m ks (d.set k l)
    | none => (d.touch k, false)

/-- `removeKeys` when the dictionary is built, nothing otherwise. -/
def removeFrom {κ} [BEq κ] (d : Option (Index κ)) (keys : List κ) (m : Match) : Option (Index κ) × Bool :=
  match d with
  | none => (none, true)
  | some d => let (d', ok) := removeKeys m keys d; (some d', ok)

/-- `_BaseMatches._add_match` (`match.py:167-185`). -/
def addMatchBase (s : Matches) (m : Match) : Matches :=
  { s with
    nameD := addTo s.nameD (nameKeys m) m
    tagD := addTo s.tagD (tagKeys m) m
    startD := addTo s.startD (startKeys m) m
    endD := addTo s.endD (endKeys m) m
    indexD := addTo s.indexD (indexKeys m) m
    maxEnd := max s.maxEnd m.stop }

/-- `Matches._add_match` / `Markers._add_match` (`match.py:993-995`, `1006-1008`). -/
def addMatch (s : Matches) (m : Match) : Matches × Option PyErr :=
  if m.marker == s.isMarkers then (s.addMatchBase m, none) else (s, some .assertionError)

/-- The `_end_dict` property: builds the dictionary when needed (`match.py:138-145`). -/
def endDict (s : Matches) : Index Int := s.endD.getD (buildEnd s.delegate)

/-- Python `max` of a list of keys (`match.py:206`); the list is never empty there. -/
def maxKey : List Int → Int
  | [] => 0
  | k :: ks => ks.foldl max k

/-- The last two lines of `_remove_match` (`match.py:205-206`). Reading `self._end_dict[match.end]` builds the dictionary
and creates the key. -/
def shrinkMaxEnd (s : Matches) (m : Match) : Matches :=
  if s.maxEnd ≤ m.stop then
    let d := s.endDict.touch m.stop
    if (d.getList m.stop).isEmpty then { s with endD := some d, maxEnd := maxKey d.keys }
    else { s with endD := some d }
  else s

/-- `_BaseMatches._remove_match` (`match.py:187-206`). -/
def removeMatch (s : Matches) (m : Match) : Matches × Option PyErr :=
  let n := removeFrom s.nameD (nameKeys m) m
  let s := { s with nameD := n.1 }
  if !n.2 then (s, some .valueError) else
  let t := removeFrom s.tagD (tagKeys m) m
  let s := { s with tagD := t.1 }
  if !t.2 then (s, some .valueError) else
  let b := removeFrom s.startD (startKeys m) m
  let s := { s with startD := b.1 }
  if !b.2 then (s, some .valueError) else
  let e := removeFrom s.endD (endKeys m) m
  let s := { s with endD := e.1 }
  if !e.2 then (s, some .valueError) else
  let i := removeFrom s.indexD (indexKeys m) m
  let s := { s with indexD := i.1 }
  if !i.2 then (s, some .valueError) else
  (s.shrinkMaxEnd m, none)

/-! ### The mutable sequence -/

/-- `__len__` (`match.py:820-821`). -/
def length (s : Matches) : Nat := s.delegate.length

/-- `insert` (`match.py:979-981`): `list.insert` clamps its index; the element is in `_delegate` even when
`_add_match` refuses it. -/
def insert (s : Matches) (i : Int) (m : Match) : Matches × Option PyErr :=
  addMatch { s with delegate := s.delegate.insertIdx (clampIdx s.delegate.length i) m } m

/-- `MutableSequence.append`. -/
def append (s : Matches) (m : Match) : Matches × Option PyErr := s.insert s.length m

/-- `MutableSequence.extend` (also `__iadd__`), stopping at the first exception. -/
def extend (s : Matches) : List Match → Matches × Option PyErr
  | [] => (s, none)
  | m :: ms =>
    match s.append m with
    | (s', none) => extend s' ms
    | (s', some e) => (s', some e)

/-- `_BaseMatches.__init__` with matches (`match.py:107-118`, `989-991`); `Markers` ignores the argument
(`match.py:1003-1004`). -/
def ofList (isMarkers : Bool) (inputString : Option Str) (ms : List Match) : Matches × Option PyErr :=
  if isMarkers then (empty true inputString, none) else (empty false inputString).extend ms

/-- `__getitem__` with an integer (`match.py:836-839`). -/
def getItem (s : Matches) (i : Int) : Except PyErr Match :=
  match pyGet s.delegate i with
  | some m => .ok m
  | none => .error .indexError

/-- `__getitem__` with a slice (`match.py:836-838`): a new `Matches` (even for `Markers`), without input string. -/
def getSlice (s : Matches) (a b : Option Int) : Except PyErr Matches :=
  match (empty false none).extend (pySlice s.delegate a b) with
  | (s', none) => .ok s'
  | (_, some e) => .error e

/-- `__delitem__` with an integer (`match.py:966-974`). -/
def delItem (s : Matches) (i : Int) : Matches × Option PyErr :=
  match normIdx s.delegate.length i with
  | none => (s, some .indexError)
  | some k =>
    match s.delegate[k]? with
    | none => (s, some .indexError)
    | some m => removeMatch { s with delegate := s.delegate.eraseIdx k } m

/-- `for match_item in match: self._remove_match(match_item)` (`match.py:971-972`). -/
def removeAll (s : Matches) : List Match → Matches × Option PyErr
  | [] => (s, none)
  | m :: ms =>
    match s.removeMatch m with
    | (s', none) => removeAll s' ms
    | (s', some e) => (s', some e)

/-- Bounds of a slice of step 1. -/
def sliceBounds (n : Nat) (a b : Option Int) : Nat × Nat :=
  ((match a with | none => 0 | some i => clampIdx n i), (match b with | none => n | some i => clampIdx n i))

/-- `__delitem__` with a slice (`match.py:966-974`): the delegate is changed first, then each removed match is taken
out of the indexes. -/
def delSlice (s : Matches) (a b : Option Int) : Matches × Option PyErr :=
  let (lo, hi) := sliceBounds s.delegate.length a b
  let rest := if lo < hi then s.delegate.take lo ++ s.delegate.drop hi else s.delegate
  removeAll { s with delegate := rest } (pySlice s.delegate a b)

/-- `__setitem__` with an integer (`match.py:958-964`): the replaced match is *not* removed from the indexes. -/
def setItem (s : Matches) (i : Int) (m : Match) : Matches × Option PyErr :=
  match normIdx s.delegate.length i with
  | none => (s, some .indexError)
  | some k => addMatch { s with delegate := s.delegate.set k m } m

/-- `MutableSequence.pop`. -/
def pop (s : Matches) (i : Int := -1) : Matches × Except PyErr Match :=
  match s.getItem i with
  | .error e => (s, .error e)
  | .ok m =>
    match s.delItem i with
    | (s', none) => (s', .ok m)
    | (s', some e) => (s', .error e)

/-- `MutableSequence.remove`: `del self[self.index(value)]`, `index` raising `ValueError`. -/
def remove (s : Matches) (m : Match) : Matches × Option PyErr :=
  match s.delegate.findIdx? (fun x => x.eqv m) with
  | none => (s, some .valueError)
  | some k => s.delItem k

/-- `MutableSequence.clear`: `pop()` until `IndexError`; any other exception goes through. The fuel is the
number of elements, since every successful or failing `pop()` of a non-empty sequence shortens it. -/
def clearLoop : Nat → Matches → Matches × Option PyErr
  | 0, s => (s, none)
  | n + 1, s =>
    match s.pop with
    | (s', .ok _) => clearLoop n s'
    | (s', .error .indexError) => (s', none)
    | (s', .error e) => (s', some e)

/-- `MutableSequence.clear`. -/
def clear (s : Matches) : Matches × Option PyErr := clearLoop (s.length + 1) s

/-- One swap of `MutableSequence.reverse`: `self[i], self[n-i-1] = self[n-i-1], self[i]`. -/
def swapItems (s : Matches) (i j : Int) : Matches × Option PyErr :=
  match s.getItem j, s.getItem i with
  | .ok mj, .ok mi =>
    match s.setItem i mj with
    | (s', none) => s'.setItem j mi
    | r => r
  | _, _ => (s, some .indexError)

/-- The loop of `MutableSequence.reverse`. -/
def reverseLoop (n : Nat) : List Nat → Matches → Matches × Option PyErr
  | [], s => (s, none)
  | i :: is, s =>
    match s.swapItems (i : Int) ((n : Int) - i - 1) with
    | (s', none) => reverseLoop n is s'
    | r => r

/-- `MutableSequence.reverse`. -/
def reverse (s : Matches) : Matches × Option PyErr :=
  reverseLoop s.length (List.range (s.length / 2)) s

/-! ### Lookups

Reading `d[k]` on a `defaultdict` builds the dictionary when needed and creates the key. -/

/-- `_name_dict` (`match.py:120-127`). -/
def nameDict (s : Matches) : Index String := s.nameD.getD (buildName s.delegate)
/-- `_tag_dict` (`match.py:147-155`). -/
def tagDict (s : Matches) : Index String := s.tagD.getD (buildTag s.delegate)
/-- `_start_dict` (`match.py:129-136`). -/
def startDict (s : Matches) : Index Int := s.startD.getD (buildStart s.delegate)
/-- `_index_dict` (`match.py:157-165`). -/
def indexDict (s : Matches) : Index Int := s.indexD.getD (buildIndex s.delegate)

/-- `self._name_dict[name]`. -/
def lookName (s : Matches) (k : String) : Matches × List Match :=
  ({ s with nameD := some (s.nameDict.touch k) }, s.nameDict.getList k)
/-- `self._tag_dict[tag]` (`tagged`, `match.py:334`). -/
def lookTag (s : Matches) (k : String) : Matches × List Match :=
  ({ s with tagD := some (s.tagDict.touch k) }, s.tagDict.getList k)
/-- `self._start_dict[start]` (`starting`, `match.py:358`). -/
def lookStart (s : Matches) (k : Int) : Matches × List Match :=
  ({ s with startD := some (s.startDict.touch k) }, s.startDict.getList k)
/-- `self._end_dict[end]` (`ending`, `match.py:378`). -/
def lookEnd (s : Matches) (k : Int) : Matches × List Match :=
  ({ s with endD := some (s.endDict.touch k) }, s.endDict.getList k)
/-- `self._index_dict[pos]` (`at_index`, `match.py:759`). -/
def lookIndex (s : Matches) (k : Int) : Matches × List Match :=
  ({ s with indexD := some (s.indexDict.touch k) }, s.indexDict.getList k)

/-- First occurrences of a list of keys: `dict.fromkeys(l)`. -/
def fromKeys {α} [BEq α] (l : List α) : List α :=
  l.foldl (fun acc a => if acc.contains a then acc else acc ++ [a]) []

/-- The accumulation loop of `named` (`match.py:309-311`). -/
def namedLoop : List String → Matches → List Match → Matches × List Match
  | [], s, acc => (s, acc)
  | n :: ns, s, acc => let (s', r) := s.lookName n; namedLoop ns s' (acc ++ r)

/-- `named(*names)` before `filter_index` (`match.py:278-312`). -/
def named (s : Matches) (names : List String) : Matches × List Match := namedLoop (fromKeys names) s []

/-- The names key view (`match.py:761-767`). -/
def names (s : Matches) : Matches × List String := ({ s with nameD := some s.nameDict }, s.nameDict.keys)
/-- The tags key view (`match.py:769-775`). -/
def tags (s : Matches) : Matches × List String := ({ s with tagD := some s.tagDict }, s.tagDict.keys)

/-- The `max_end` property (`match.py:538-544`). -/
def maxEndP (s : Matches) : Int :=
  match s.inputString with
  | none => s.maxEnd
  | some str => if str.isEmpty then s.maxEnd else max (str.length : Int) s.maxEnd

/-- The loop of `previous` (`match.py:230-236`) over the remaining candidate positions. -/
def previousLoop : List Int → Matches → Matches × List Match
  | [], s => (s, [])
  | c :: cs, s => let (s', r) := s.lookEnd c; if r.isEmpty then previousLoop cs s' else (s', r)

/-- `previous(match)` before `filter_index` (`match.py:216-236`): candidates `match.start` down to 0. -/
def previous (s : Matches) (m : Match) : Matches × List Match :=
  previousLoop (pyRange 0 (m.start + 1)).reverse s

/-- The loop of `next` (`match.py:260-266`). -/
def nextLoop : List Int → Matches → Matches × List Match
  | [], s => (s, [])
  | c :: cs, s => let (s', r) := s.lookStart c; if r.isEmpty then nextLoop cs s' else (s', r)

/-- `next(match)` before `filter_index` (`match.py:246-266`): candidates `match.start + 1` to `_max_end`. -/
def next (s : Matches) (m : Match) : Matches × List Match :=
  nextLoop (pyRange (m.start + 1) (s.maxEnd + 1)) s

/-- `end = self.max_end if end is None else min(self.max_end, end)` (`match.py:419`, `524`, `630`). -/
def clampEnd (s : Matches) (stop : Option Int) : Int :=
  match stop with
  | none => s.maxEndP
  | some e => min s.maxEndP e

/-- `range(start, end)` before `filter_index` (`match.py:399-424`). -/
def range (s : Matches) (start : Int) (stop : Option Int) : List Match :=
  (pySorted Match.lt s.delegate).filter (fun m => decide (m.start < s.clampEnd stop) && decide (m.stop > start))

/-- `for x in l: if x not in acc: acc.append(x)` with `==` (`match.py:474-476`, `690-692`, `739-741`). -/
def addMissing (acc : List Match) (l : List Match) : List Match :=
  l.foldl (fun acc x => if acc.any (fun y => y.eqv x) then acc else acc ++ [x]) acc

/-- The index scan of `conflicting` (`match.py:689-692`). -/
def conflictLoop : List Int → Matches → List Match → Matches × List Match
  | [], s, acc => (s, acc)
  | i :: is, s, acc => let (s', r) := s.lookIndex i; conflictLoop is s' (addMissing acc r)

/-- `conflicting(match)` before `filter_index` (`match.py:673-696`): `ret.remove(match)` may raise `ValueError`. -/
def conflicting (s : Matches) (m : Match) : Matches × Except PyErr (List Match) :=
  let (s', ret) := conflictLoop (pyRange m.start m.stop) s []
  match removeFirst (fun x => x.eqv m) ret with
  | some l => (s', .ok l)
  | none => (s', .error .valueError)

/-- `at_span((a, b))` before `filter_index` (`match.py:726-743`). -/
def atSpan (s : Matches) (a b : Int) : Matches × List Match :=
  let (s1, starting) := s.lookIndex a
  let (s2, ending) := s1.lookIndex (b - 1)
  (s2, addMissing starting ending)

/-- `at_match(match)` (`match.py:706-714`). -/
def atMatch (s : Matches) (m : Match) : Matches × List Match := s.atSpan m.start m.stop

/-- `self.input_string[i] not in seps` (`match.py:477`, `533`): indexing `None` raises `TypeError`, out of range
`IndexError`. `seps` is a Python string: membership of a one character string. -/
def notSep (s : Matches) (i : Int) (seps : Str) : Except PyErr Bool :=
  match s.inputString with
  | none => .error .typeError
  | some str =>
    match pyGet str i with
    | none => .error .indexError
    | some c => .ok (!seps.contains c)

/-- The loop shared by `chain_before` and `chain_after` (`match.py:470-478`, `526-534`). -/
def chainLoop (seps : Str) (pred : Match → Bool) : List Int → Matches → List Match →
    Matches × Except PyErr (List Match)
  | [], s, acc => (s, .ok acc)
  | i :: is, s, acc =>
    let (s', r) := s.lookIndex i
    let f := r.filter pred
    if f.isEmpty then
      match s'.notSep i seps with
      | .error e => (s', .error e)
      | .ok true => (s', .ok acc)
      | .ok false => chainLoop seps pred is s' acc
    else chainLoop seps pred is s' (addMissing acc f)

/-- `chain_before(position, seps, start, predicate)` before `filter_index` (`match.py:440-480`). -/
def chainBefore (s : Matches) (position : Int) (seps : Str) (start : Int := 0) (pred : Match → Bool := fun _ => true) :
    Matches × Except PyErr (List Match) :=
  chainLoop seps pred (pyRange start (min s.maxEndP position)).reverse s []

/-- `chain_after(position, seps, end, predicate)` before `filter_index` (`match.py:496-536`). -/
def chainAfter (s : Matches) (position : Int) (seps : Str) (stop : Option Int := none)
    (pred : Match → Bool := fun _ => true) : Matches × Except PyErr (List Match) :=
  chainLoop seps pred (pyRange position (s.clampEnd stop)) s []

/-! ### Holes -/

/-- The search shared by `_hole_start` and `_hole_end` (`match.py:556-560`, `572-576`): the first candidate position at which
a non ignored match starts. -/
def holeScan (ignore : Match → Bool) : List Int → Matches → Matches × Option Int
  | [], s => (s, none)
  | i :: is, s =>
    let (s', r) := s.lookStart i
    if r.any (fun m => !ignore m) then (s', some i) else holeScan ignore is s'

/-- `_hole_start` (`match.py:546-560`). -/
def holeStart (s : Matches) (position : Int) (ignore : Match → Bool) : Matches × Int :=
  let (s', r) := holeScan ignore (pyRange 0 position).reverse s
  (s', r.getD 0)

/-- `_hole_end` (`match.py:562-576`). -/
def holeEnd (s : Matches) (position : Int) (ignore : Match → Bool) : Matches × Int :=
  let (s', r) := holeScan ignore (pyRange position s.maxEndP) s
  (s', r.getD s.maxEndP)

/-- Working state of the loop of `holes`: closed holes, the start of the open one (if any), last `rindex`. -/
structure HoleSt where
  closed : List (Int × Int) := []
  openAt : Option Int := none
  rindex : Int

/-- Body of the loop of `holes` (`match.py:637-656`) once the matches at `rindex` have been filtered into `current`
(only its emptiness matters). `isSep` is `seps and self.input_string and self.input_string[rindex] in seps`. -/
def holeStep (start : Int) (current isSep : Bool) (h : HoleSt) (r : Int) : HoleSt :=
  match h.openAt with
  | some a =>
    if isSep then ⟨h.closed ++ [(a, r)], none, r⟩
    else if current then ⟨h.closed ++ [(a, r)], none, r⟩
    else { h with rindex := r }
  | none => if current then { h with rindex := r } else ⟨h.closed, some (max r start), r⟩

/-- The loop of `holes` (`match.py:637-656`). `self.input_string[rindex]` is only read when `seps` is given and a hole is
open; it raises `IndexError` outside of the string. -/
def holesLoop (start : Int) (seps : Option Str) (ignore : Match → Bool) :
    List Int → Matches → HoleSt → Matches × Except PyErr HoleSt
  | [], s, h => (s, .ok h)
  | r :: rs, s, h =>
    let (s', found) := s.lookIndex r
    let current := found.any (fun m => !ignore m)
    match seps, h.openAt, s.inputString with
    | some sp, some _, some str =>
      if sp.isEmpty || str.isEmpty then holesLoop start seps ignore rs s' (holeStep start current false h r)
      else match pyGet str r with
        | none => (s', .error .indexError)
        | some c => holesLoop start seps ignore rs s' (holeStep start current (sp.contains c) h r)
    | _, _, _ => holesLoop start seps ignore rs s' (holeStep start current false h r)

/-- Truthiness of an optional string. -/
def strTruthy : Option Str → Bool
  | none => false
  | some str => !str.isEmpty

/-- `holes(start, end, ignore=, seps=)` before `filter_index` (`match.py:600-661`): the spans of the holes. Every hole is a
`Match` with the input string and the given formatter. `max` is `builtins.max`. -/
def holes (s : Matches) (start : Int := 0) (stop : Option Int := none) (ignore : Match → Bool := fun _ => false)
    (seps : Option Str := none) : Matches × Except PyErr (List (Int × Int)) :=
  if strTruthy seps && !strTruthy s.inputString then (s, .error .assertionError) else
  let e := s.clampEnd stop
  let (s, loopStart) := s.holeStart start ignore
  match holesLoop start seps ignore (pyRange loopStart e) s { rindex := start } with
  | (s, .error err) => (s, .error err)
  | (s, .ok h) =>
    match h.openAt with
    | none => (s, .ok h.closed)
    | some a =>
      let (s, he) := s.holeEnd h.rindex ignore
      (s, .ok (h.closed ++ [(a, min he e)]))

/-- The `Match` objects built by `holes` (`match.py:650-652`). -/
def holeMatch (s : Matches) (formatter : Option (Val → Val)) (sp : Int × Int) : Match :=
  { start := sp.1, stop := sp.2, inputString := s.inputString, formatter := formatter }

/-! ### Operations as data -/

/-- The calls a user can make on a container. -/
inductive Op where
  | append (m : Match)
  | insert (i : Int) (m : Match)
  | extend (ms : List Match)
  | remove (m : Match)
  | pop (i : Int)
  | delItem (i : Int)
  | clear
  | delSlice (a b : Option Int)
  | setItem (i : Int) (m : Match)
  | reverse
  | named (names : List String)
  | tagged (t : String)
  | starting (i : Int)
  | ending (i : Int)
  | atIndex (i : Int)
  | names
  | tags
  | previous (m : Match)
  | next (m : Match)
  | conflicting (m : Match)
  | atSpan (a b : Int)
  | chainBefore (position : Int) (seps : Str) (start : Int) (pred : Match → Bool)
  | chainAfter (position : Int) (seps : Str) (stop : Option Int) (pred : Match → Bool)
  | holes (start : Int) (stop : Option Int) (ignore : Match → Bool) (seps : Option Str)

/-- What a call returns. -/
inductive Out where
  | unit
  | one (m : Match)
  | list (l : List Match)
  | keys (l : List String)
  | spans (l : List (Int × Int))
  | raised (e : PyErr)

/-- Outcome of a call that returns `None`. -/
def Out.ofErr : Option PyErr → Out
  | none => .unit
  | some e => .raised e
/-- Outcome of a call that returns a list of matches. -/
def Out.ofList : Except PyErr (List Match) → Out
  | .ok l => .list l
  | .error e => .raised e
/-- Outcome of a call that returns a match. -/
def Out.ofOne : Except PyErr Match → Out
  | .ok m => .one m
  | .error e => .raised e
/-- Outcome of a call that returns spans. -/
def Out.ofSpans : Except PyErr (List (Int × Int)) → Out
  | .ok l => .spans l
  | .error e => .raised e

/-- One call. -/
def step (s : Matches) : Op → Matches × Out
  | .append m => let r := s.append m; (r.1, .ofErr r.2)
  | .insert i m => let r := s.insert i m; (r.1, .ofErr r.2)
  | .extend ms => let r := s.extend ms; (r.1, .ofErr r.2)
  | .remove m => let r := s.remove m; (r.1, .ofErr r.2)
  | .pop i => let r := s.pop i; (r.1, .ofOne r.2)
  | .delItem i => let r := s.delItem i; (r.1, .ofErr r.2)
  | .clear => let r := s.clear; (r.1, .ofErr r.2)
  | .delSlice a b => let r := s.delSlice a b; (r.1, .ofErr r.2)
  | .setItem i m => let r := s.setItem i m; (r.1, .ofErr r.2)
  | .reverse => let r := s.reverse; (r.1, .ofErr r.2)
  | .named ns => let r := s.named ns; (r.1, .list r.2)
  | .tagged t => let r := s.lookTag t; (r.1, .list r.2)
  | .starting i => let r := s.lookStart i; (r.1, .list r.2)
  | .ending i => let r := s.lookEnd i; (r.1, .list r.2)
  | .atIndex i => let r := s.lookIndex i; (r.1, .list r.2)
  | .names => let r := s.names; (r.1, .keys r.2)
  | .tags => let r := s.tags; (r.1, .keys r.2)
  | .previous m => let r := s.previous m; (r.1, .list r.2)
  | .next m => let r := s.next m; (r.1, .list r.2)
  | .conflicting m => let r := s.conflicting m; (r.1, .ofList r.2)
  | .atSpan a b => let r := s.atSpan a b; (r.1, .list r.2)
  | .chainBefore p sp st pr => let r := s.chainBefore p sp st pr; (r.1, .ofList r.2)
  | .chainAfter p sp st pr => let r := s.chainAfter p sp st pr; (r.1, .ofList r.2)
  | .holes a b ig sp => let r := s.holes a b ig sp; (r.1, .ofSpans r.2)

/-- The state after a history of calls (exceptions are caught by the caller, who goes on with the same object). -/
def runOps (s : Matches) (ops : List Op) : Matches := ops.foldl (fun s op => (s.step op).1) s

end Matches
end Rebulk
