import Verif.Model.Matches
/-!
# `rebulk/rules.py`: the consequences

What `when` returns is a match or an iterable of matches. Matches are objects: `id` tells which one, and assigning to an attribute of an object
changes it wherever it is held. `refs` gives the list object holding the tags of each match: `Match.__init__` keeps the (non empty) list it is
given (`match.py:1036`, `loose.py:102-115`), so that the matches of one pattern share it with the pattern. Parent chains are snapshots: renaming a
match is not seen by the children that were given it as parent.
-/
namespace Rebulk

/-- A value returned by `when` (or by `RemoveMatch.then`): one match, or an iterable of matches. -/
inductive Answer where
  | one (m : Match)
  | many (ms : List Match)

/-- Applying a change of attributes to the objects selected by `p`. -/
def Match.changeIf (p : Match → Bool) (f : Match → Match) (m : Match) : Match := if p m then f m else m

/-- The same change in every list of an index. -/
def changeIndex {κ : Type} (g : Match → Match) (d : Index κ) : Index κ := d.map (fun kv => (kv.1, kv.2.map g))

namespace Matches

/-- Changing attributes of objects: the container and its indexes hold the changed objects, under the keys they were filed. -/
def change (p : Match → Bool) (f : Match → Match) (s : Matches) : Matches :=
  { s with
    delegate := s.delegate.map (Match.changeIf p f)
    nameD := s.nameD.map (changeIndex (Match.changeIf p f))
    tagD := s.tagD.map (changeIndex (Match.changeIf p f))
    startD := s.startD.map (changeIndex (Match.changeIf p f))
    endD := s.endD.map (changeIndex (Match.changeIf p f))
    indexD := s.indexD.map (changeIndex (Match.changeIf p f)) }

/-- `match in matches` (`Sequence.__contains__`). -/
def has (s : Matches) (m : Match) : Bool := s.delegate.any (fun x => x.eqv m)

end Matches

/-- `match.name = n`. -/
def Match.rename (n : String) (m : Match) : Match := { m with name := some n }

/-- The truthiness of `self.match_name` (`rules.py:165`, `170`). -/
def givenName : Option String → Option String
  | none => none
  | some n => if n.isEmpty then none else some n

/-! ## `RemoveMatch` -/

/-- The loop of `RemoveMatch.then` (`rules.py:140-145`). -/
def removeEach : List Match → Matches → Matches × Except PyErr (List Match)
  | [], s => (s, .ok [])
  | m :: ms, s =>
    if s.has m then
      match s.remove m with
      | (s, some e) => (s, .error e)
      | (s, none) => match removeEach ms s with
        | (s, .error e) => (s, .error e)
        | (s, .ok ret) => (s, .ok (m :: ret))
    else removeEach ms s

/-- A list returned by `then`. -/
def answerMany : Matches × Except PyErr (List Match) → Matches × Except PyErr (Option Answer)
  | (s, .error e) => (s, .error e)
  | (s, .ok ret) => (s, .ok (some (.many ret)))

/-- A single match returned by `then`. -/
def answerOne (m : Match) : Matches × Option PyErr → Matches × Except PyErr (Option Answer)
  | (s, some e) => (s, .error e)
  | (s, none) => (s, .ok (some (.one m)))

/-- `RemoveMatch.then` (`rules.py:137-149`); `none` is the `None` returned for a match not contained. -/
def thenRemove : Answer → Matches → Matches × Except PyErr (Option Answer)
  | .many ms, s => answerMany (removeEach ms s)
  | .one m, s => if s.has m then answerOne m (s.remove m) else (s, .ok none)

/-! ## `AppendMatch` -/

/-- `match.name = self.match_name` if a name is given: the container after it. -/
def nameObject (name : Option String) (i : Nat) (s : Matches) : Matches :=
  match name with
  | some n => s.change (fun x => x.id == i) (Match.rename n)
  | none => s

/-- The object after it. -/
def namedObject (name : Option String) (m : Match) : Match :=
  match name with
  | some n => m.rename n
  | none => m

/-- The loop of `AppendMatch.then` (`rules.py:162-168`). `done` are the objects renamed so far. -/
def appendEach (name : Option String) : List Nat → List Match → Matches → Matches × Except PyErr (List Match)
  | _, [], s => (s, .ok [])
  | done, m :: ms, s =>
    let now := m.changeIf (fun x => done.contains x.id) (namedObject name)
    if s.has now then appendEach name done ms s
    else match (nameObject name now.id s).append (namedObject name now) with
      | (s, some e) => (s, .error e)
      | (s, none) => match appendEach name (now.id :: done) ms s with
        | (s, .error e) => (s, .error e)
        | (s, .ok ret) => (s, .ok (namedObject name now :: ret))

/-- `if when_response not in matches: matches.append(when_response)` (`rules.py:172-175`). -/
def appendMissing (m : Match) (s : Matches) : Matches × Except PyErr (Option Answer) :=
  if s.has m then (s, .ok none) else answerOne m (s.append m)

/-- `AppendMatch(name).then` (`rules.py:159-175`). For a single match the name is set before looking whether it is contained. -/
def thenAppend (name : Option String) : Answer → Matches → Matches × Except PyErr (Option Answer)
  | .many ms, s => answerMany (appendEach (givenName name) [] ms s)
  | .one m, s => appendMissing (namedObject (givenName name) m) (nameObject (givenName name) m.id s)

/-! ## `RenameMatch` -/

/-- Dropping the result of the last call of `then` (`rules.py:198`, `223`, `249`). -/
def noResult {α : Type} : Matches × Except PyErr α → Matches × Option PyErr
  | (s, .error e) => (s, some e)
  | (s, .ok _) => (s, none)

/-- Renaming and adding again what was removed (`rules.py:190-199`). A single removed match is renamed and added only if it is truthy, that is not of
length 0. -/
def renameRemoved (n : String) : Option Answer → Matches → Matches × Option PyErr
  | none, s => (s, none)
  | some (.many removed), s =>
    if removed.isEmpty then (s, none)
    else noResult (thenAppend none (.many (removed.map (Match.rename n))) (removed.foldl (fun s m => nameObject (some n) m.id s) s))
  | some (.one m), s => match m.truthy? with
    | .error e => (s, some e)
    | .ok false => (s, none)
    | .ok true => noResult (thenAppend none (.one (m.rename n)) (nameObject (some n) m.id s))

/-- `RenameMatch(n).then` (`rules.py:188-199`). -/
def thenRename (n : String) (a : Answer) (s : Matches) : Matches × Option PyErr :=
  match thenRemove a s with
  | (s, .error e) => (s, some e)
  | (s, .ok removed) => renameRemoved n removed s

/-! ## `AppendTags` and `RemoveTags` -/

/-- Changing the tags of a match. -/
def Match.retag (f : List String → List String) (m : Match) : Match := { m with tags := f m.tags }

/-- The matches and the contents of the tag lists. -/
structure Tagging where
  matches_ : Matches
  lists : Nat → List String
  removed : List Match

/-- Changing in place the tag list of the match `m` (`rules.py:218`, `240-242`): every match holding this list changes. -/
def retagOne (refs : Nat → Nat) (f : List String → List String) (t : Tagging) (i : Nat) : Tagging where
  matches_ := t.matches_.change (fun x => refs x.id == refs i) (Match.retag f)
  lists := fun k => if k == refs i then f (t.lists k) else t.lists k
  removed := t.removed.map (Match.changeIf (fun x => refs x.id == refs i) (Match.retag f))

/-- Changing the tags of what was removed, and adding it again (`rules.py:215-223`, `237-249`). -/
def retagRemoved (refs : Nat → Nat) (f : List String → List String) (lists : Nat → List String) :
    Option Answer → Matches → Matches × (Nat → List String) × Option PyErr
  | none, s => (s, lists, none)
  | some (.many removed), s =>
    if removed.isEmpty then (s, lists, none)
    else
      let t := removed.foldl (fun t m => retagOne refs f t m.id) ⟨s, lists, removed⟩
      let r := noResult (thenAppend none (.many t.removed) t.matches_)
      (r.1, t.lists, r.2)
  | some (.one m), s => match m.truthy? with
    | .error e => (s, lists, some e)
    | .ok false => (s, lists, none)
    | .ok true =>
      let t := retagOne refs f ⟨s, lists, [m]⟩ m.id
      let r := noResult (thenAppend none (.one (m.retag f)) t.matches_)
      (r.1, t.lists, r.2)

/-- `then` of `AppendTags` (`rules.py:213-223`) and `RemoveTags` (`rules.py:235-249`), which differ by the change `f`. -/
def thenRetag (refs : Nat → Nat) (f : List String → List String) (a : Answer) (s : Matches) (lists : Nat → List String) :
    Matches × (Nat → List String) × Option PyErr :=
  match thenRemove a s with
  | (s, .error e) => (s, lists, some e)
  | (s, .ok removed) => retagRemoved refs f lists removed s

/-- `tags.extend(self.tags)` (`rules.py:218`, `220`). -/
def addTags (ts : List String) (l : List String) : List String := l ++ ts

/-- `for tag in self.tags: if tag in tags: tags.remove(tag)` (`rules.py:240-242`, `244-246`). -/
def dropTags (ts : List String) (l : List String) : List String := ts.foldl (fun l t => if l.contains t then l.erase t else l) l

/-! ## `Rule.then` -/

/-- A consequence on a state `σ`, with answers `ρ`; it may raise. -/
abbrev Consequence (σ ρ : Type) := ρ → σ → σ × Option PyErr

/-- The loop of `Rule.then` over an iterable of consequences (`rules.py:123-126`). `next(iterator)` is evaluated before calling `then`;
`StopIteration` when the answers run out. -/
def runConsequences {σ ρ : Type} : List (Consequence σ ρ) → List ρ → σ → σ × Option PyErr
  | [], _, s => (s, none)
  | _ :: _, [], s => (s, some .stopIteration)
  | c :: cs, a :: as, s => match c a s with
    | (s, some e) => (s, some e)
    | (s, none) => runConsequences cs as s

/-- The `consequence` attribute of a rule (`rules.py:115`). -/
inductive Consequences (σ ρ : Type) where
  | none
  | one (c : Consequence σ ρ)
  | many (cs : List (Consequence σ ρ))

/-- `Rule.then` (`rules.py:117-131`). `items` are the elements of an iterable answer (`none` for an answer that is not iterable). -/
def ruleThen {σ ρ : Type} (c : Consequences σ ρ) (items : ρ → Option (List ρ)) (a : ρ) (s : σ) : σ × Option PyErr :=
  match c with
  | .none => (s, some .assertionError)
  | .one c => c a s
  | .many cs => if cs.isEmpty then (s, some .assertionError) else runConsequences cs ((items a).getD [a]) s

end Rebulk
