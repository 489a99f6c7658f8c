import Verif.Model.Consequences
import Verif.Model.Rules
/-!
# `rebulk/processors.py`: conflict resolution and removal of private matches
-/
namespace Rebulk

/-- What a conflict solver returns: `"__default__"`, `None`, or a match. -/
inductive SolverRet where
  | default
  | keepBoth
  | drop (m : Match)

/-- The solvers: `custom k` is the callable of token `k` (`Match.solver`), `fallback` the `default_conflict_solver` property
(`processors.py:55-59`, which a subclass may override). A solver may raise. -/
structure Solvers where
  custom : Nat → Match → Match → Except PyErr SolverRet
  fallback : Match → Match → Except PyErr SolverRet

/-- `_default_conflict_solver` (`processors.py:27-42`): the match with the shorter initiator. `len()` of a negative length raises. -/
def defaultConflict (m c : Match) : Except PyErr SolverRet :=
  if c.initLen < 0 || m.initLen < 0 then .error .valueError
  else if c.initLen < m.initLen then .ok (.drop c)
  else if m.initLen < c.initLen then .ok (.drop m)
  else .ok .keepBoth

/-- Calling the `conflict_solver` of `x` on `(x, y)`, if it has one (`processors.py:80-83`, `85-91`). -/
def ownSolver (sv : Solvers) (x y : Match) : Except PyErr SolverRet :=
  match x.solver with
  | some k => sv.custom k x y
  | none => .ok .default

/-- The loop over the solvers until one does not return `"__default__"` (`processors.py:78-91`): the solver of the conflicting match with
its arguments exchanged, the one of the match, the default one. -/
def askSolvers (sv : Solvers) (m c : Match) : Except PyErr SolverRet :=
  match ownSolver sv c m with
  | .error e => .error e
  | .ok .default => match ownSolver sv m c with
    | .error e => .error e
    | .ok .default => sv.fallback m c
    | r => r
  | r => r

/-- Membership in an `IdentitySet` (`utils.py:154-155`). -/
def inSet (set : List Match) (m : Match) : Bool := set.any (fun x => x.id == m.id)

/-- `both_matches = [match, conflicting_match]; both_matches.remove(to_remove); to_keep = both_matches[0]` (`processors.py:93-95`). -/
def keeper (m c r : Match) : Except PyErr Match :=
  if m.eqv r then .ok c else if c.eqv r then .ok m else .error .valueError

/-- Adding the match to remove to the set, unless the other one is being removed (`processors.py:92-105`). -/
def addRemoval (set : List Match) (m c r : Match) : Except PyErr (List Match) :=
  match r.truthy? with
  | .error e => .error e
  | .ok false => .ok set
  | .ok true =>
    if inSet set r then .ok set
    else match keeper m c r with
      | .error e => .error e
      | .ok k => if inSet set k then .ok set else .ok (set ++ [r])

/-- One pair (`processors.py:77-106`). The removal set is kept as the list of its elements in the order they were added. -/
def resolvePair (sv : Solvers) (m c : Match) (set : List Match) : Except PyErr (List Match) :=
  match askSolvers sv m c with
  | .error e => .error e
  | .ok .default => .ok set
  | .ok .keepBoth => .ok set
  | .ok (.drop r) => addRemoval set m c r

/-- The inner loop (`processors.py:77`). -/
def resolvePairs (sv : Solvers) (m : Match) : List Match → List Match → Except PyErr (List Match)
  | [], set => .ok set
  | c :: cs, set => match resolvePair sv m c set with
    | .error e => .error e
    | .ok set => resolvePairs sv m cs set

/-- `l.sort(key=len)` (`processors.py:65`, `75`): stable; raises when a length is negative. -/
def sortByLen (l : List Match) : Except PyErr (List Match) :=
  if l.any (fun m => decide (m.stop - m.start < 0)) then .error .valueError
  else .ok (pySorted (fun a b => decide (a.stop - a.start < b.stop - b.start)) l)

/-- `[match for match in l if not match.private]` (`processors.py:64`, `72-74`). -/
def publicOf (l : List Match) : List Match := l.filter (fun m => !m.priv)

/-- The conflicts of one match (`processors.py:68-106`). -/
def resolveMatch (sv : Solvers) (m : Match) (s : Matches) (set : List Match) : Matches × Except PyErr (List Match) :=
  match s.conflicting m with
  | (s, .error e) => (s, .error e)
  | (s, .ok cs) =>
    if cs.isEmpty then (s, .ok set)
    else match sortByLen (publicOf cs) with
      | .error e => (s, .error e)
      | .ok cs => (s, resolvePairs sv m cs set)

/-- The outer loop (`processors.py:67`). -/
def resolveMatches (sv : Solvers) : List Match → Matches → List Match → Matches × Except PyErr (List Match)
  | [], s, set => (s, .ok set)
  | m :: ms, s, set => match resolveMatch sv m s set with
    | (s, .error e) => (s, .error e)
    | (s, .ok set) => resolveMatches sv ms s set

/-- `ConflictSolver.when` (`processors.py:61-107`). The lookups fill the caches of the container. -/
def conflictWhen (sv : Solvers) (s : Matches) : Matches × Except PyErr (List Match) :=
  match sortByLen (publicOf s.delegate) with
  | .error e => (s, .error e)
  | .ok ms => resolveMatches sv ms s []

/-- `PrivateRemover.when` (`processors.py:119-120`). -/
def privateWhen (s : Matches) : List Match := s.delegate.filter (fun m => m.priv)

/-- Forgetting what `then` returned. -/
def dropAnswer : Matches × Except PyErr (Option Answer) → Matches × Option PyErr
  | (s, .error e) => (s, some e)
  | (s, .ok _) => (s, none)

/-- The `ConflictSolver` rule as the engine sees it: `consequence = RemoveMatch` (`processors.py:52`) gets the removal set in some order `order`
(sets of objects hashed by identity have no fixed order). -/
def conflictRule (sv : Solvers) (order : List Match → List Match) : Behaviour Matches (List Match) where
  enabled := fun _ => true
  when_ := conflictWhen sv
  then_ := fun s set => dropAnswer (thenRemove (.many (order set)) s)

/-- The `PrivateRemover` rule. -/
def privateRule : Behaviour Matches (List Match) where
  enabled := fun _ => true
  when_ := fun s => (s, .ok (privateWhen s))
  then_ := fun s l => dropAnswer (thenRemove (.many l) s)

/-- Truthiness of a list, or of a set: `len`. -/
def listTruthy (l : List Match) : Bool := !l.isEmpty

/-- The solvers of a rebulk where no match has a conflict solver that matters: the default one alone. -/
def Solvers.withDefault (custom : Nat → Match → Match → Except PyErr SolverRet) : Solvers := ⟨custom, defaultConflict⟩

end Rebulk
