import Verif.Model.Failing
import Verif.Model.Rebulk
/-!
# `rebulk/processors.py`, `rebulk/rules.py`: the default rules when values cannot be read

The default rules compare matches: `conflicting` (`match.py:687-694`), `both_matches.remove` (`processors.py:94`), `match in matches` and `matches.remove`
(`rules.py:144-145`). Comparing two matches of one span reads their values, and a formatter may raise (`Model/Failing.lean`). This module is the two rules
again, statement by statement, with comparisons that may raise. What does not compare matches is taken from `Model/Processors.lean`: `to_remove == DEFAULT`
compares a match with a string, and the removal set compares identities (`utils.py:154-155`). The messages logged (`processors.py:98-103`) are not formatted.
-/
namespace Rebulk

/-- `m in l`, for a list or a container: `any(x is m or x == m for x in l)`. -/
def hasF (broken : Match → Option Nat) (l : List Match) (m : Match) : Except PyErr Bool :=
  match findF (eqvF broken m) l with
  | .error e => .error e
  | .ok r => .ok r.isSome

namespace Matches

/-- `for at_match in l: if at_match not in ret: ret.append(at_match)` (`match.py:690-692`). -/
def addMissingF (broken : Match → Option Nat) : List Match → List Match → Except PyErr (List Match)
  | acc, [] => .ok acc
  | acc, x :: l => match hasF broken acc x with
    | .error e => .error e
    | .ok true => addMissingF broken acc l
    | .ok false => addMissingF broken (acc ++ [x]) l

/-- The index scan of `conflicting` (`match.py:689-692`). -/
def conflictLoopF (broken : Match → Option Nat) : List Int → Matches → List Match → Matches × Except PyErr (List Match)
  | [], s, acc => (s, .ok acc)
  | i :: is, s, acc => match addMissingF broken acc (s.lookIndex i).2 with
    | .error e => ((s.lookIndex i).1, .error e)
    | .ok acc => conflictLoopF broken is (s.lookIndex i).1 acc

/-- `conflicting(match)` (`match.py:673-696`). -/
def conflictingF (broken : Match → Option Nat) (s : Matches) (m : Match) : Matches × Except PyErr (List Match) :=
  match conflictLoopF broken (pyRange m.start m.stop) s [] with
  | (s, .error e) => (s, .error e)
  | (s, .ok ret) => match removeFirstF (eqvF broken m) ret with
    | .error e => (s, .error e)
    | .ok (some l) => (s, .ok l)
    | .ok none => (s, .error .valueError)

end Matches

/-- `both_matches.remove(to_remove); to_keep = both_matches[0]` (`processors.py:93-95`). -/
def keeperF (broken : Match → Option Nat) (m c r : Match) : Except PyErr Match :=
  match removeFirstF (eqvF broken r) [m, c] with
  | .error e => .error e
  | .ok (some (k :: _)) => .ok k
  | .ok _ => .error .valueError

/-- Adding the match to remove to the set, unless the other one is being removed (`processors.py:92-105`). -/
def addRemovalF (broken : Match → Option Nat) (set : List Match) (m c r : Match) : Except PyErr (List Match) :=
  match r.truthy? with
  | .error e => .error e
  | .ok false => .ok set
  | .ok true =>
    if inSet set r then .ok set
    else match keeperF broken m c r with
      | .error e => .error e
      | .ok k => if inSet set k then .ok set else .ok (set ++ [r])

/-- One pair (`processors.py:77-106`). -/
def resolvePairF (broken : Match → Option Nat) (sv : Solvers) (m c : Match) (set : List Match) : Except PyErr (List Match) :=
  match askSolvers sv m c with
  | .error e => .error e
  | .ok .default => .ok set
  | .ok .keepBoth => .ok set
  | .ok (.drop r) => addRemovalF broken set m c r

/-- The inner loop (`processors.py:77`). -/
def resolvePairsF (broken : Match → Option Nat) (sv : Solvers) (m : Match) : List Match → List Match → Except PyErr (List Match)
  | [], set => .ok set
  | c :: cs, set => match resolvePairF broken sv m c set with
    | .error e => .error e
    | .ok set => resolvePairsF broken sv m cs set

/-- The conflicts of one match (`processors.py:68-106`). -/
def resolveMatchF (broken : Match → Option Nat) (sv : Solvers) (m : Match) (s : Matches) (set : List Match) : Matches × Except PyErr (List Match) :=
  match s.conflictingF broken m with
  | (s, .error e) => (s, .error e)
  | (s, .ok cs) =>
    if cs.isEmpty then (s, .ok set)
    else match sortByLen (publicOf cs) with
      | .error e => (s, .error e)
      | .ok cs => (s, resolvePairsF broken sv m cs set)

/-- The outer loop (`processors.py:67`). -/
def resolveMatchesF (broken : Match → Option Nat) (sv : Solvers) : List Match → Matches → List Match → Matches × Except PyErr (List Match)
  | [], s, set => (s, .ok set)
  | m :: ms, s, set => match resolveMatchF broken sv m s set with
    | (s, .error e) => (s, .error e)
    | (s, .ok set) => resolveMatchesF broken sv ms s set

/-- `ConflictSolver.when` (`processors.py:61-107`). -/
def conflictWhenF (broken : Match → Option Nat) (sv : Solvers) (s : Matches) : Matches × Except PyErr (List Match) :=
  match sortByLen (publicOf s.delegate) with
  | .error e => (s, .error e)
  | .ok ms => resolveMatchesF broken sv ms s []

/-- The loop of `RemoveMatch.then` (`rules.py:143-147`). -/
def removeEachF (broken : Match → Option Nat) : List Match → Matches → Matches × Except PyErr (List Match)
  | [], s => (s, .ok [])
  | m :: ms, s =>
    match hasF broken s.delegate m with
    | .error e => (s, .error e)
    | .ok true =>
      match s.removeF broken m with
      | (s, some e) => (s, .error e)
      | (s, none) => match removeEachF broken ms s with
        | (s, .error e) => (s, .error e)
        | (s, .ok ret) => (s, .ok (m :: ret))
    | .ok false => removeEachF broken ms s

/-- The `ConflictSolver` rule as the engine sees it (`processors.py:45-107`). -/
def conflictRuleF (broken : Match → Option Nat) (sv : Solvers) (order : List Match → List Match) : Behaviour Matches (List Match) where
  enabled := fun _ => true
  when_ := conflictWhenF broken sv
  then_ := fun s set => dropAnswer (answerMany (removeEachF broken (order set) s))

/-- The `PrivateRemover` rule (`processors.py:110-120`). -/
def privateRuleF (broken : Match → Option Nat) : Behaviour Matches (List Match) where
  enabled := fun _ => true
  when_ := fun s => (s, .ok (privateWhen s))
  then_ := fun s l => dropAnswer (answerMany (removeEachF broken l s))

/-- The user code of the default rules, as `defaultRule`. -/
def defaultRuleF (broken : Match → Option Nat) (sv : Solvers) (order : List Match → List Match) (r : RuleRef) : Behaviour Found (List Match) :=
  if r.cls = 0 then onMatches (conflictRuleF broken sv order) else onMatches (privateRuleF broken)

end Rebulk
