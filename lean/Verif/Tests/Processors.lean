import Verif.Tests.Match
/-!
# Tests: `rebulk/test/test_processors.py` on the model
-/
namespace Rebulk.Tests
open Matches

/-- The solvers used by the tests: 0 answers `"__default__"`, 1 the conflicting match, 2 the match, 3 `None`. -/
def testSolvers : Solvers := Solvers.withDefault (fun n m c =>
  .ok (if n = 0 then .default else if n = 1 then .drop c else if n = 2 then .drop m else .keepBoth))

/-- `StringPattern(*words, conflict_solver=…).matches(input)`. -/
def words (id : Nat) (l : List String) (input : String) (solver : Option Nat := none) : Except PyErr (List MTree) :=
  (Pattern.init id { opts := { solver := solver } }).runString lowerStr {} (l.map String.toList) input.toList

/-- `execute_rule(ConflictSolver(), matches, None)`, then the values. -/
def solved (l : List (Except PyErr (List MTree))) : Option (List Val) :=
  let r := executeRule listTruthy (conflictRule testSolvers (fun l => l)) ⟨0, 0⟩ (filled (found l))
  match r.err with | some _ => none | none => some (r.state.delegate.map Match.value)

def abc := "abcdefghijklmnopqrstuvwxyz"

-- test_conflict_1 … test_conflict_5
example : solved [words 0 ["ijklmn", "kl", "abcdef", "ab", "ef", "yz"] abc] = some [txt "ijklmn", txt "abcdef", txt "yz"] := by decide +kernel
example : solved [words 0 ["ijklmn", "jklmnopqrst"] abc] = some [txt "jklmnopqrst"] := by decide +kernel
example : solved [words 0 ["ijklmnopqrst", "jklmnopqrst"] abc] = some [txt "ijklmnopqrst"] := by decide +kernel
example : solved [words 0 ["123", "456789"] "123456789"] = some [txt "123", txt "456789"] := by decide +kernel
example : solved [words 0 ["123456", "789"] "123456789"] = some [txt "123456", txt "789"] := by decide +kernel

-- test_prefer_longer_parent
def longer1 : Except PyErr (List MTree) :=
  (Pattern.init 0 { opts := { name := some "prefer" }, children := true, formatter := .one (some toInt) }).runRegex true [compile "([0-9]+)x([0-9]+)"] "xxx.1x02.xxx".toList
def longer2 : Except PyErr (List MTree) :=
  (Pattern.init 1 { opts := { name := some "skip" }, children := true }).runRegex true [compile "x([0-9]+)"] "xxx.1x02.xxx".toList
example : solved [longer1, longer2] = some [.int 1, .int 2] := by decide +kernel

-- test_conflict_solver_1 … 7
example : solved [words 0 ["2345678"] "123456789" (some 0), words 1 ["34567"] "123456789"] = some [txt "2345678"] := by decide +kernel
example : solved [words 0 ["2345678"] "123456789" (some 0), words 1 ["34567"] "123456789" (some 1)] = some [txt "34567"] := by decide +kernel
example : solved [words 0 ["2345678"] "123456789" (some 2), words 1 ["34567"] "123456789"] = some [txt "34567"] := by decide +kernel
example : solved [words 0 ["2345678"] "123456789", words 1 ["34567"] "123456789" (some 1)] = some [txt "34567"] := by decide +kernel
example : solved [words 0 ["2345678"] "123456789" (some 1), words 1 ["34567"] "123456789"] = some [txt "2345678"] := by decide +kernel
example : solved [words 1 ["02"] "102", words 0 ["102"] "102"] = some [txt "102"] := by decide +kernel

-- test_unresolved
example : (solved [words 0 ["23456"] "123456789", words 1 ["34567"] "123456789"]).map List.length = some 2 := by decide +kernel
example : (solved [words 0 ["34567"] "123456789", words 1 ["2345678"] "123456789" (some 3)]).map List.length = some 2 := by decide +kernel
example : (solved [words 0 ["34567"] "123456789" (some 3), words 1 ["2345678"] "123456789"]).map List.length = some 2 := by decide +kernel

end Rebulk.Tests
