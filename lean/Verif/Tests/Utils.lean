import Verif.Tests.Rebulk
/-!
# Tests: `test_toposort.py`, `test_utils.py`, `test_validators.py`, `test_loose.py`, `test_rules.py` on the model

Evaluated by the interpreter when the module is built, as in `Tests/Chain.lean`. Sets are lists here, compared after sorting.
-/
namespace Rebulk.Tests
open Matches

/-! ## `test_toposort.py` -/

def sortNat (l : List Nat) : List Nat := pySorted (fun a b => decide (a < b)) l
/-- The groups, sorted, and whether `CyclicDependency` is raised. -/
def groups (data : Deps Nat) : Option (List (List Nat) × Bool) := (toposort 100 data).map (fun r => (r.1.map sortNat, r.2.isSome))
def expected : Option (List (List Nat) × Bool) := some ([[3, 5, 7], [8, 11], [2, 9, 10]], false)
#eval check (groups [(2, [11]), (9, [11, 8]), (10, [11, 3]), (11, [7, 5]), (8, [7, 3])] = expected)
#eval check (groups [(2, [2, 11]), (9, [11, 8]), (10, [10, 11, 3]), (11, [7, 5]), (8, [7, 3])] = expected)
#eval check (groups [(1, [])] = some ([[1]], false) ∧ groups [(1, [1])] = some ([[1]], false))
#eval check (groups [(1, [2]), (3, [4]), (5, [6])] = some ([[2, 4, 6], [1, 3, 5]], false) ∧ groups [(1, []), (3, []), (5, [])] = some ([[1, 3, 5]], false))
#eval check (groups [] = some ([], false))
#eval check ((groups [(1, [2]), (2, [1])]).map (fun x => x.2) = some true ∧ (groups [(1, [2]), (2, [3]), (3, [1])]).map (fun x => x.2) = some true)
#eval check ((toposortFlatten 100 sortNat [(2, [11]), (9, [11, 8]), (10, [11, 3]), (11, [7, 5]), (8, [7, 3, 8])]).map
  (fun r => match r with | .ok l => l | .error _ => []) = some [3, 5, 7, 8, 11, 2, 9, 10])
-- test_input_not_modified: the dict is not; its sets are (`data.copy()` in the test is shallow, and compares the sets with themselves)
#eval check ((toposortStore 100 [(8, 0)] (fun _ => [7, 3, 8])).1 0 = [7, 3])

/-! ## `test_utils.py` -/

/-- Elements: a number, or a list (not hashable). -/
inductive El where | n (i : Nat) | l (s : List String)
deriving DecidableEq
def El.hashable : El → Bool | .n _ => true | .l _ => false
def extended (target source : List El) : List El := extendSafe (fun a b => decide (a = b)) El.hashable false target source
#eval check (extended [.n 1, .n 2] [.n 2, .n 3, .n 3, .n 4] = [.n 1, .n 2, .n 3, .n 4])
#eval check (extended [.l ["a"]] [.l ["a"], .l ["b"], .l ["b"]] = [.l ["a"], .l ["b"]])
#eval check (extended [.n 1] [.n 1, .n 2, .l ["x"], .l ["x"], .n 2] = [.n 1, .n 2, .l ["x"]])

/-! ## `test_validators.py` -/

def asValidator (f : Str → Match → Str → Except PyErr Bool) (m : Match) : Bool :=
  match f " _.".toList m (m.inputString.getD []) with | .ok b => b | .error _ => false
def validated (v : Match → Bool) (input : String) : Option Nat := count (strings ["word"] { validator := .one (some (fun t => v t.root)) }) input
def left := asValidator charsBefore
def right := asValidator charsAfter
def around := asValidator charsSurround
#eval check (["xxxwordxxx", "xxx_wordxxx", "wordxxx"].map (validated left) = [some 0, some 1, some 1])
#eval check (["xxxwordxxx", "xxxword.xxx", "xxxword"].map (validated right) = [some 0, some 1, some 1])
#eval check (["xxxword xxx", "xxx.wordxxx", "xxx word_xxx", "word"].map (validated around) = [some 0, some 0, some 1, some 1])
#eval check (["xxxword xxx", "xxx.wordxxx", "xxx word_xxx", "word"].map (validated (validators [left, right])) = [some 0, some 0, some 1, some 1])

/-! ## `test_loose.py`: the arguments that reach the function -/

def fourArgs : ArgSpec := { args := ["v1", "v2", "v3", "v4"], varargs := false, varkw := false, kwonly := [] }
def fourInit : ArgSpec := { args := ["self", "v1", "v2", "v3", "v4"], varargs := false, varkw := false, kwonly := [] }
def passed (spec : ArgSpec) (isClass : Bool) (args : List Nat) (kw : Dict String Nat) : List Nat × Dict String Nat := callArgs spec isClass 1 args kw
#eval check (passed fourArgs false [1, 2] [] = ([1, 2], []) ∧ passed fourArgs false [1, 2, 3, 5] [] = ([1, 2, 3, 5], []) ∧
  passed fourArgs false [1, 2] [("v3", 4), ("v4", 5)] = ([1, 2], [("v3", 4), ("v4", 5)]) ∧ passed fourArgs false [1, 2, 3, 4, 5] [] = ([1, 2, 3, 4], []) ∧
  passed fourArgs false [1, 2, 3, 4] [("more", 5)] = ([1, 2, 3, 4], []))
#eval check (passed fourInit true [1, 2] [] = ([1, 2], []) ∧ passed fourInit true [1, 2, 3, 5] [] = ([1, 2, 3, 5], []) ∧
  passed fourInit true [1, 2] [("v3", 4), ("v4", 5)] = ([1, 2], [("v3", 4), ("v4", 5)]) ∧ passed fourInit true [1, 2, 3, 4, 5] [] = ([1, 2, 3, 4], []) ∧
  passed fourInit true [1, 2, 3, 4] [("more", 5)] = ([1, 2, 3, 4], []))
#eval check ((passed { args := ["v1", "v2"], varargs := true, varkw := false, kwonly := [] } false [1, 2, 3, 4, 5] []).1 = [1, 2, 3, 4, 5])
#eval check ((passed { args := ["v1", "v2"], varargs := false, varkw := true, kwonly := [] } false [] [("v1", 1), ("v2", 2), ("v3", 3), ("v4", 5)]).2.get? "v4" = some 5)

/-! ## `test_rules.py` -/

def rm (id : Nat) (a b : Int) (name : Option String := none) (tags : List String := []) : Match := { id := id, start := a, stop := b, name := name, tags := tags }
def dropErr {α : Type} : Matches × Except PyErr α → Matches × Option PyErr | (s, .ok _) => (s, none) | (s, .error e) => (s, some e)
/-- A rule whose `when` returns true (unless `w` is false) and whose `then` is `f`. -/
def simpleRule (enabled w : Bool) (f : Matches → Matches × Option PyErr) : Behaviour Matches Bool :=
  { enabled := fun _ => enabled, when_ := fun s => (s, .ok w), then_ := fun s _ => f s }
/-- The rules of `rules_module.py`: class `i` is `Rulei`, 4 is `Rule1Disabled`; `w` is `context["when"]`. -/
def testRules (w : Bool) (r : RuleRef) : Behaviour Matches Bool :=
  if r.cls = 3 then simpleRule true w (fun s => s.append (rm (10 + r.id) 3 4))
  else if r.cls = 1 then simpleRule true true Matches.clear
  else if r.cls = 4 then simpleRule false true Matches.clear
  else simpleRule true true (fun s => s.append (rm (10 + r.id) 3 4))
def infoOf (id cls : Nat) : RuleInfo := { id := id, cls := cls, dependency := if cls = 0 then .one (.cls 1) else if cls = 1 ∨ cls = 4 then .one (.cls 2) else if cls = 2 then .one (.cls 3) else .none }
def ran (w : Bool) (classes : List Nat) : Option (List (Int × Int)) :=
  let x := executeAll (fun b => b) (testRules w) (classes.mapIdx (fun i c => infoOf i c)) (filled [rm 0 1 2])
  if x.err.isSome then none else some (x.state.delegate.map Match.span)
#eval check (ran false [1, 2] = some [] ∧ ran false [1, 0] = some [(3, 4)])
#eval check (ran false [1, 1] = none)
#eval check (ran false [4, 2] = some [(1, 2), (3, 4)])
#eval check (ran false [3] = some [(1, 2)] ∧ ran true [3] = some [(1, 2), (3, 4)])

/-- One rule of `default_rules_module.py`: its consequences and what it returns. -/
def conseq (c : Consequences Matches Answer) (a : Matches → Answer) (l : List Match) : Matches × Option PyErr :=
  let s := filled l
  ruleThen c (fun a => match a with | .many l => some (l.map Answer.one) | .one _ => none) (a s) s
def cRemove : Consequence Matches Answer := fun a s => dropErr (thenRemove a s)
def cAppend (n : Option String) : Consequence Matches Answer := fun a s => dropErr (thenAppend n a s)
def cRename : Consequence Matches Answer := fun a s => thenRename "renamed" a s
def cTags (f : List String → List String) : Consequence Matches Answer := fun a s => let r := thenRetag (fun i => i) f a s (fun _ => []); (r.1, r.2.2)
def firstMatch (s : Matches) : Match := s.delegate.headD (rm 0 0 0)
def original : Match := rm 7 5 10 (some "original")
def lenAndNames (r : Matches × Option PyErr) (names : List String) : Nat × List Nat × Bool :=
  (r.1.length, names.map (fun n => (r.1.named [n]).2.length), r.2.isNone)
#eval check ([conseq (.one cRemove) (fun s => .one (firstMatch s)) [rm 1 1 2], conseq (.many [cRemove]) (fun s => .many [firstMatch s]) [rm 1 1 2]].map
  (fun r => (r.1.length, r.2.isNone)) = [(0, true), (0, true)])
#eval check ([conseq (.one (cAppend none)) (fun _ => .one (rm 2 5 10)) [rm 1 1 2], conseq (.many [cAppend none]) (fun _ => .many [rm 2 5 10]) [rm 1 1 2],
  conseq (.many [cAppend (some "renamed")]) (fun _ => .many [rm 2 5 10]) [rm 1 1 2], conseq (.one (cAppend (some "renamed"))) (fun _ => .many [rm 2 5 10]) [rm 1 1 2]].map
  (fun r => lenAndNames r ["renamed"]) = [(2, [0], true), (2, [0], true), (2, [1], true), (2, [1], true)])
#eval check ([conseq (.many [cRename]) (fun _ => .many [original]) [rm 1 1 2 (some "original")], conseq (.one cRename) (fun _ => .many [original]) [{ original with id := 1 }],
  conseq (.one cRename) (fun _ => .one original) [{ original with id := 1 }], conseq (.many [cRename]) (fun _ => .one original) [{ original with id := 1 }]].map
  (fun r => lenAndNames r ["original", "renamed"]) = [(1, [1, 0], true), (1, [0, 1], true), (1, [0, 1], true), (1, [0, 1], true)])
def tagsAfter (f : List String → List String) (one : Bool) (tags : List String) : List (List String) :=
  ((conseq (.one (cTags f)) (fun s => let l := (s.named ["tags"]).2; if one then .one (l.headD (rm 0 0 0)) else .many l) [rm 1 1 2 (some "tags") tags]).1.named ["tags"]).2.map Match.tags
#eval check (tagsAfter (addTags ["new-tag"]) true ["other"] = [["other", "new-tag"]] ∧ tagsAfter (addTags ["new-tag"]) false ["other"] = [["other", "new-tag"]])
#eval check (tagsAfter (dropTags ["new-tag"]) true ["other", "new-tag"] = [["other"]] ∧ tagsAfter (dropTags ["new-tag"]) false ["other", "new-tag"] = [["other"]])
-- test_rule_module: the classes of the module in alphabetical order, as `inspect.getmembers` gives them, except `Rule` itself
#eval check (ran false [0, 1, 4, 2, 3] = some [(3, 4)])

end Rebulk.Tests
