import Verif.Tests.Processors
/-!
# Tests: `rebulk/test/test_chain.py` on the model

The assertions are evaluated by Lean's interpreter when the module is built; the build fails if one is false. They are tests of the model, not
proofs, and no theorem depends on them. The options of each pattern are those the builder gives it: its own, completed by the defaults of the builder. The regular expressions are
read by `compile` (`Tests/Engine.lean`).
-/
namespace Rebulk.Tests
open Matches

/-- The environment of the tests, with the default rules. -/
def testEnv : Env (List Match) :=
  { lower := lowerStr, isinstance := fun _ _ => true, truthy := listTruthy, rule := defaultRule testSolvers (fun l => l) }

/-- `Rebulk()` with some patterns. -/
def bulk (patterns : List (PatternObj Unit)) : RebulkObj Unit := { patterns := patterns, rules := [conflictSolverRule 0, privateRemoverRule 1] }

/-- `rebulk.matches(input)`: name, value and span of each match. -/
def results (r : RebulkObj Unit) (input : String) : Option (List (Option String × Val)) :=
  match r.matches_ testEnv input.toList () with
  | .ok f => some (f.found.delegate.map (fun m => (m.name, m.value)))
  | .error _ => none

def resultsCount (r : RebulkObj Unit) (input : String) : Option Nat := (results r input).map List.length

/-- A regular expression of the tests, read with `re.IGNORECASE` when `fold` is set. -/
def rx (id : Nat) (text : String) (o : PatternOpts) (fold : Bool := false) : PatternObj Unit := .regex {} (Pattern.init id o) true [compile text fold]
def st (id : Nat) (text : String) (o : PatternOpts := {}) : PatternObj Unit := .string {} (Pattern.init id o) {} [text.toList]
def fn (id : Nat) (word : String) (o : PatternOpts := {}) : PatternObj Unit := .functional {} (Pattern.init id o) [finder word]

/-- The bounds a repeater argument gives to a part. -/
def bounds (v : RepeaterArg) : Int × Option Int :=
  let p := ({ search := fun _ => .ok ([], []) } : Part).repeater v
  (p.start, p.stop)

/-- The parts of a chain with their repeaters. -/
def partsOf : List (PatternObj Unit × RepeaterArg × Bool) → PartObjs Unit
  | [] => .nil
  | (p, v, hidden) :: rest => .cons p (bounds v).1 (bounds v).2 hidden (partsOf rest)

def chainOf (id : Nat) (o : PatternOpts) (parts : List (PatternObj Unit × RepeaterArg × Bool)) (breaker : Option (List MTree → Bool) := none) : PatternObj Unit :=
  .chain {} (Pattern.init id o) breaker (partsOf parts)

/-- No repeater. -/
def once : RepeaterArg := .int 1
def rep (s : String) : RepeaterArg := .str s.toList

-- test_build_chain: what the repeaters mean
#eval check (bounds once = (1, some 1) ∧ bounds (.int 2) = (2, some 2) ∧ bounds (rep "{1,3}") = (1, some 3) ∧ bounds (rep "?") = (0, some 1) ∧
    bounds (rep "+") = (1, none) ∧ bounds (rep "*") = (0, none))

/-- The text of a value. -/
def valText : Val → Str | .str s => s | _ => []
def startsWith (p : String) (t : MTree) : Bool := p.toList.isPrefixOf (valText t.root.value)
def endsWith (p : String) (t : MTree) : Bool := p.toList.isSuffixOf (valText t.root.value)

-- test_chain_defaults
def defaultsOpts : PatternOpts := { validator := .one (some (startsWith "t")), ignoreNames := ["testIgnore"], children := true }
#eval check (results (bulk [chainOf 0 defaultsOpts [(rx 1 "(?P<test>test)" defaultsOpts, once, false), (rx 2 " " defaultsOpts, rep "*", false),
    (rx 3 "(?P<best>best)" defaultsOpts, once, false), (rx 4 " " defaultsOpts, rep "*", false), (rx 5 "(?P<testIgnore>testIgnore)" defaultsOpts, once, false)]])
    "test best testIgnore" = some [(some "test", txt "test")])

-- test_chain_with_validators
def vDefault : MTree → Bool := fun t => startsWith "t" t && endsWith "g" t
def vChain : MTree → Bool := fun t => startsWith "t" t && endsWith "t" t
def vCustom : MTree → Bool := fun t => startsWith "b" t && endsWith "t" t
#eval check (results (bulk [chainOf 0 { validator := .dict [(some "__parent__", some vChain)], children := true, validateAll := true }
    [(rx 1 "(?P<test>testing)" { validator := .one (some vDefault), children := true }, rep "+", false),
     (rx 2 " " { validator := .one (some vDefault), children := true }, rep "+", false),
     (rx 3 "(?P<best>best)" { validator := .one (some vCustom), children := true }, rep "+", false)]])
    "some testing best end" = some [(some "test", txt "testing"), (some "best", txt "best")])

-- test_matches_docs, test_matches_2
def intsOpts : PatternOpts := { children := true, formatter := .dict [(some "episode", some toInt), (some "version", some toInt)] }
def docsBulk : RebulkObj Unit := bulk [chainOf 0 intsOpts [(rx 1 "e(?P<episode>\\d{1,4})" intsOpts true, once, false),
  (rx 2 "v(?P<version>\\d+)" intsOpts true, rep "?", false), (rx 3 "[ex-](?P<episode>\\d{1,4})" intsOpts true, rep "*", false)]]
#eval check (results docsBulk "This is E14v2-15-16-17" = some [(some "episode", .int 14), (some "version", .int 2), (some "episode", .int 15),
    (some "episode", .int 16), (some "episode", .int 17)])
#eval check (results docsBulk "This is E14v2-15E16x17" = some [(some "episode", .int 14), (some "version", .int 2), (some "episode", .int 15),
    (some "episode", .int 16), (some "episode", .int 17)])

-- test_matches
def hiddenChain : PatternObj Unit := chainOf 0 {} [(fn 1 "1849", once, false), (st 2 "test", .int 2, true), (st 3 "x", rep "{1,3}", true),
  (st 4 "optional", rep "?", true), (rx 5 "f.?x" { opts := { name := some "result" } }, rep "+", false)]
/-- The values of the children of each match of a chain. -/
def childrenOf (p : PatternObj Unit) (input : String) : Option (List (List Val)) :=
  match p.matches_ lowerStr input.toList with
  | .ok ts => some (ts.map (fun t => t.children.map (fun c => c.root.value)))
  | .error _ => none
#eval check (childrenOf hiddenChain "1849testtestxxfixfux_foxabc1849testtestxoptionalfoxabc" =
    some [[txt "1849", txt "fix", txt "fux"], [txt "1849", txt "fox"]])
#eval check (childrenOf hiddenChain "_1850testtestxoptionalfoxabc" = some [])
#eval check (childrenOf hiddenChain "_1849testtesttesttestxoptionalfoxabc" = some [])
#eval check (childrenOf hiddenChain "_1849testtestxxxxoptionalfoxabc" = some [])
#eval check (childrenOf hiddenChain "_1849testtestoptionalfoxabc" = some [])
#eval check (childrenOf hiddenChain "_1849testtestxoptionalabc" = some [])
#eval check (childrenOf hiddenChain "_1849testtestxoptionalfaxabc" = some [[txt "1849", txt "fax"]])

-- test_matches_3 (the solver never matters there: no match has one of the other names; `@` is expanded by hand)
def seOpts : PatternOpts := {
  opts := { tags := ["SxxExx"], solver := some 0 }, formatter := .dict [(some "season", some toInt), (some "episode", some toInt)],
  privateNames := ["episodeSeparator", "seasonSeparator"], children := true, privateParent := true }
def seBulk : RebulkObj Unit := bulk [
  chainOf 0 seOpts [(rx 1 "(?P<season>\\d+)[\\W_]?x[\\W_]?(?P<episode>\\d+)" seOpts, once, false),
    (rx 2 "(?P<episodeSeparator>x|-|\\+|&)(?P<episode>\\d+)" seOpts, rep "*", false)],
  chainOf 3 seOpts [(rx 4 "S(?P<season>\\d+)[\\W_]?(?:xE|Ex|E|x)[\\W_]?(?P<episode>\\d+)" seOpts, once, false),
    (rx 5 "(?:(?P<episodeSeparator>xE|Ex|E|x|-|\\+|&)(?P<episode>\\d+))" seOpts, rep "*", false)],
  chainOf 6 seOpts [(rx 7 "S(?P<season>\\d+)" seOpts, once, false), (rx 8 "(?P<seasonSeparator>S|-|\\+|&)(?P<season>\\d+)" seOpts, rep "*", false)]]
#eval check (results seBulk "test-01x02-03" = some [(some "season", .int 1), (some "episode", .int 2), (some "episode", .int 3)])
#eval check (results seBulk "test-S01E02-03" = some [(some "season", .int 1), (some "episode", .int 2), (some "episode", .int 3)])
#eval check (results seBulk "test-S01-02-03-04" =
    some [(some "season", .int 1), (some "season", .int 2), (some "season", .int 3), (some "season", .int 4)])

/-- `partial(chars_surround, chars)` as a validator; no exception is expected in these tests. -/
def surround (chars : String) (t : MTree) : Bool :=
  match charsSurround chars.toList t.root (t.root.inputString.getD []) with | .ok b => b | .error _ => false

-- test_matches_4
def ivOpts : PatternOpts := { intsOpts with validateAll := true, privateNames := ["episodeSeparator", "seasonSeparator"], privateParent := true }
def sepChain (o partOpts : PatternOpts) (last : RepeaterArg) : PatternObj Unit := chainOf 0 o [(rx 1 "e(?P<episode>\\d{1,4})" partOpts true, once, false),
  (rx 2 "v(?P<version>\\d+)" partOpts true, rep "?", false), (rx 3 "(?P<episodeSeparator>e|x|-)(?P<episode>\\d{1,4})" partOpts true, last, false)]
#eval check (results (bulk [sepChain { ivOpts with validator := .dict [(some "__parent__", some (surround " "))] } ivOpts (rep "*")]) "Some Series E01E02E03" =
    some [(some "episode", .int 1), (some "episode", .int 2), (some "episode", .int 3)])

-- test_matches_5
def five : RebulkObj Unit := bulk [sepChain { ivOpts with validator := .dict [(some "__parent__", some (surround " "))] } { children := true, privateParent := true } (rep "{2,3}")]
#eval check (resultsCount five "Some Series E01E02E03" = some 3 ∧ resultsCount five "Some Series E01E02" = some 0 ∧
    resultsCount five "Some Series E01E02E03E04E05E06" = some 0)

-- test_matches_6
def six : RebulkObj Unit := bulk [sepChain ivOpts { ivOpts with formatter := .absent } (rep "{2,3}")]
#eval check (resultsCount six "Some Series E01E02E03" = some 3 ∧ resultsCount six "Some Series E01E02" = some 0 ∧
    resultsCount six "Some Series E01E02E03E04E05E06" = some 4)

-- test_matches_7 (the tests assign to the values instead of comparing them, so only the counts are asserted)
def cpOpts : PatternOpts := { children := true, privateParent := true }
def seasonChain (o : PatternOpts) (breaker : Option (List MTree → Bool)) : PatternObj Unit := chainOf 0 o
  [(rx 1 "S(?P<season>\\d+)" { o with validateAll := true, validator := .dict [(some "__parent__", some (surround " .-/"))] } true, once, false),
   (rx 2 "[ -](?P<season>\\d+)" { o with validator := .one (some (surround " .-/")) } true, rep "*", false)] breaker
def seven : RebulkObj Unit := bulk [seasonChain cpOpts none]
#eval check (resultsCount seven "Some S01" = some 1 ∧ resultsCount seven "Some S01-02" = some 2 ∧ resultsCount seven "programs4/Some S01-02" = some 2 ∧
    resultsCount seven "programs4/SomeS01middle.S02-03.andS04here" = some 2 ∧ resultsCount seven "Some 02.and.S04-05.here" = some 2)

-- test_chain_breaker, test_chain_breaker_defaults, test_chain_breaker_defaults2
def intOf : Val → Int | .int i => i | _ => 0
/-- The last two seasons differ by more than 10. -/
def breaker (ms : List MTree) : Bool :=
  match ((ms.filter (fun t => t.root.name == some "season")).map (fun t => intOf t.root.value)).reverse with
  | a :: b :: _ => decide (a - b > 10)
  | _ => false
def breakBulk : RebulkObj Unit := bulk [seasonChain { cpOpts with formatter := .dict [(some "season", some toInt)] } (some breaker)]
#eval check (results breakBulk "Some S01-02-03-50-51" = some [(some "season", .int 1), (some "season", .int 2), (some "season", .int 3)])

-- test_group_by_match_index_sorts_unordered_input
def indexed (start : Int) (i : Nat) : MTree := .node { start := start, stop := start + 1, name := some "test", matchIndex := i } []
#eval check (((groupByIndex [indexed 0 2, indexed 5 0, indexed 10 1, indexed 15 2]).map (fun kv => (kv.1, kv.2.map (fun t => t.root.start)))) =
    [(0, [5]), (1, [10]), (2, [0, 15])])

-- test_nested_chain (the test asserts the values of the matches named `a` and of those named `b`)
def nested : RebulkObj Unit :=
  bulk [chainOf 0 { children := true } [(chainOf 1 {} [(rx 2 "(?P<a>a)" {}, once, false), (rx 3 "(?P<b>b)" {}, once, false)], once, false)]]
#eval check ((results nested "ab").map (fun l => l.filter (fun x => x.1 == some "a" || x.1 == some "b")) = some [(some "a", txt "a"), (some "b", txt "b")])

end Rebulk.Tests
