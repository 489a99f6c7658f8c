import Verif.Tests.Chain
/-!
# Tests: `rebulk/test/test_pattern.py` on the model

Evaluated by the interpreter when the module is built, as in `Tests/Chain.lean`.
-/
namespace Rebulk.Tests
open Matches

def phrase : String := "An Abyssinian fly playing a Celtic violin was annoyed by trashy flags on which were the Hebrew letter qoph."

/-- What the tests look at: pattern, span, name, value, private. -/
structure Seen where
  span : Int × Int
  value : Val
  name : Option String := none
  priv : Bool := false
  pattern : Option Nat := some 0
deriving DecidableEq

def seenOf (m : Match) : Seen := { span := m.span, value := m.value, name := m.name, priv := m.priv, pattern := m.pattern }

/-- `list(pattern.matches(input))`, each with its children. -/
def seen (p : PatternObj Unit) (input : String) : Option (List (Seen × List Seen)) :=
  match p.matches_ lowerStr input.toList with
  | .ok ts => some (ts.map (fun t => (seenOf t.root, t.children.map (fun c => seenOf c.root))))
  | .error _ => none
/-- The same without the children. -/
def flat (p : PatternObj Unit) (input : String) : Option (List Seen) := (seen p input).map (fun l => l.map (fun x => x.1))
/-- How many. -/
def count (p : PatternObj Unit) (input : String) : Option Nat := (seen p input).map List.length

def strings (ss : List String) (o : PatternOpts := {}) (so : StringOpts := {}) : PatternObj Unit := .string {} (Pattern.init 0 o) so (ss.map String.toList)
def regexes (ss : List String) (o : PatternOpts := {}) (fold : Bool := false) (repeated : Bool := false) : PatternObj Unit :=
  .regex {} (Pattern.init 0 o) repeated (ss.map (fun s => compile s fold))
def functions (fs : List (Str → FRet)) (o : PatternOpts := {}) : PatternObj Unit := .functional {} (Pattern.init 0 o) fs

def celtic : Seen := { span := (28, 34), value := txt "Celtic" }
def three : List Seen := [{ span := (18, 25), value := txt "playing" }, { span := (46, 53), value := txt "annoyed" }, { span := (88, 94), value := txt "Hebrew" }]

-- TestStringPattern
#eval check (seen (strings ["Celtic"]) phrase = some [(celtic, [])])
#eval check (count (strings ["celtic"]) phrase = some 0)
#eval check (flat (strings ["celtic"] {} { ignoreCase := true }) phrase = some [celtic])
#eval check (flat (strings ["celtic"] { opts := { name := some "test" }, privateNames := ["test"] } { ignoreCase := true }) phrase =
  some [{ celtic with name := some "test", priv := true }])
#eval check (count (strings ["celtic"] { opts := { name := some "test" }, ignoreNames := ["test"] } { ignoreCase := true }) phrase = some 0)
#eval check (count (strings ["Python"]) phrase = some 0)
#eval check (flat (strings ["playing", "annoyed", "Hebrew"]) phrase = some three)
#eval check (count (strings ["Abyssinian"] {} { start := some 20, stop := some 40 }) phrase = some 0)
#eval check (flat (strings ["Abyssinian"] { opts := { name := some "test" }, value := .one (txt "AB") }) phrase =
  some [{ span := (3, 13), value := txt "AB", name := some "test" }])
#eval check (count (strings ["Abyssinian"] { opts := { name := some "test" }, value := .one (txt "AB"), postProcessor := some (fun _ => []) }) phrase = some 0)

-- TestRePattern (the other ways of giving the expression and the flags are those of `Model/Regexes.lean`)
#eval check (seen (regexes ["Celt.?c"]) phrase = some [(celtic, [])])
#eval check (seen (regexes ["celt.?c"] {} true) phrase = some [(celtic, [])])
#eval check (count (regexes ["abc.?def"]) phrase = some 0)
#eval check (count (regexes ["Celtic[\\W_]+violin"]) phrase = some 1 ∧ count (regexes ["celtic[\\W_]+violin"] {} true) phrase = some 1)
#eval check (flat (regexes ["pla.?ing", "ann.?yed", "Heb.?ew"]) phrase = some three)
def cvParent : Seen := { span := (28, 41), value := txt "Celtic violin" }
def violin : Seen := { span := (35, 41), value := txt "violin" }
def param1 : Seen := { celtic with name := some "param1" }
def param2 : Seen := { violin with name := some "param2" }
#eval check (seen (regexes ["(Celt.?c)\\s+(\\w+)"]) phrase = some [(cvParent, [celtic, violin])])
def cv : String := "(?P<param1>Celt.?c)\\s+(?P<param2>\\w+)"
#eval check (seen (regexes [cv]) phrase = some [(cvParent, [param1, param2])])
#eval check (flat (regexes [cv] { children := true }) phrase = some [param1, param2])
#eval check (flat (regexes [cv] { children := true, privateParent := true }) phrase = some [{ cvParent with priv := true }, param1, param2])
#eval check (flat (regexes [cv] { privateChildren := true }) phrase = some [cvParent, { param1 with priv := true }, { param2 with priv := true }])
#eval check (flat (regexes [cv] { every := true }) phrase = some [cvParent, param1, param2])
#eval check (flat (regexes [cv] { privateNames := ["param2"], children := true }) phrase = some [param1, { param2 with priv := true }])
#eval check (flat (regexes [cv] { ignoreNames := ["param2"], children := true }) phrase = some [param1])
def heOpts : PatternOpts := { opts := { name := some "test" }, value := .one (txt "HE") }
def he : Seen := { span := (88, 94), value := txt "HE", name := some "test" }
#eval check (seen (regexes ["He.rew"] heOpts) phrase = some [(he, [])])
#eval check (seen (regexes ["H(e.)(rew)"] heOpts) phrase = some [(he, [{ he with span := (89, 91) }, { he with span := (91, 94) }])])
#eval check (seen (regexes ["H(?P<first>e.)(?P<second>rew)"] heOpts) phrase =
  some [(he, [{ he with span := (89, 91), name := some "first" }, { he with span := (91, 94), name := some "second" }])])

-- TestFunctionalPattern
/-- `input.find(word)` or nothing. -/
def finding (word : String) (f : Int → FRet) : Str → List FRet := fun s =>
  match pyFind s word.toList none none with | some i => [f i] | none => []
def orNone (f : Str → List FRet) : Str → FRet := fun s => match f s with | x :: _ => x | [] => .none
def num (i : Int) : FRet := .val (.int i)
def str (s : String) : FRet := .val (txt s)
def fly : Seen := { span := (14, 17), value := txt "fly", name := some "functional" }
#eval check (flat (functions [orNone (finding "fly" (fun i => .seq [num i, num (i + 3), str "fly", str "functional"]))]) phrase = some [fly])
#eval check (flat (functions [orNone (finding "fly" (fun i => .dict { start := some i, stop := some (i + 3), name := some (some "functional") }))]) phrase = some [fly])
def threeWords : Str → List FRet := fun s =>
  finding "fly" (fun i => .seq [num i, num (i + 3), .dict { name := some (some "functional") }]) s ++
  finding "annoyed" (fun i => .seq [num i, num (i + 7)]) s
def threeSeen : List Seen := [fly, { span := (46, 53), value := txt "annoyed" }, { span := (88, 94), value := txt "Hebrew" }]
#eval check (flat (functions [fun s => .seq (threeWords s ++ finding "Hebrew" (fun i => .dict { start := some i, stop := some (i + 6) }) s)]) phrase = some threeSeen)
#eval check (flat (functions [fun s => .gen (threeWords s ++ finding "Hebrew" (fun i => .seq [num i, .dict { stop := some (i + 6) }]) s)]) phrase = some threeSeen)
#eval check (count (functions [fun _ => .none]) phrase = some 0)
#eval check (flat (functions [finder "playing", finder "annoyed", finder "Hebrew"]) phrase = some three)
#eval check (flat (functions [finder "playing"] { opts := { name := some "test" }, value := .one (txt "PLAY") }) phrase =
  some [{ span := (18, 25), value := txt "PLAY", name := some "test" }])

-- TestValue
def numbers : String := "This string contains 1849 a number"
def ci : String := "(?P<strParam>cont.?ins)\\s+(?P<intParam>\\d+)"
def times (k : Int) (v : Val) : Val := match toInt v with | .int i => .int (k * i) | v => v
def really (v : Val) : Val := .str ("really ".toList ++ valText v)
def contains : Seen := { span := (12, 20), value := txt "really contains", name := some "strParam" }
def number : Seen := { span := (21, 25), value := .int (1849 * 2), name := some "intParam" }
def ciOpts : PatternOpts := { formatter := .dict [(some "intParam", some (times 2)), (some "strParam", some really)], formatAll := true }
#eval check (flat (strings ["1849"] { opts := { name := some "dummy" }, value := .one (txt "test") }) numbers =
  some [{ span := (21, 25), value := txt "test", name := some "dummy" }])
#eval check ((seen (regexes [ci] { ciOpts with value := .dict [(some "intParam", txt "INT_PARAM_VALUE")] }) numbers).map (fun l => l.map (fun x => x.2)) =
  some [[contains, { number with value := txt "INT_PARAM_VALUE" }]])
#eval check (seen (regexes [ci] { ciOpts with value := .dict [(some "__children__", txt "CHILD"), (some "strParam", txt "STR_VALUE"),
      (some "__parent__", txt "PARENT")] }) numbers =
  some [({ span := (12, 25), value := txt "PARENT" }, [{ contains with value := txt "STR_VALUE" }, { number with value := txt "CHILD" }])])

-- TestFormatter (the first test halves the number; there are no fractions in the model, so it is doubled here)
#eval check (flat (strings ["1849"] { opts := { name := some "dummy" }, formatter := .one (some (times 2)) }) numbers =
  some [{ span := (21, 25), value := .int (1849 * 2), name := some "dummy" }])
#eval check (flat (regexes ["\\d+"] { formatter := .one (some (times 2)) }) numbers = some [{ span := (21, 25), value := .int (1849 * 2) }])
#eval check ((seen (regexes [ci] ciOpts) numbers).map (fun l => l.map (fun x => x.2)) = some [[contains, number]])
def captures (repeated : Bool) : Option (List (List Val)) :=
  (seen (regexes ["\\[(\\d+)\\](?:-(\\d+))*"] {} false repeated) "[02]-03-04-05-06").map (fun l => l.map (fun x => x.2.map Seen.value))
#eval check (captures true = some [["02", "03", "04", "05", "06"].map txt] ∧ captures false = some [["02", "06"].map txt])
#eval check (flat (functions [finder "1849"] { formatter := .one (some (times 3)) }) numbers = some [{ span := (21, 25), value := .int (1849 * 3) }])

-- TestValidator
def below (k : Int) : MTree → Bool := fun t => match toInt t.root.value with | .int i => decide (i < k) | _ => false
def atLeast (k : Int) : MTree → Bool := fun t => !below k t
#eval check (count (strings ["1849"] { opts := { name := some "dummy" }, validator := .one (some (atLeast 1850)) }) numbers = some 0 ∧
  count (strings ["1849"] { validator := .one (some (below 1850)) }) numbers = some 1)
#eval check (count (regexes ["\\d+"] { validator := .one (some (atLeast 1850)) }) numbers = some 0 ∧
  count (regexes ["\\d+"] { validator := .one (some (below 1850)) }) numbers = some 1)
#eval check (count (regexes [ci] { validator := .dict [(some "intParam", some (atLeast 1850))], validateAll := true }) numbers = some 0 ∧
  count (regexes [ci] { validator := .dict [(some "intParam", some (below 1850))], validateAll := true }) numbers = some 1)
def intParam : String := "contains (?P<intParam>\\d+)"
def intNamed (prefix_ : String) (t : MTree) : Bool := if t.root.name = some "intParam" then true else startsWith prefix_ t
def vaOpts (v : MTree → Bool) (all : Bool) : PatternOpts := { formatter := .one (some toInt), validator := .one (some v), children := true, validateAll := all }
#eval check (count (regexes [intParam] (vaOpts (below 100) false)) numbers = some 0 ∧ count (regexes [intParam] (vaOpts (atLeast 101) false)) numbers = some 1)
#eval check (count (regexes [intParam] (vaOpts (intNamed "abc") true)) numbers = some 0 ∧ count (regexes [intParam] (vaOpts (intNamed "contains") true)) numbers = some 1)
-- test_format_all (exceptions of formatters are not modelled: only its first half)
#eval check (flat (regexes [intParam] { formatter := .one (some toInt), children := true }) numbers = some [{ number with value := .int 1849 }])
#eval check (count (functions [finder "1849"] { validator := .one (some (atLeast 1850)) }) numbers = some 0 ∧
  count (functions [finder "1849"] { validator := .one (some (below 1850)) }) numbers = some 1)

end Rebulk.Tests
