import Verif.Tests.Pattern
/-!
# Tests: `rebulk/test/test_rebulk.py` on the model

Evaluated by the interpreter when the module is built, as in `Tests/Chain.lean`. The merging of defaults (`test_rebulk_defaults`,
`test_rebulk_defaults_overrides`) is that of `Model/Loose.lean` and `Model/Builder.lean`; the tags it gives are written out here.
-/
namespace Rebulk.Tests
open Matches

def fox : String := "The quick brown fox jumps over the lazy dog"

/-- The values found. -/
def values (r : RebulkObj Unit) (input : String) : Option (List Val) := (results r input).map (fun l => l.map (fun x => x.2))
def texts (l : List String) : Option (List Val) := some (l.map txt)

-- test_rebulk_simple, test_rebulk_composition
#eval check (values (bulk [st 0 "quick", rx 1 "f.x" {}, fn 2 "over"]) fox = texts ["quick", "fox", "over"])
#eval check (values { bulk [st 0 "quick"] with
  children := [bulk [rx 1 "f.x" {}], { bulk [.functional {} (Pattern.init 2 {}) [fun _ => .none]] with disabled := fun _ => true }] } fox = texts ["quick", "fox"])

-- test_rebulk_context: the context tells `nostring` and the word
structure TestContext where
  nostring : Bool := false
  noregex : Bool := false
  word : String := "over"
def contextBulk (ctx : TestContext) : RebulkObj TestContext := {
  patterns := [.string { disabled := fun c => c.nostring } (Pattern.init 0 {}) {} ["quick".toList],
    .regex { disabled := fun c => c.noregex } (Pattern.init 1 {}) true [compile "f.x"], .functional {} (Pattern.init 2 {}) [finder ctx.word]],
  rules := [conflictSolverRule 0, privateRemoverRule 1] }
def contextValues (ctx : TestContext) : Option (List Val) := match (contextBulk ctx).matches_ testEnv fox.toList ctx with
  | .ok f => some (f.found.delegate.map Match.value)
  | .error _ => none
#eval check (contextValues { nostring := true, word := "lazy" } = texts ["fox", "lazy"])

-- test_rebulk_prefer_longer, test_rebulk_rebulk, test_rebulk_no_default, test_rebulk_empty_match
def longer : List (PatternObj Unit) := [st 1 "own", rx 2 "br.{2}n" {}]
#eval check (values (bulk (st 0 "quick" :: longer)) fox = texts ["quick", "brown"])
#eval check (values { bulk [st 0 "quick"] with children := [bulk longer] } fox = texts ["quick", "brown"])
#eval check (values { patterns := st 0 "quick" :: longer } fox = texts ["quick", "own", "brown"])
#eval check (values { patterns := [st 0 "quick", st 1 "own", rx 2 "br(.*?)own" { children := true }] } fox = texts ["quick", "own"])

-- test_rebulk_defaults: order and names of the matches of patterns with these options
#eval check (results (bulk [st 0 "quick" { opts := { name := some "string", tags := ["a", "b", "c"] } }, fn 1 "fox" { opts := { name := some "functional" } },
  rx 2 "br.{2}n" { opts := { name := some "regex" } }]) fox =
  some [(some "string", txt "quick"), (some "functional", txt "fox"), (some "regex", txt "brown")])

-- test_rebulk_tags_names
def tagBulk : RebulkObj Unit := bulk [st 0 "quick" { opts := { name := some "str", tags := ["first", "other"] } }, rx 1 "f.x" { opts := { tags := ["other"] } },
  functions_ 2 (finding "over" (fun i => .seq [num i, num (i + 4), .dict { tags := some ["custom"] }])),
  functions_ 3 (finding "lazy" (fun i => .dict { start := some i, stop := some (i + 4), tags := some ["custom"] }))]
where functions_ (id : Nat) (f : Str → List FRet) : PatternObj Unit := .functional {} (Pattern.init id { opts := { name := some "fn" } }) [orNone f]
def run (r : RebulkObj Unit) (env : Env (List Match)) (input : String) : Option Found :=
  match r.matches_ env input.toList () with | .ok f => some f | .error _ => none
#eval check ((run tagBulk testEnv fox).map (fun f => (f.found.length, ["str", "fn", "false"].map (fun n => (f.found.named [n]).2.length),
  ["false", "first", "other", "custom"].map (fun n => (f.found.lookTag n).2.length))) = some (4, [1, 2, 0], [0, 1, 2, 2]))

/-! ## Rules: class 2 is the rule of the test -/

/-- `for match in when_response: matches.remove(match)`. -/
def removeThem (s : Matches) : List Match → Matches × Option PyErr
  | [] => (s, none)
  | m :: ms => match s.remove m with | (s, some e) => (s, some e) | (s, none) => removeThem s ms
/-- The default rules and the rule of the test. -/
def withBehaviour (b : Behaviour Found (List Match)) : Env (List Match) :=
  { testEnv with rule := fun r => if r.cls = 2 then b else defaultRule testSolvers (fun l => l) r }
/-- A rule that removes the matches it returns. -/
def withRule (when_ : Found → List Match) : Env (List Match) := withBehaviour {
  enabled := fun _ => true
  when_ := fun f => (f, .ok (when_ f))
  then_ := fun f l => ({ f with found := (removeThem f.found l).1 }, (removeThem f.found l).2) }
def ruled (patterns : List (PatternObj Unit)) : RebulkObj Unit := { bulk patterns with rules := [conflictSolverRule 0, privateRemoverRule 1, { info := { id := 2, cls := 2 } }] }
def ruledValues (patterns : List (PatternObj Unit)) (when_ : Found → List Match) (input : String) : Option (List Val) :=
  (run (ruled patterns) (withRule when_) input).map (fun f => f.found.delegate.map Match.value)

-- test_rebulk_rules_1
#eval check (ruledValues [rx 0 "\\d{4}" { opts := { name := some "year" } }] (fun f => (f.found.named ["year"]).2.dropLast) "1984 keep only last 1968 entry 1982 case" =
  texts ["1982"])
-- test_rebulk_rules_2, test_rebulk_rules_3
def years : List (PatternObj Unit) := [rx 0 "\\d{4}" { opts := { name := some "year" } }, st 1 "year" { opts := { name := some "yearPrefix", priv := true } },
  st 2 "keep" { opts := { name := some "yearSuffix", priv := true } }]
#eval check (ruledValues years (fun f => (f.found.named ["year"]).2.filter (fun y =>
    ((f.found.previous y).2.filter (fun p => p.name == some "yearPrefix")).isEmpty && ((f.found.next y).2.filter (fun p => p.name == some "yearSuffix")).isEmpty))
  "Keep suffix 1984 keep prefixed year 1968 and remove the rest 1982" = texts ["1984", "1968"])
-- test_rebulk_rules_4
def grabs : List (PatternObj Unit) := [rx 0 "This match (.*?)grabbed" { opts := { name := some "grabbed" } }, rx 1 "if it's (.*?)first match" { opts := { priv := true } }]
def firstOnly (f : Found) : List Match := (f.found.named ["grabbed"]).2.head?.toList.filter (fun g => !(f.found.previous g).2.isEmpty)
#eval check (ruledValues grabs firstOnly "This match is grabbed only if it's the first match" = texts ["This match is grabbed"])
#eval check (ruledValues grabs firstOnly "if it's NOT the first match, This match is NOT grabbed" = texts [])

-- TestMarkers
def mark (id : Nat) (text name : String) : PatternObj Unit := rx id text { opts := { marker := true, name := some name } }
def word (f : Found) (keep : Match → Bool) : List Match := (f.found.named ["word"]).2.head?.toList.filter (fun w => !keep w)
def marks : List (PatternObj Unit) := [mark 0 "\\(.*?\\)" "mark1", mark 1 "\\[.*?\\]" "mark2"]
def inMark1 (f : Found) : List Match := word f (fun w => !((f.markers.atSpan w.start w.stop).2.filter (fun m => m.name == some "mark1")).isEmpty)
def oneMarker (input : String) : Option (List Val) := ruledValues (marks ++ [st 2 "word" { opts := { name := some "word" } }]) inMark1 input
#eval check (oneMarker "grab (word) only if it's in parenthesis" = texts ["word"] ∧ oneMarker "don't grab [word] if it's in braket" = texts [] ∧
  oneMarker "don't grab word at all" = texts [])
def inBoth (f : Found) : List Match := word f (fun w => decide (2 ≤ (f.markers.atSpan w.start w.stop).2.length))
def wd : PatternObj Unit := rx 2 "w.*?d" { opts := { name := some "word" } }
def manyMarkers (input : String) : Option (List Val) := ruledValues (marks ++ [wd]) inBoth input
#eval check (manyMarkers "[grab (word) only] if it's in parenthesis and brakets" = texts ["word"] ∧ manyMarkers "[don't grab](word)[if brakets are outside]" = texts [] ∧
  manyMarkers "(grab w[or)d even] if it's partially in parenthesis and brakets" = texts ["w[or)d"])
def atStart (f : Found) : List Match := word f (fun w => !((f.markers.lookIndex w.start).2.filter (fun m => m.name == some "mark1")).isEmpty)
def indexMarker (input : String) : Option (List Val) := ruledValues [mark 0 "\\(.*?\\)" "mark1", wd] atStart input
#eval check (indexMarker "gr(ab wo)rd only if starting of match is inside parenthesis" = texts ["wo)rd"] ∧
  indexMarker "don't grab wo(rd if starting of match is not inside parenthesis" = texts [])
-- test_remove_marker
def markerRule : Env (List Match) := withBehaviour {
  enabled := fun _ => true
  when_ := fun f => (f, .ok (f.markers.named ["mark1"]).2)
  then_ := fun f l => match l with
    | m :: _ => ({ f with markers := (f.markers.remove m).1 }, (f.markers.remove m).2)
    | [] => (f, none) }
#eval check ((run (ruled [mark 0 "\\(.*?\\)" "mark1", wd]) markerRule "grab word event (if it's not) inside parenthesis").map (fun f =>
  (f.found.delegate.map Match.value, f.markers.length)) = some ([txt "word"], 0))

-- TestUnicode
#eval check (values (bulk [st 0 "敏", rx 1 "捷" {}, fn 2 "的"]) "敏捷的棕色狐狸跳過懶狗" = texts ["敏", "捷", "的"])

end Rebulk.Tests
