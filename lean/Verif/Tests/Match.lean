import Verif.Tests.Engine
import Verif.Model.Arguments
import Verif.Model.Sequence
/-!
# Tests: `rebulk/test/test_match.py` on the model

Each `example` transcribes assertions of the test named above it; they are checks of the model on literals.
-/
namespace Rebulk.Tests
open Matches

/-- `Match(a, b, value=…, name=…, tags=…)`. -/
def lm (id : Nat) (a b : Int) (v : String) (name : Option String := none) (tags : List String := []) : Match :=
  { id := id, start := a, stop := b, lit := txt v, name := name, tags := tags }

def match1 := lm 1 0 2 "te" (some "start")
def match2 := lm 2 2 3 "s" none ["tag1"]
def match3 := lm 3 3 4 "t" none ["tag1", "tag2"]
def match4 := lm 4 2 4 "st" (some "end")

/-- The identities of the matches a container holds. -/
def idsIn (s : Matches) : List Nat := s.delegate.map Match.id
def idsOf (l : List Match) : List Nat := l.map Match.id
/-- The result of an operation that may raise. -/
def idsOr (r : Except PyErr (List Match)) : Option (List Nat) := match r with | .ok l => some (idsOf l) | .error _ => none

/-- A container filled by `append`. -/
def filled (l : List Match) (input : Option Str := none) : Matches := l.foldl (fun s m => (s.append m).1) (Matches.empty false input)

-- TestMatchClass.test_equality, test_inequality
example : ({ start := 1, stop := 3, lit := txt "es" } : Match).eqv { start := 1, stop := 3, lit := txt "es" } = true := by decide +kernel
example : (lm 0 0 2 "te").eqv (lm 1 2 4 "st") = false ∧ (lm 0 0 2 "te").eqv (lm 1 0 2 "other") = false := by decide +kernel

-- TestMatchClass.test_length, test_compare
example : (lm 0 0 4 "test").len = 4 ∧ (lm 0 0 2 "spanIsUsed").len = 2 := by decide +kernel
example : Match.lt (lm 0 0 2 "te") (lm 1 2 4 "st") = true := by decide +kernel

-- TestMatchesClass.test_tag
example : let s := filled [match1, match2, match3, match4]
    (s.names.2.contains "start" && s.names.2.contains "end" && s.tags.2.contains "tag1" && s.tags.2.contains "tag2") = true ∧
    idsOf (s.lookTag "tag1").2 = [2, 3] ∧ idsOf (s.lookTag "tag2").2 = [3] ∧
    idsOf (s.named ["start"]).2 = [1] ∧ idsOf (s.named ["end"]).2 = [4] := by decide +kernel

-- TestMatchesClass.test_base: the whole history, with the indexes built on the way
example : let s0 := filled [match1]
    let s1 := (s0.lookStart 0).1
    let s2 := (s1.lookEnd 2).1
    let s3 := [match2, match3, match4].foldl (fun s m => (s.append m).1) s2
    let s4 := ((s3.lookStart 2).1.lookStart 3).1
    let s5 := ((s4.lookEnd 3).1.lookEnd 4).1
    let s6 := (s5.remove match1).1
    let s7 := (s6.clear).1
    s0.length = 1 ∧ idsOf (s0.lookStart 0).2 = [1] ∧ idsOf (s1.lookEnd 2).2 = [1] ∧ s3.length = 4 ∧
    idsOf (s3.lookStart 2).2 = [2, 4] ∧ idsOf (s3.lookStart 3).2 = [3] ∧ idsOf (s4.lookEnd 3).2 = [2] ∧ idsOf (s4.lookEnd 4).2 = [3, 4] ∧
    idsOf (s5.range 0 none) = [1, 2, 4, 3] ∧ idsOf (s5.range 0 (some 3)) = [1, 2, 4] ∧ idsOf (s5.range 2 (some 3)) = [2, 4] ∧
    idsOf (s5.range 3 (some 4)) = [4, 3] ∧
    s6.length = 3 ∧ idsOf (s6.lookStart 0).2 = [] ∧ idsOf (s6.lookEnd 2).2 = [] ∧
    s7.length = 0 ∧ idsOf (s7.lookStart 0).2 = [] ∧ idsOf (s7.lookStart 2).2 = [] ∧ idsOf (s7.lookStart 3).2 = [] ∧
    idsOf (s7.lookEnd 2).2 = [] ∧ idsOf (s7.lookEnd 3).2 = [] ∧ idsOf (s7.lookEnd 4).2 = [] := by decide +kernel

-- TestMatchesClass.test_get_slices, test_remove_slices, test_set_slices, test_set_index
example : (match (filled [match1, match2, match3, match4]).getSlice (some 1) (some 3) with | .ok s => idsIn s | .error _ => []) = [2, 3] := by decide +kernel
example : idsIn ((filled [match1, match2, match3, match4]).delSlice (some 1) (some 3)).1 = [1, 4] := by decide +kernel
example : idsIn ((filled [match1, match2, match3, match4]).setSlice (some 1) (some 3) none (.list [match1, match4])).1 = [1, 1, 4, 4] := by decide +kernel
example : idsIn ((filled [match1, match2, match3]).setItem 1 match4).1 = [1, 4, 3] := by decide +kernel

-- TestMatchesClass.test_constructor
example : let s := (Matches.ofList false none [match1, match2, match3, match4]).1
    s.length = 4 ∧ idsOf (s.lookStart 0).2 = [1] ∧ idsOf (s.lookEnd 2).2 = [1] ∧ idsOf (s.lookStart 2).2 = [2, 4] ∧
    idsOf (s.lookStart 3).2 = [3] ∧ idsOf (s.lookEnd 3).2 = [2] ∧ idsOf (s.lookEnd 4).2 = [3, 4] := by decide +kernel

def alphabet : Str := "abcdefghijklmnopqrstuvwxyz".toList
def cropped (l : List (Int × Int)) : Option (List (Int × Int)) :=
  match Match.crop { start := 1, stop := 10, inputString := some alphabet } l with | .ok r => some (r.map Match.span) | .error _ => none

-- TestMatchesClass.test_crop
example : cropped [(0, 2), (8, 15)] = some [(2, 8)] ∧ cropped [(1, 10)] = some [] ∧ cropped [(1, 3)] = some [(3, 10)] ∧
    cropped [(7, 10)] = some [(1, 7)] ∧ cropped [(0, 12)] = some [] ∧ cropped [(4, 6)] = some [(1, 4), (6, 10)] ∧
    cropped [(3, 5), (7, 9)] = some [(1, 3), (5, 7), (9, 10)] := by decide +kernel
example : (match Match.crop { start := 1, stop := 10, inputString := some alphabet } [(0, 2), (8, 15)] with
    | .ok r => r.map Match.value | .error _ => []) = [txt "cdefgh"] := by decide +kernel

-- TestMatchesClass.test_split
def splitInput : Str := "123 +word1  -  word2  + word3  456".toList
example : (match Match.split { start := 3, stop := splitInput.length - 3, inputString := some splitInput } " -+".toList with
    | .ok r => r.map Match.value | .error _ => []) = [txt "word1", txt "word2", txt "word3"] := by decide +kernel

/-! ## TestMaches -/

def oneTwo : Str := "One Two Three".toList
/-- `StringPattern(word, name=…, tags=…).matches(input)`. -/
def strP (id : Nat) (word name : String) (tags : List String) (input : Str) : Except PyErr (List MTree) :=
  (Pattern.init id { opts := { name := some name, tags := tags } }).runString lowerStr {} [word.toList] input
/-- `RePattern(word, name=…, tags=…).matches(input)`. -/
def reP (id : Nat) (re name : String) (tags : List String) (input : Str) : Except PyErr (List MTree) :=
  (Pattern.init id { opts := { name := some name, tags := tags } }).runRegex true [compile re] input

def filterMatches : Matches := filled (found
  [strP 0 "One" "1-str" ["One", "str"] oneTwo, reP 1 "One" "1-re" ["One", "re"] oneTwo, strP 2 "Two" "2-str" ["Two", "str"] oneTwo,
   reP 3 "Two" "2-re" ["Two", "re"] oneTwo, strP 4 "Three" "3-str" ["Three", "str"] oneTwo, reP 5 "Three" "3-re" ["Three", "re"] oneTwo])

def hasTag (t : String) : Match → Bool := fun m => m.tags.contains t
def namesOf (l : List Match) : List (Option String) := l.map Match.name

-- test_names
example : filterMatches.names.2 = ["1-str", "1-re", "2-str", "2-re", "3-str", "3-re"] := by decide +kernel

-- test_filters
example : (filterMatches.lookStart 0).2.length = 2 ∧
    namesOf ((filterMatches.lookStart 0).2.filter (hasTag "str")) = [some "1-str"] ∧
    namesOf ((filterMatches.lookEnd 7).2.filter (hasTag "str")) = [some "2-str"] ∧
    (match (filterMatches.named ["2-str"]).2 with
      | anchor :: _ => (namesOf (filterMatches.previous anchor).2, namesOf (filterMatches.next anchor).2)
      | [] => ([], [])) = ([some "1-str", some "1-re"], [some "3-str", some "3-re"]) := by decide +kernel
example : (match (filterMatches.named ["2-str"]).2 with
      | anchor :: _ => (match filterMatches.lookupArgs (.next anchor) (.fn (hasTag "re")) (.int 0) with
          | (_, .ok (.one (some m))) => m.name | _ => none)
      | [] => none) = some "3-re" := by decide +kernel
example : (match filterMatches.namedArgs [.str "2-re", .fn (hasTag "re"), .int 1000] .none .none with
    | (_, .ok (.one none)) => true | _ => false) = true := by decide +kernel
example : (match filterMatches.namedArgs [.str "2-str", .fn (hasTag "re")] .none .none with
    | (_, .ok (.list [])) => true | _ => false) = true := by decide +kernel

-- test_raw
def digits : Str := "0123456789".toList
def twice : Val → Val | .str s => .str (s ++ s) | v => v
def rawMatch : Match := { start := 0, stop := 10, inputString := some digits, formatter := some twice }
example : rawMatch.raw = .str digits ∧ rawMatch.value = .str (digits ++ digits) ∧
    ({ rawMatch with rawStart := some 1, rawStop := some 9 } : Match).raw = txt "12345678" ∧
    ({ rawMatch with rawStart := some 1, rawStop := some 9 } : Match).value = txt "1234567812345678" := by decide +kernel

-- test_formatter_chain
def timesTwo : Val → Val | .int i => .int (i * 2) | v => v
def plusTen : Val → Val | .int i => .int (i + 10) | v => v
example : ({ start := 0, stop := 3, inputString := some "100".toList, formatter := some (formatters [toInt, timesTwo, plusTen]) } : Match).value = .int 210 := by decide +kernel

-- test_to_dict
def twos : Str := "One Two Two Three".toList
def dictMatches : Matches := filled (found
  [strP 0 "One" "1" ["One", "str"] twos, reP 1 "One" "1" ["One", "re"] twos, strP 2 "Two" "2" ["Two", "str"] twos,
   reP 3 "Two" "2" ["Two", "re"] twos, reP 4 "Two" "2" ["Two", "reBis"] twos, strP 5 "Three" "3" ["Three", "str"] twos,
   reP 6 "Three" "3bis" ["Three", "re"] twos, reP 7 "(\\w+)" "words" [] twos])
/-- An item as a value; a match stands for its value. -/
def DV.shown (h : ListHeap) (d : DV) : Val := match d.deref h with | .inl m => m.value | .inr v => v
/-- An entry as values. -/
def shownEntry (h : ListHeap) : Entry → List Val ⊕ Val
  | .one d => .inr (DV.shown h d)
  | .own l => .inl (l.map (DV.shown h))
  | .alias a => .inl (h a)
def shownDict (d : MDict) : List (Option String × (List Val ⊕ Val)) := d.ret.map (fun kv => (kv.1, shownEntry d.heap kv.2))
def dictOf (details firstValue enforceList : Bool) : MDict := dictMatches.toDict (fun _ => []) (fun _ => none) details firstValue enforceList

example : shownDict (dictOf false true false) =
    [(some "1", .inr (txt "One")), (some "words", .inr (txt "One")), (some "2", .inr (txt "Two")), (some "3", .inr (txt "Three")), (some "3bis", .inr (txt "Three"))] ∧
    ((dictOf false true false).valuesList.getList (some "words")).map (DV.shown (fun _ => [])) = [txt "One", txt "Two", txt "Three"] := by decide +kernel
example : ((shownDict (dictOf false false true)).lookup (some "words")) = some (.inl [txt "One", txt "Two", txt "Three"]) := by decide +kernel
example : (shownDict (dictOf true false false)).lookup (some "1") = some (.inr (txt "One")) ∧
    (shownDict (dictOf true false false)).lookup (some "2") = some (.inl [txt "Two", txt "Two"]) ∧
    (shownDict (dictOf true false false)).lookup (some "3") = some (.inr (txt "Three")) ∧
    (shownDict (dictOf true false false)).lookup (some "words") = some (.inl [txt "One", txt "Two", txt "Two", txt "Three"]) ∧
    ((dictOf true false false).valuesList.getList (some "words")).map (DV.shown (fun _ => [])) = [txt "One", txt "Two", txt "Two", txt "Three"] ∧
    ((dictOf true false false).valuesList.getList (some "2")).length = 2 := by decide +kernel

-- test_chains
def chainsInput : Str := "wordX 10 20 30 40 wordA, wordB, wordC 70 80 wordX".toList
def chainsMatches : Matches := filled (found [reP 0 "\\d+" "digit" [] chainsInput, reP 1 "[a-zA-Z]+" "word" [] chainsInput]) (some chainsInput)
def isNamed (n : String) : Match → Bool := fun m => m.name == some n
def valuesOr (r : Matches × Except PyErr (List Match)) : Option (List Val) := match r.2 with | .ok l => some (l.map Match.value) | .error _ => none

example : chainsMatches.length = 11 ∧ pyFind chainsInput "wordA".toList none none = some 18 ∧ pyFind chainsInput "wordB".toList none none = some 25 ∧
    pyFind chainsInput "wordC".toList none none = some 32 := by decide +kernel
example : valuesOr (chainsMatches.chainBefore 25 " ,".toList 0 (isNamed "word")) = some [txt "wordA"] := by decide +kernel
example : valuesOr (chainsMatches.chainBefore 25 " ,".toList 0 (isNamed "digit")) = some [] := by decide +kernel
example : valuesOr (chainsMatches.chainBefore 18 " ,".toList 0 (isNamed "digit")) = some [txt "40", txt "30", txt "20", txt "10"] := by decide +kernel
example : valuesOr (chainsMatches.chainAfter 30 " ,".toList none (isNamed "word")) = some [txt "wordC"] := by decide +kernel
example : valuesOr (chainsMatches.chainAfter 30 " ,".toList none (isNamed "digit")) = some [] := by decide +kernel
example : valuesOr (chainsMatches.chainAfter 37 " ,".toList none (isNamed "digit")) = some [txt "70", txt "80"] := by decide +kernel
example : valuesOr (chainsMatches.chainAfter 37 " ,".toList (some 10000) (isNamed "digit")) = some [txt "70", txt "80"] := by decide +kernel

-- test_holes
def tens (c : Char) : Str := List.replicate 10 c
def holesInput : Str := tens '1' ++ tens '2' ++ tens '3' ++ tens '4' ++ tens '5' ++ tens '6' ++ tens '7'
def plainM (id : Nat) (a b : Int) : Match := { id := id, start := a, stop := b, inputString := some holesInput }
def holesMatches : Matches := filled [plainM 0 0 10, plainM 1 20 30, plainM 2 30 40, plainM 3 60 70] (some holesInput)
def holesOf (r : Matches × Except PyErr (List Match)) : Option (List ((Int × Int) × Val)) :=
  match r.2 with | .ok l => some (l.map (fun m => (m.span, m.value))) | .error _ => none

example : holesOf (holesMatches.holeMatches none 0 none (fun _ => false) none) =
    some [((10, 20), .str (tens '2')), ((40, 60), .str (tens '5' ++ tens '6'))] := by decide +kernel
example : holesOf (holesMatches.holeMatches none 5 (some 15) (fun _ => false) none) = some [((10, 15), txt "22222")] := by decide +kernel
example : holesOf (holesMatches.holeMatches (some (fun _ => txt "formatted")) 5 (some 15) (fun _ => false) none) = some [((10, 15), txt "formatted")] := by decide +kernel

-- test_holes_empty
example : holesOf ((Matches.empty false (some "Test hole on empty matches".toList)).holeMatches none 0 none (fun _ => false) none) =
    some [((0, 26), txt "Test hole on empty matches")] := by decide +kernel

-- test_holes_seps
def sepsInput : Str := "Test hole - with many separators + included".toList
def sepsMatches : Matches := filled (found [(Pattern.init 0 {}).runString lowerStr {} ["many".toList] sepsInput]) (some sepsInput)
example : (holesOf (sepsMatches.holeMatches none 0 none (fun _ => false) none)).map List.length = some 2 ∧
    (holesOf (sepsMatches.holeMatches none 0 none (fun _ => false) (some "-+".toList))).map (fun l => l.map (fun x => x.2)) =
      some [txt "Test hole ", txt " with ", txt " separators ", txt " included"] := by decide +kernel

/-! ## TestNamedMultiple -/

def abcd : Matches := (Matches.ofList false none
  [{ id := 0, start := 0, stop := 1, name := some "title" }, { id := 1, start := 2, stop := 3, name := some "episode_title" },
   { id := 2, start := 4, stop := 5, name := some "title" }, { id := 3, start := 6, stop := 7, name := some "year" }]).1
def startsOf (r : Matches × Except PyErr FResult) : Option (List Int) :=
  match r.2 with | .ok (.list l) => some (l.map Match.start) | .ok (.one (some m)) => some [m.start] | .ok (.one none) => some [] | .error _ => none

example : startsOf (abcd.namedArgs [.str "title", .str "episode_title"] .none .none) = some [0, 4, 2] ∧
    startsOf (abcd.namedArgs [.str "title"] .none .none) = some [0, 4] ∧
    startsOf (abcd.namedArgs [.str "episode_title", .str "year"] .none (.int 0)) = some [2] ∧
    startsOf (abcd.namedArgs [.str "title", .str "year"] (.fn (fun m => decide (m.start > 3))) .none) = some [4, 6] ∧
    startsOf (abcd.namedArgs [.str "title", .str "title"] .none .none) = some [0, 4] ∧
    startsOf (abcd.namedArgs [.str "nope", .str "nada"] .none .none) = some [] := by decide +kernel

end Rebulk.Tests
