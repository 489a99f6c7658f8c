import Verif.Tests.Rebulk
import Verif.Model.TypedKeys
/-!
# Tests: `rebulk/test/test_key.py` on the model

Evaluated by the interpreter when the module is built, as in `Tests/Chain.lean`. Patterns are built by `Model/Builder.lean`; their options are then read from the heap.
-/
namespace Rebulk.Tests
open Matches

/-- Function objects: 1 is `int`, 2 is `str`, 3 is `str.upper`, 4 is `len`, 5 prefixes `Y`; 6 is `date.fromisoformat` (here the digits as a number). -/
def testFns : Nat → Val → Val
  | 1, v => toInt v
  | 3, v => .str ((valText v).map Char.toUpper)
  | 4, v => .int (valText v).length
  | 5, v => .str ('Y' :: valText v)
  | 6, v => toInt (.str ((valText v).filter Char.isDigit))
  | _, v => v

/-- Classes: 1 is `int`, 2 is `str`; 20 is a dataclass, 21 a `TypedDict`. -/
def testInstance (v : Val) (c : Nat) : Bool := match v, c with | .int _, 1 => true | .str _, 2 => true | _, _ => false
def keyEnv (checkKeys : Bool) : Env (List Match) := { testEnv with checkKeys := checkKeys, isinstance := testInstance }

/-- The options of the last pattern built. -/
def lastOpts (ops : List BOp) : Option PatternOpts := do
  let w ← runB noExpandT 9 World.init ops
  let p ← w.patterns.getLast?
  let kw := w.heap.at_ p.kwargs
  let name := match kw.get? "name" with | some (.atom (.str s)) => some (String.ofList s) | _ => none
  let flag := fun (n : String) => match kw.get? n with | some (.atom (.bool b)) => b | _ => false
  pure { opts := { name := name }, children := flag "children", privateParent := flag "private_parent", formatter := readFormatters testFns (w.heap.at_ p.formatters) }
where noExpandT : List Val → HV → HV := fun _ v => v

/-- `Rebulk().declare_keys(*declared).regex(text, key=key, **kw)`. -/
def regexWith (text : String) (key : KeyArg) (kw : HDict := []) (declared : List BKey := []) (pre : List BOp := []) (id : Nat := 0) : Option (PatternObj Unit) :=
  (lastOpts (pre ++ [.builder, .declareKeys 0 declared, .build 0 .regex key [] kw])).map (fun o => rx id text o)
def children_ : String × HV := ("children", .atom (.bool true))

/-- `matches[key]` and `matches.all(key)`. -/
def look (ps : List (Option (PatternObj Unit))) (input : String) (name : String) (keys : Dict String Key := []) (checkKeys : Bool := false) : Option (Option Val × List Val) := do
  let ps ← ps.mapM id
  match ({ bulk ps with keys := keys }).matches_ (keyEnv checkKeys) input.toList () with
  | .ok f => some ((f.found.getKey ⟨name, 0, none⟩).2, (f.found.allKey ⟨name, 0, none⟩).2)
  | .error _ => none
/-- Whether `matches` raises. -/
def raises (ps : List (Option (PatternObj Unit))) (input : String) (keys : Dict String Key) : Bool := (look ps input "" keys true).isNone
def ints (l : List Int) : Option (Option Val × List Val) := some (l.head?.map Val.int, l.map Val.int)

def yearKey : BKey := ⟨"year", 1⟩
def seasonKey : BKey := ⟨"season", 1⟩
def episodeKey : BKey := ⟨"episode", 1⟩
def intKey (n : String) : String × Key := (n, ⟨n, 1, none⟩)
def se : String := "S(?P<season>\\d+)E(?P<episode>\\d+)"

-- test_key_scalar_retrieval
#eval check (look [regexWith "\\d{4}" (.one yearKey)] "Big Buck Bunny 2008" "year" = ints [2008])
-- test_key_converter_defaults_to_value_type, test_key_rejects_structured_value_type
example : (⟨"year", 1, none⟩ : Key).converter testFns testFns = testFns 1 ∧ (⟨"released", 7, some 6⟩ : Key).converter testFns testFns = testFns 6 := ⟨rfl, rfl⟩
example : makeKey (fun c => decide (20 ≤ c)) "movie" 20 none = .error .typeError ∧ makeKey (fun c => decide (20 ≤ c)) "movie" 21 none = .error .typeError := ⟨rfl, rfl⟩
-- test_key_with_explicit_formatter (the date as the number 20080102)
#eval check (look [regexWith "\\d{4}-\\d{2}-\\d{2}" (.one ⟨"released", 6⟩)] "on 2008-01-02 ..." "released" = ints [20080102])
-- test_key_missing_returns_none, test_key_multiple_values
#eval check (look [regexWith "\\d{4}" (.one yearKey)] "no digits here" "year" = ints [])
#eval check (look [regexWith "\\d" (.one ⟨"digit", 1⟩)] "1 2 3" "digit" = ints [1, 2, 3])
-- test_keys_children_per_name_formatter, test_keys_multiple_children_values
def both : KeyArg := .many [seasonKey, episodeKey]
#eval check (look [regexWith se both [children_]] "Show.S03E07.mkv" "season" = ints [3] ∧ look [regexWith se both [children_]] "Show.S03E07.mkv" "episode" = ints [7])
#eval check (look [regexWith "S(?P<season>\\d+)(?:E(?P<episode>\\d+))+" both [children_]] "Show.S03E07.mkv" "episode" = ints [7])
-- test_keys_preserve_explicit_per_name_formatter, test_keys_does_not_mutate_caller_formatter_dict: the caller's dict has address 0
def upperEpisode : List BOp := [.dict [("episode", .atom (.obj 3))]]
def preserving : Option (PatternObj Unit) := regexWith "S(?P<season>\\d+)E(?P<episode>\\w+)" (.many [seasonKey, ⟨"episode", 2⟩]) [("formatter", .ref 0), children_] [] upperEpisode
#eval check (look [preserving] "Show.S03Eab.mkv" "season" = ints [3] ∧ look [preserving] "Show.S03Eab.mkv" "episode" = some (some (txt "AB"), [txt "AB"]))
#eval check ((runB (fun _ v => v) 9 World.init (upperEpisode ++ [.builder, .build 0 .regex both [] [("formatter", .ref 0), children_]])).map (fun w => w.heap.at_ 0) =
  some [("episode", .atom (.obj 3))])
-- test_keys_rejects_single_formatter_callable
example : applyKey (.many [seasonKey]) [("formatter", .atom (.obj 1))] [] = .error .typeError := rfl
-- test_keys_none_is_noop, test_keys_empty_sequence_is_noop
#eval check (look [regexWith "\\d{4}" .absent, regexWith "\\d{4}" (.one yearKey) [] [] [] 1] "born in 1984" "year" = ints [1984] ∧
  look [regexWith "\\d{4}" (.many []), regexWith "\\d{4}" (.one yearKey) [] [] [] 1] "born in 1984" "year" = ints [1984])
-- test_declare_keys_inherited_per_name_formatter, test_declare_keys_inherited_on_named_parent
def declared2 : List BKey := [seasonKey, episodeKey]
#eval check (look [regexWith se .absent [children_] declared2] "Show.S03E07.mkv" "season" = ints [3] ∧ look [regexWith se .absent [children_] declared2] "Show.S03E07.mkv" "episode" = ints [7])
def nameYear : String × HV := ("name", .atom (txt "year"))
#eval check (look [regexWith "\\d{4}" .absent [nameYear] [yearKey]] "born in 1984" "year" = ints [1984])
-- test_declare_keys_explicit_formatter_overrides_registry
def overriding : Option (PatternObj Unit) :=
  regexWith "S(?P<season>\\d+)E(?P<episode>\\w+)" .absent [("formatter", .ref 0), children_] declared2 [.dict [("episode", .atom (.obj 4))]]
#eval check (look [overriding] "Show.S03Eabcd.mkv" "season" = ints [3] ∧ look [overriding] "Show.S03Eabcd.mkv" "episode" = ints [4])
-- test_declare_keys_bare_callable_formatter_wins
#eval check (look [regexWith "\\d{4}" .absent [nameYear, ("formatter", .atom (.obj 5))] [yearKey]] "born in 1984" "year" = some (some (txt "Y1984"), [txt "Y1984"]))
-- test_declare_keys_does_not_mutate_shared_default_formatter
#eval check ((runB (fun _ v => v) 9 World.init [.dict [("x", .atom (.obj 3))], .builder, .declareKeys 0 [seasonKey], .defaults 0 .base [("formatter", .ref 0)],
    .build 0 .regex .absent [] [children_]]).map (fun w => (w.heap.at_ 0, w.factories.map (fun f => (w.heap.at_ f.base).get? "formatter"))) =
  some ([("x", .atom (.obj 3))], [some (.ref 0)]))

-- test_declared_keys_carried_on_matches, test_declared_keys_empty_without_declaration, test_effective_keys_merges_children, test_effective_keys_parent_wins_over_child
def carried (r : RebulkObj Unit) (input : String) : Option (List (String × Nat)) := match r.matches_ (keyEnv false) input.toList () with
  | .ok f => some (f.keys.map (fun nk => (nk.1, nk.2.valueType)))
  | .error _ => none
#eval check (carried { bulk [] with keys := [intKey "season", intKey "episode"] } "Show.S03E07.mkv" = some [("season", 1), ("episode", 1)] ∧ carried (bulk []) "1984" = some [])
#eval check (carried { bulk [] with keys := [intKey "season"], children := [{ bulk [] with keys := [intKey "episode"] }] } "nothing" = some [("season", 1), ("episode", 1)])
#eval check (carried { bulk [] with keys := [intKey "dup"], children := [{ bulk [] with keys := [("dup", ⟨"dup", 2, none⟩)] }] } "" = some [("dup", 1)])

/-! ## `CHECK_DECLARED_KEYS` -/

def strSeason : Option (PatternObj Unit) := regexWith "S(?P<season>\\d+)" .absent [("formatter", .ref 0), children_] [seasonKey] [.dict [("season", .atom (.obj 2))]]
-- test_check_declared_keys_disabled_is_silent, …_passes_on_matching_type, …_raises_on_formatter_override_mismatch
#eval check (look [strSeason] "S03" "season" [intKey "season"] = some (some (txt "03"), [txt "03"]))
#eval check (look [regexWith se .absent [children_] declared2] "S03E07" "episode" [intKey "season", intKey "episode"] true = ints [7])
#eval check (raises [strSeason] "S03" [intKey "season"] = true)
-- …_validates_each_match, …_skips_none_value, …_skips_value_mapped_literal, …_unnamed_and_undeclared_are_ignored
def made (a b : Int) (name : Option String) (input : String) (f : Val → Val) (lit : Val := .none) : Match :=
  { start := a, stop := b, name := name, inputString := some input.toList, formatter := some f, lit := lit }
def checked (keys : Dict String Key) (l : List Match) : Bool := (checkDeclaredKeys testInstance keys l).isNone
#eval check (checked [intKey "episode"] [made 0 1 (some "episode") "7 8" toInt, made 2 3 (some "episode") "7 8" (testFns 2)] = false)
#eval check (checked [intKey "year"] [made 0 4 (some "year") "1984" (fun _ => .none)] = true)
#eval check (checked [intKey "season"] [made 0 7 (some "season") "literal" (testFns 2) (txt "literal")] = true)
#eval check (checked [intKey "season"] [made 0 3 none "x y z" (testFns 2) (txt "x"), made 4 5 (some "other") "x y z" (testFns 2)] = true)
-- …_skips_private_parent
#eval check (look [regexWith "x(\\d+)" .absent [("name", .atom (txt "bonus")), children_, ("private_parent", .atom (.bool true))] [⟨"bonus", 1⟩]] "x264" "bonus"
  [intKey "bonus"] true = ints [264])

/-! ## `check_keys` -/

def seasonRx : Option (PatternObj Unit) := regexWith "S(?P<season>\\d+)" .absent [children_] [seasonKey]
def unused (ps : List (Option (PatternObj Unit))) (keys : List String) (allowed : Allowed := .many []) : Option (List String) :=
  (ps.mapM id).map (fun ps => ({ bulk ps with keys := keys.map intKey }).checkKeys allowed)
#eval check (unused [seasonRx] ["season", "seson"] = some ["seson"] ∧ unused [regexWith se .absent [children_]] ["season", "episode"] = some [] ∧
  unused [regexWith "\\d{4}" .absent [nameYear]] ["year"] = some [] ∧ unused [regexWith "\\d{4}" .absent [nameYear]] [] = some [])
#eval check (unused [seasonRx] ["season", "extra"] = some ["extra"] ∧ unused [seasonRx] ["season", "extra"] (.many ["extra"]) = some [] ∧
  unused [seasonRx] ["season", "extra"] (.one "extra") = some [])
-- …_honors_pattern_declared_properties
#eval check (unused [some (.functional { properties := [("season", [.none])] } (Pattern.init 0 {}) [fun _ => .none])] ["season"] = some [])
-- …_rule_produced_name_needs_allowlist
#eval check (unused [regexWith "(?P<raw_year>\\d{4})" .absent [children_]] ["year"] = some ["year"] ∧
  unused [regexWith "(?P<raw_year>\\d{4})" .absent [children_]] ["year"] (.one "year") = some [])
-- …_considers_children_rebulks, …_considers_disabled_patterns_full_set
def withChild (keys : List String) (off : Bool) : List String :=
  RebulkObj.checkKeys (Ctx := Unit)
    { patterns := [rx 0 "S(?P<season>\\d+)" { children := true }], keys := keys.map intKey,
      children := [{ patterns := [rx 1 "E(?P<episode>\\d+)" { children := true }], disabled := fun _ => off }] }
#eval check (withChild ["season", "episode", "epsiode"] false = ["epsiode"] ∧ withChild ["season", "episode"] true = [])
-- …_in_chain
#eval check (unused [some (.chain {} (Pattern.init 0 { children := true }) none (.cons (rx 1 "e(?P<episode>\\d{1,4})" { children := true }) 1 (some 1) false
  (.cons (rx 2 "v(?P<version>\\d+)" { children := true }) 1 (some 1) false .nil)))] ["episode", "version", "verison"] = some ["verison"])

end Rebulk.Tests
