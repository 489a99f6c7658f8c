import Verif.Tests.Key
/-!
# Tests: `rebulk/test/test_introspector.py` on the model

Evaluated by the interpreter when the module is built, as in `Tests/Chain.lean`.
-/
namespace Rebulk.Tests

def nm (n : String) (v : DictArg Val := .absent) : PatternOpts := { opts := { name := some n }, value := v }
def strs (id : Nat) (ss : List String) (o : PatternOpts) (info : PatternInfo Unit := {}) : PatternObj Unit := .string info (Pattern.init id o) {} (ss.map String.toList)
def regs (id : Nat) (ss : List String) (o : PatternOpts := {}) : PatternObj Unit := .regex {} (Pattern.init id o) true (ss.map (fun s => compile s))
def fun_ (id : Nat) (o : PatternOpts) : PatternObj Unit := .functional {} (Pattern.init id o) [fun _ => .seq [.val (.int 0), .val (.int 5)]]
def props (l : List (String × List Val)) : Props := l.map (fun x => (some x.1, x.2))

-- test_string_introspector
def firstSecond : RebulkObj Unit := bulk [strs 0 ["One", "Two", "Three"] (nm "first"), strs 1 ["1", "2", "3"] (nm "second")]
def ott : List Val := ["One", "Two", "Three"].map txt
#eval check ((introspect firstSecond ()).1 = [props [("first", ott)], props [("second", ["1", "2", "3"].map txt)]] ∧
  introspectProperties firstSecond () = props [("first", ott), ("second", ["1", "2", "3"].map txt)])

-- test_string_properties
def customs : RebulkObj Unit := bulk [strs 0 ["One", "Two", "Three"] (nm "first") { properties := [("custom", [txt "One"])] },
  strs 1 ["1", "2", "3"] (nm "second") { properties := [("custom", [.int 1])] }]
#eval check ((introspect customs ()).1 = [props [("custom", [txt "One"])], props [("custom", [.int 1])]] ∧ (introspect customs ()).2.length = 2 ∧
  introspectProperties customs () = props [("custom", [txt "One", .int 1])])

-- test_various_pattern
def various : RebulkObj Unit := bulk [regs 0 ["One", "Two", "Three"] (nm "first" (.one (txt "string"))), strs 1 ["1", "2", "3"] (nm "second" (.one (txt "digit"))),
  strs 2 ["4", "5", "6"] (nm "third"), strs 3 ["private"] { opts := { priv := true } }, fun_ 4 (nm "func" (.one (txt "test"))),
  regs 5 ["One", "Two", "Three"] (nm "regex_name"), regs 6 ["(?P<one>One)(?P<two>Two)(?P<three>Three)"], fun_ 7 (nm "func2"), strs 8 ["7"] (nm "third")]
#eval check ((introspect various ()).1 = [[("first", [txt "string"])], [("second", [txt "digit"])], [("third", [txt "4", txt "5", txt "6"])], [("func", [txt "test"])],
    [("regex_name", [.none])], [("one", [.none]), ("two", [.none]), ("three", [.none])], [("func2", [.none])], [("third", [txt "7"])]].map props ∧
  (introspect various ()).2.length = 2 ∧
  introspectProperties various () = props [("first", [txt "string"]), ("second", [txt "digit"]), ("third", ["4", "5", "6", "7"].map txt), ("func", [txt "test"]),
    ("regex_name", [.none]), ("one", [.none]), ("two", [.none]), ("three", [.none]), ("func2", [.none])])

-- test_rule_properties
def renamers : RebulkObj Unit := { rules := [{ info := { id := 0, cls := 2 }, properties := [("renamed", [.none])] }, { info := { id := 1, cls := 3 }, properties := [("renamed", [.none])] }] }
#eval check ((introspect renamers ()) = ([], [props [("renamed", [.none])], props [("renamed", [.none])]]) ∧ introspectProperties renamers () = props [("renamed", [.none])])

end Rebulk.Tests
