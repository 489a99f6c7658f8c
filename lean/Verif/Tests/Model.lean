import Verif.Tests.Key
/-!
# Tests: `rebulk/test/test_model.py` on the model

Evaluated by the interpreter when the module is built, as in `Tests/Chain.lean`. `test_to_model_declared_key_subclass_is_compatible` has no dates: classes 7 and 8 are
`date` and its subclass `datetime`, and the value is a number.
-/
namespace Rebulk.Tests
open Matches

/-- Classes: 0 is `type(None)`, 1 is `int`, 2 is `str`, 7 is `date`, 8 is `datetime`, from 30 on containers. -/
def testClasses : ClassEnv := { sub := fun a b => a == b || (a == 8 && b == 7), container := fun c => decide (30 ≤ c), noneType := 0 }

/-- What `to` returns, as text. -/
inductive Answer where
  | record (l : List (String × (Val ⊕ List Val)))
  | value (v : Val)
  | values (l : List Val)
  | raised (e : PyErr)
deriving DecidableEq
def answer : Except PyErr Projected → Answer
  | .ok (.record l) => .record (l.map (fun x => (x.1, match x.2 with | .one v => .inl v | .all l => .inr l)))
  | .ok (.value v) => .value v
  | .ok (.values l) => .values l
  | .error e => .raised e

/-- `rebulk.matches(input).to(model)`. -/
def project (r : RebulkObj Unit) (input : String) (model : Model) : Option Answer := match r.matches_ (keyEnv false) input.toList () with
  | .ok f => some (answer (f.found.to testClasses f.keys model))
  | .error _ => none

/-- A pattern with `key=Key(name, int)` or `key=Key(name, str)`. -/
def keyed (p : PatternOpts → PatternObj Unit) (name : String) (fn : Nat) : PatternObj Unit := p { opts := { name := some name }, formatter := .one (some (testFns fn)) }
def yearRx : PatternObj Unit := keyed (rx 0 "\\d{4}") "year" 1
def titleSt (text : String) : PatternObj Unit := keyed (fun o => st 1 text o) "title" 2

def noneOr (c : Nat) : Hint := .union [.cls c, .cls 0]
/-- `tags` has an empty list as default, which is always given. -/
def movieFields : List Field := [⟨"year", .cls 1, none⟩, ⟨"title", .cls 2, none⟩, ⟨"tags", .list (some (.cls 2)), some (.list [])⟩, ⟨"resolution", noneOr 2, some .none⟩]
def movieDict : List Field := movieFields.take 3
def movieBulk : RebulkObj Unit := bulk [yearRx, titleSt "Big Buck Bunny", keyed (fun o => st 2 "HD" o) "tags" 2, keyed (fun o => st 3 "BluRay" o) "tags" 2]
def bunny : String := "Big Buck Bunny 2008 HD BluRay"
def bunnyRecord : List (String × (Val ⊕ List Val)) := [("year", .inl (.int 2008)), ("title", .inl (txt "Big Buck Bunny")), ("tags", .inr [txt "HD", txt "BluRay"])]

-- test_to_model, test_to_typeddict
#eval check (project movieBulk bunny (.dataclass movieFields) = some (.record (bunnyRecord ++ [("resolution", .inl .none)])))
#eval check (project movieBulk bunny (.typedDict movieDict) = some (.record bunnyRecord))
-- test_to_model_defaults_when_unmatched, test_to_typeddict_omits_unmatched
#eval check (project (bulk [yearRx, titleSt "Title"]) "Title 1999" (.dataclass movieFields) =
  some (.record [("year", .inl (.int 1999)), ("title", .inl (txt "Title")), ("tags", .inr []), ("resolution", .inl .none)]))
#eval check (project (bulk [yearRx]) "1999" (.typedDict movieDict) = some (.record [("year", .inl (.int 1999)), ("tags", .inr [])]))
-- test_to_primitive, test_to_list, test_to_list_of_structured_rejected, test_to_primitive_empty_raises, test_to_rejects_non_type
#eval check (project (bulk [yearRx]) "born 1984" (.cls 1) = some (.value (.int 1984)))
#eval check (project (bulk [keyed (rx 0 "\\d") "digit" 1]) "1 2 3" (.listOf false) = some (.values [.int 1, .int 2, .int 3]))
#eval check (project (bulk [yearRx]) "1984 2008" (.listOf true) = some (.raised .typeError))
#eval check (project (bulk [yearRx]) "no digits" (.cls 1) = some (.raised .lookupError))
#eval check (project (bulk [st 0 "x"]) "x" .other = some (.raised .typeError))

/-- A declared key of type `int`. -/
def declaring (name : String) (text : String) (type : Nat := 1) : RebulkObj Unit := { bulk [keyed (rx 0 text) name 1] with keys := [(name, ⟨name, type, none⟩)] }
def yearField (h : Hint) (d : Option Val := none) : List Field := [⟨"year", h, d⟩]
-- test_to_model_contradicting_declared_key_raises, test_to_typeddict_contradicting_declared_key_raises
#eval check (project (declaring "year" "\\d{4}") "1984" (.dataclass (yearField (.cls 2))) = some (.raised .typeError) ∧
  project (declaring "year" "\\d{4}") "1984" (.typedDict (yearField (.cls 2))) = some (.raised .typeError))
-- test_to_model_declared_key_list_element_checked
#eval check (project (declaring "digit" "\\d") "1 2 3" (.dataclass [⟨"digit", .list (some (.cls 1)), some (.list [])⟩]) =
    some (.record [("digit", .inr [.int 1, .int 2, .int 3])]) ∧
  project (declaring "digit" "\\d") "1 2 3" (.dataclass [⟨"digit", .list (some (.cls 2)), some (.list [])⟩]) = some (.raised .typeError))
-- test_to_model_declared_key_optional_element_checked
#eval check (project (declaring "year" "\\d{4}") "1984" (.dataclass (yearField (noneOr 1) (some .none))) = some (.record [("year", .inl (.int 1984))]) ∧
  project (declaring "year" "\\d{4}") "1984" (.dataclass (yearField (noneOr 2) (some .none))) = some (.raised .typeError))
-- test_to_model_declared_key_subclass_is_compatible, test_to_model_unresolvable_field_type_never_contradicts
#eval check (project (declaring "year" "\\d{4}" 7) "1984" (.dataclass (yearField (.cls 8))) = some (.record [("year", .inl (.int 1984))]))
#eval check (project (declaring "year" "\\d{4}") "1984" (.dataclass (yearField .any (some .none))) = some (.record [("year", .inl (.int 1984))]))
-- test_contradicts_bare_container_is_unresolved
#eval check (([30, 31, 32, 33, 34].all (fun c => !contradicts testClasses (.cls c) 2 && !contradicts testClasses (.cls c) 1)) = true ∧
  contradicts testClasses (.list (some (.cls 1))) 2 = true ∧ contradicts testClasses (.list (some (.cls 1))) 1 = false)
-- test_to_model_disabled_rebulk_does_not_carry_declared_keys
#eval check (project { declaring "year" "\\d{4}" with disabled := fun _ => true } "1984" (.dataclass (yearField (.cls 2) (some (txt "n/a")))) =
  some (.record [("year", .inl (txt "n/a"))]))
-- test_to_model_field_without_declared_key_is_untouched
#eval check (project { bulk [yearRx, st 1 "Title" { opts := { name := some "title" } }] with keys := [intKey "year"] } "Title 1999" (.dataclass movieFields) =
  some (.record [("year", .inl (.int 1999)), ("title", .inl (txt "Title")), ("tags", .inr []), ("resolution", .inl .none)]))

end Rebulk.Tests
