import Verif.Model.Builder
import Verif.Model.Rebulk
/-!
# `rebulk/key.py`, and the formatters of a pattern as they are on the heap
-/
namespace Rebulk

/-- `Key(name, value_type, formatter)` with `__post_init__` (`key.py:44-53`); `structured` tells dataclasses and `TypedDict`s. -/
def makeKey (structured : Nat → Bool) (name : String) (valueType : Nat) (formatter : Option Nat) : Except PyErr Key :=
  if structured valueType then .error .typeError else .ok { name, valueType, formatter }

/-- `Key.converter` (`key.py:55-58`); `calls` is what the function object of a number does, `constructs` what calling a class does. -/
def Key.converter (calls constructs : Nat → Val → Val) (k : Key) : Val → Val :=
  match k.formatter with
  | some f => calls f
  | none => constructs k.valueType

/-- A formatter as a keyword value: a callable, or `None`. -/
def readFormatter (fns : Nat → Val → Val) : HV → Formatter
  | .atom (.obj n) => some (fns n)
  | _ => none

/-- The formatter dict of a pattern (`pattern.py:131`, `builder.py:129-132`), the key `""` standing for `None` as in `Model/Builder.lean`. -/
def readFormatters (fns : Nat → Val → Val) (d : HDict) : DictArg Formatter :=
  .dict (d.map (fun kv => (if kv.1 = "" then none else some kv.1, readFormatter fns kv.2)))

end Rebulk
