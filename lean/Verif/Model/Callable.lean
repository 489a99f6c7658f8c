import Verif.Model.Utils
/-!
# `rebulk/loose.py`: the callables given to `call`
-/
namespace Rebulk

/-- The parameters of a callable, as its caller sees them: without the `self` of a method or a constructor. The first `posOnly` ones
cannot be named. -/
structure Signature where
  params : List String
  posOnly : Nat := 0
  required : List String := []
  varargs : Bool := false
  varkw : Bool := false
  kwonly : List String := []

/-- What is called: a plain function, a class, or a method of an object. -/
inductive CallKind where
  | function
  | class_
  | method
deriving DecidableEq

/-- `inspect.getfullargspec`, as `function_args` and `constructor_args` read it (`loose.py:48-79`; `_constructor`, `loose.py:17-26`, is
the identity): it counts the `self` of a class and of a bound method. Simplified: the first parameter is called `self`; objects with
`__call__`, partials and builtins without a signature are left out. -/
def fullArgSpec (kind : CallKind) (sig : Signature) : ArgSpec where
  args := match kind with
    | .function => sig.params
    | _ => "self" :: sig.params
  varargs := sig.varargs
  varkw := sig.varkw
  kwonly := sig.kwonly

/-- `isclass(function)` (`loose.py:43`). -/
def CallKind.isClass : CallKind → Bool
  | .class_ => true
  | _ => false

/-- The arguments and keywords with which `call` (`loose.py:29-45`) calls a callable. -/
def callWith {α : Type} (kind : CallKind) (sig : Signature) (true_ : α) (args : List α) (kwargs : Dict String α) : List α × Dict String α :=
  callArgs (fullArgSpec kind sig) kind.isClass true_ args kwargs

end Rebulk
