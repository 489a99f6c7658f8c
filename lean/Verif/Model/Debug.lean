import Verif.Model.Chain
/-!
# `rebulk/debug.py`: where an object is defined, and switches from the environment

The call stack is the list of its frames, the innermost (the frame of `defined_at` itself) first. Of a frame only the globals and the line
count. Formatting of frames (`Frame.__repr__`, `debug.py:50-51`) is not modelled.
-/
namespace Rebulk

/-- A frame of the call stack, as far as `defined_at` looks at it: `f_lineno`, `f_globals["__package__"]` (the outer option: no such global),
`f_globals.get("__name__")` and `f_code.co_filename`. -/
structure StackFrame where
  lineno : Nat
  package : Option (Option String)
  name : Option String
  filename : String
  deriving DecidableEq

/-- `Frame` (`debug.py:43-48`). -/
structure FrameInfo where
  lineno : Nat
  package : Option String
  name : Option String
  filename : String
  deriving DecidableEq

/-- The loop of `defined_at` (`debug.py:61-69`): it stops at the first frame of another package, or without package. -/
def frameOutside (own : Option String) : List StackFrame → Option StackFrame
  | [] => none
  | f :: fs => match f.package with
    | none => some f
    | some p => if p ≠ own then some f else frameOutside own fs

/-- `defined_at` (`debug.py:54-79`); `own` is `__package__`. When the stack is exhausted `frame` is `None` and reading `f_lineno` raises. -/
def definedAt (debug : Bool) (own : Option String) (stack : List StackFrame) : Except PyErr (Option FrameInfo) :=
  if debug then
    match frameOutside own stack with
    | none => .error .attributeError
    | some f => .ok (some ⟨f.lineno, f.package.getD none, f.name, f.filename⟩)
  else .ok none

/-- `str.strip()`. Simplification: ASCII blanks. -/
def stripBlanks (s : Str) : Str := ((s.dropWhile isBlank).reverse.dropWhile isBlank).reverse

/-- `_truthy_env` (`debug.py:29-31`); `env` is `os.environ.get(name)`. Simplification: `lower()` is that of ASCII letters. -/
def truthyEnv (env : Option Str) : Bool :=
  ["1".toList, "true".toList, "yes".toList, "on".toList].contains ((stripBlanks (env.getD [])).map Char.toLower)

end Rebulk
