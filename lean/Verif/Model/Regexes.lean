import Verif.Model.Pattern
/-!
# `RePattern.__init__`: compiling the regular expressions of a pattern

What a compiled expression matches is up to the `re` module: compilation is a parameter, `engine text flags` (`re.compile(text, flags)`, which may raise). Dicts
given as regular expressions are objects of the caller, changed in place: an address stands for one.
-/
namespace Rebulk

/-- The search of `str.replace` for a non-empty key: `skip` is the rest of the key found last. -/
def replaceFrom (key repl : Str) : Nat → Str → Str
  | _, [] => []
  | skip + 1, _ :: s => replaceFrom key repl skip s
  | 0, c :: s => if key.isPrefixOf (c :: s) then repl ++ replaceFrom key repl (key.length - 1) s else c :: replaceFrom key repl 0 s

/-- `s.replace(key, repl)`; an empty key is found before every character and at the end. -/
def pyReplace (key repl s : Str) : Str :=
  if key.isEmpty then s.flatMap (fun c => repl ++ [c]) ++ repl else replaceFrom key repl 0 s

/-- `for key, replacement in self.abbreviations: pattern = pattern.replace(key, replacement)` (`pattern.py:478-479`, `483-484`). -/
def expandText (abbreviations : List (Str × Str)) (s : Str) : Str := abbreviations.foldl (fun s a => pyReplace a.1 a.2 s) s

/-- A dict given as a regular expression: the keys `pattern` and `flags`, and whether there is another one. -/
structure ReDict where
  text : Option Str := none
  flags : Option Int := none
  other : Bool := false
  deriving DecidableEq

/-- An argument of `regex(...)`: a string, a dict (object), another iterable (a text and flags or not), a compiled expression. Simplification: the
items of an iterable are a string and possibly an integer. -/
inductive ReArg where
  | text (s : Str)
  | dict (a : Nat)
  | items (s : Str) (flags : Option Int)
  | compiled (r : Regex)

/-- The options of the pattern that are used here (`pattern.py:463-470`). `call` passes `flags=` to `re.compile`, with its other parameter it would clash
(`pattern=`, not an option). -/
structure ReOpts where
  abbreviations : List (Str × Str) := []
  flags : Option Int := none
  repeatedCaptures : Option Bool := none

/-- The abbreviations applied to a string (`pattern.py:477-479`). -/
def ReOpts.expandString (o : ReOpts) (s : Str) : Str := if s.isEmpty then s else expandText o.abbreviations s

/-- The abbreviations applied to a dict (`pattern.py:482-484`): its contents change. -/
def ReOpts.expandDict (o : ReOpts) (d : ReDict) : ReDict := { d with text := d.text.map (expandText o.abbreviations) }

/-- `re.compile(**d)` (`pattern.py:485`). -/
def compileDict (engine : Str → Int → Except PyErr Regex) (d : ReDict) : Except PyErr Regex :=
  match d.other, d.text with
  | false, some s => engine s (d.flags.getD 0)
  | _, _ => .error .typeError

/-- One iteration of the loop over the arguments (`pattern.py:475-488`). -/
def compileArg (engine : Str → Int → Except PyErr Regex) (o : ReOpts) (h : List ReDict) : ReArg → List ReDict × Except PyErr Regex
  | .text s => (h, engine (o.expandString s) (o.flags.getD 0))
  | .dict a =>
    let h := h.modify a o.expandDict
    (h, compileDict engine (h.getD a {}))
  | .items s flags => (h, engine s (flags.getD 0))
  | .compiled r => (h, .ok r)

/-- The loop (`pattern.py:474-488`). -/
def compileArgs (engine : Str → Int → Except PyErr Regex) (o : ReOpts) : List ReDict → List ReArg → List ReDict × Except PyErr (List Regex)
  | h, [] => (h, .ok [])
  | h, a :: as =>
    match compileArg engine o h a with
    | (h, .error e) => (h, .error e)
    | (h, .ok r) =>
      match compileArgs engine o h as with
      | (h, .error e) => (h, .error e)
      | (h, .ok rs) => (h, .ok (r :: rs))

/-- `self.repeated_captures` (`pattern.py:464-468`): the value, or `NotImplementedError` (a `RuntimeError`). -/
def ReOpts.captures (o : ReOpts) (regexEnabled : Bool) : Except PyErr Bool :=
  let c := o.repeatedCaptures.getD regexEnabled
  if c && !regexEnabled then .error .runtimeError else .ok c

/-- `RePattern.__init__` (`pattern.py:462-488`) as far as the expressions go: `repeated_captures` and the compiled expressions. -/
def initRegexes (engine : Str → Int → Except PyErr Regex) (regexEnabled : Bool) (o : ReOpts) (h : List ReDict) (args : List ReArg) :
    List ReDict × Except PyErr (Bool × List Regex) :=
  match o.captures regexEnabled with
  | .error e => (h, .error e)
  | .ok c =>
    match compileArgs engine o h args with
    | (h, .error e) => (h, .error e)
    | (h, .ok rs) => (h, .ok (c, rs))

end Rebulk
