import Verif.Model.MatchOps
import Verif.Model.Utils
/-!
# `rebulk/pattern.py`: patterns

A match object with its children is an `MTree`; processing a match returns the tree with the changed fields. Parents are snapshots
(`Match.ancestors`), refreshed in the children when the parent changes. User functions (validators, formatters, processors,
functional patterns) and the regular expression engine are parameters; they are total functions of the match they are given (`Model/Raising.lean`
models user functions that raise, and `C97` carries the results over).
-/
namespace Rebulk

/-! ## Options -/

/-- A user supplied option that may be given per name: absent (`None`), a single object, or a dict. -/
inductive DictArg (α : Type) where
  | absent
  | one (a : α)
  | dict (d : Dict (Option String) α)

/-- `ensure_dict` (`loose.py:118-139`); `truthy` is the truthiness of a single object. -/
def ensureDict {α : Type} (truthy : α → Bool) (param : DictArg α) (default : α) : Dict (Option String) α × α :=
  match param with
  | .absent => ([(none, default)], default)
  | .dict [] => ([(none, default)], default)
  | .one a => if truthy a then ([(none, a)], a) else ([(none, default)], default)
  | .dict d => (d, default)

/-- `get_first_defined` (`utils.py:66-85`). -/
def getFirstDefined {κ α : Type} [BEq κ] (data : Dict κ α) (keys : List κ) (default : α) : α :=
  match keys with
  | [] => default
  | k :: ks => match data.get? k with | some v => v | none => getFirstDefined data ks default

/-- A formatter (`None` is allowed). -/
abbrev Formatter := Option (Val → Val)
/-- A validator (`None` is allowed); it sees the match and its children. -/
abbrev Validator := Option (MTree → Bool)

/-- What a match processor may return: `None`, another falsy object than a match (`False`, `0`…), or a match. -/
inductive ProcRet where
  | none
  | falsy
  | tree (t : MTree)

/-- The keyword arguments of `Match` that pass `filter_match_kwargs` (`pattern.py:587-606`). -/
structure MatchOpts where
  name : Option String := none
  /-- after `ensure_list` (`loose.py:102-115`, `pattern.py:130`): no list for a falsy argument, a list of one for a single string -/
  tags : List String := []
  marker : Bool := false
  priv : Bool := false
  solver : Option Nat := none

/-- The keyword arguments of a pattern (`pattern.py:57-81`) that matter for its matches. -/
structure PatternOpts where
  opts : MatchOpts := {}
  formatter : DictArg Formatter := .absent
  value : DictArg Val := .absent
  validator : DictArg Validator := .absent
  children : Bool := false
  every : Bool := false
  privateParent : Bool := false
  privateChildren : Bool := false
  privateNames : List String := []
  ignoreNames : List String := []
  formatAll : Bool := false
  validateAll : Bool := false
  preMatch : Option (MTree → ProcRet) := none
  postMatch : Option (MTree → ProcRet) := none
  postProcessor : Option (List MTree → List MTree) := none

/-- The attributes of a pattern (`pattern.py:129-154`). `id` is the identity of the pattern object. -/
structure Pattern where
  id : Nat := 0
  opts : MatchOpts
  formatters : Dict (Option String) Formatter
  defaultFormatter : Formatter
  values : Dict (Option String) Val
  defaultValue : Val
  validators : Dict (Option String) Validator
  defaultValidator : Validator
  children : Bool
  every : Bool
  privateParent : Bool
  privateChildren : Bool
  privateNames : List String
  ignoreNames : List String
  formatAll : Bool
  validateAll : Bool
  preMatch : Option (MTree → ProcRet)
  postMatch : Option (MTree → ProcRet)
  postProcessor : Option (List MTree → List MTree)

/-- `Pattern.__init__` (`pattern.py:129-154`, `_callable_or_none` `23-25`; the defaults are `default_formatter`, `formatters.py:33-39`, and `allways_true`, `validators.py:81-87`). -/
def Pattern.init (id : Nat) (o : PatternOpts) : Pattern :=
  { id := id, opts := o.opts
    formatters := (ensureDict Option.isSome o.formatter (some (fun v => v))).1
    defaultFormatter := (ensureDict Option.isSome o.formatter (some (fun v => v))).2
    values := (ensureDict Val.truthy o.value .none).1
    defaultValue := (ensureDict Val.truthy o.value .none).2
    validators := (ensureDict Option.isSome o.validator (some (fun _ => true))).1
    defaultValidator := (ensureDict Option.isSome o.validator (some (fun _ => true))).2
    children := o.children, every := o.every
    privateParent := o.privateParent, privateChildren := o.privateChildren
    privateNames := o.privateNames, ignoreNames := o.ignoreNames
    formatAll := o.formatAll, validateAll := o.validateAll
    preMatch := o.preMatch, postMatch := o.postMatch, postProcessor := o.postProcessor }

/-! ## Processing -/

namespace Pattern

/-- `_should_include_children` (`pattern.py:210-219`). -/
def shouldIncludeChildren (p : Pattern) : Bool := p.children || p.every
/-- `_should_include_parent` (`pattern.py:221-230`). -/
def shouldIncludeParent (p : Pattern) : Bool := !p.children || p.every

/-- `_match_config_property_keys` (`pattern.py:232-240`). -/
def configKeys (m : Match) (child : Bool) : List (Option String) :=
  (match m.nameKey with | some n => [some n] | none => []) ++ [some (if child then "__children__" else "__parent__"), none]

/-- `_process_match_index` (`pattern.py:242-250`). -/
def processIndex (idx : Nat) (m : Match) : Match := { m with matchIndex := idx }

/-- `name in names`, false when there is no name. -/
def nameIn (name : Option String) (names : List String) : Bool :=
  match name with | some n => names.contains n | none => false

/-- `_process_match_private` (`pattern.py:252-266`). -/
def processPrivate (p : Pattern) (child : Bool) (m : Match) : Match :=
  if nameIn m.nameKey p.privateNames || (!child && p.privateParent) || (child && p.privateChildren)
  then { m with priv := true } else m

/-- `_process_match_value` (`pattern.py:268-277`). -/
def processValue (p : Pattern) (child : Bool) (m : Match) : Match :=
  let v := getFirstDefined p.values (configKeys m child) p.defaultValue
  if v.truthy then { m with lit := v } else m

/-- `_process_match_formatter` (`pattern.py:279-289`). -/
def processFormatter (p : Pattern) (child : Bool) (m : Match) : Match :=
  let included := if child then p.shouldIncludeChildren else p.shouldIncludeParent
  if included || p.formatAll then { m with formatter := getFirstDefined p.formatters (configKeys m child) p.defaultFormatter } else m

/-- `_process_match_validator` (`pattern.py:291-304`). -/
def processValidator (p : Pattern) (child : Bool) (t : MTree) : Bool :=
  let included := if child then p.shouldIncludeChildren else p.shouldIncludeParent
  if included || p.validateAll then
    match getFirstDefined p.validators (configKeys t.root child) p.defaultValidator with
    | some v => v t
    | none => true
  else true

end Pattern

/-- The parent chain `l` of a match after the match with snapshots `old` (itself and its parents) has become `new`. Simplification: a
parent is recognised by its snapshots, not by its identity. -/
def rebase (old new l : List Core) : List Core :=
  if old.isSuffixOf l then l.take (l.length - old.length) ++ new else l

mutual
/-- A match above the tree has changed: refresh the snapshots. -/
def MTree.relink (old new : List Core) : MTree → MTree
  | .node m cs => .node { m with ancestors := rebase old new m.ancestors } (MTree.relinkList old new cs)
/-- Same for a list. -/
def MTree.relinkList (old new : List Core) : List MTree → List MTree
  | [] => []
  | t :: ts => MTree.relink old new t :: MTree.relinkList old new ts
end

/-- Change the fields of the match at the root; its descendants see the new parent. -/
def MTree.setRoot (t : MTree) (m : Match) : MTree :=
  .node m (MTree.relinkList (t.root.core :: t.root.ancestors) (m.core :: m.ancestors) t.children)

namespace Pattern

/-- The fields set by `_process_match` before the validator is called (`pattern.py:316-319`). -/
def configure (p : Pattern) (idx : Nat) (child : Bool) (m : Match) : Match :=
  p.processFormatter child (p.processValue child (p.processPrivate child (processIndex idx m)))

/-- `_process_match` (`pattern.py:306-320`). -/
def processMatch (p : Pattern) (idx : Nat) (child : Bool) (t : MTree) : MTree × Bool :=
  let t := t.setRoot (p.configure idx child t.root)
  (t, p.processValidator child t)

/-- `_process_match_processor` (`pattern.py:322-328`); `none` is a falsy result that is not a match. -/
def processProcessor (processor : Option (MTree → ProcRet)) (t : MTree) : Option MTree :=
  match processor with
  | some f => match f t with | .tree r => some r | .falsy => none | .none => some t
  | none => some t

/-- `if not match: return` (`pattern.py:338`, `349`) after a processor. -/
def keepGoing (t : Option MTree) : Except PyErr (Option MTree) :=
  match t with
  | none => .ok none
  | some t => match t.root.truthy? with
    | .error e => .error e
    | .ok false => .ok none
    | .ok true => .ok (some t)

/-- `for child in match.children` (`pattern.py:344-346`); `none` when a child is rejected. `proc` is `_process_match`, which `Chain`
overrides. -/
def processChildren (proc : Nat → Bool → MTree → MTree × Bool) (idx : Nat) : List MTree → Option (List MTree)
  | [] => some []
  | c :: cs =>
    match proc idx true c with
    | (_, false) => none
    | (c, true) => (processChildren proc idx cs).map (c :: ·)

/-- Whether the name of the match is in `ignore_names`. -/
def ignored (p : Pattern) (m : Match) : Bool := nameIn m.name p.ignoreNames

/-- The matches yielded once everything is validated (`pattern.py:352-356`). -/
def emitted (p : Pattern) (t : MTree) : List MTree :=
  (if (p.shouldIncludeParent || p.privateParent) && !p.ignored t.root then [t] else []) ++
  (if p.shouldIncludeChildren || p.privateChildren then t.children.filter (fun c => !p.ignored c.root) else [])

/-- `_process_matches` (`pattern.py:330-356`). `proc` is `_process_match`, which `Chain` overrides. -/
def processMatchesWith (p : Pattern) (proc : Nat → Bool → MTree → MTree × Bool) (idx : Nat) (t : MTree) :
    Except PyErr (List MTree) :=
  match keepGoing (processProcessor p.preMatch t) with
  | .error e => .error e
  | .ok none => .ok []
  | .ok (some t) =>
    match proc idx false t with
    | (_, false) => .ok []
    | (t, true) =>
      match processChildren proc idx t.children with
      | none => .ok []
      | some cs =>
        match keepGoing (processProcessor p.postMatch (.node t.root cs)) with
        | .error e => .error e
        | .ok none => .ok []
        | .ok (some t) => .ok (p.emitted t)

/-- `_process_matches` (`pattern.py:330-356`) of a pattern that is not a chain. -/
def processMatches (p : Pattern) (idx : Nat) (t : MTree) : Except PyErr (List MTree) :=
  p.processMatchesWith p.processMatch idx t

/-- `enumerate(raws)` and `matches.extend(self._process_matches(match, match_index))` (`pattern.py:200-202`), from index `i`. -/
def processRaws (process : Nat → MTree → Except PyErr (List MTree)) : Nat → List MTree → Except PyErr (List MTree)
  | _, [] => .ok []
  | i, t :: ts =>
    match process i t with
    | .error e => .error e
    | .ok l => match processRaws process (i + 1) ts with
      | .error e => .error e
      | .ok r => .ok (l ++ r)

/-- The loop over the sub-patterns (`pattern.py:199-202`), given the raw matches of each. -/
def processAll (process : Nat → MTree → Except PyErr (List MTree)) : List (List MTree) → Except PyErr (List MTree)
  | [] => .ok []
  | raws :: rest =>
    match processRaws process 0 raws with
    | .error e => .error e
    | .ok l => match processAll process rest with
      | .error e => .error e
      | .ok r => .ok (l ++ r)

/-- `_post_process_matches` (`pattern.py:358-369`). -/
def postProcess (p : Pattern) (l : List MTree) : List MTree :=
  match p.postProcessor with | some f => f l | none => l

/-- `Pattern.matches` (`pattern.py:177-208`) given the raw matches of each sub-pattern. -/
def matchesOf (p : Pattern) (raws : List (List MTree)) : Except PyErr (List MTree) :=
  match processAll p.processMatches raws with
  | .error e => .error e
  | .ok l => .ok (p.postProcess l)

/-! ## Raw matches -/

/-- `Match(start, end, pattern=self, input_string=input_string, **self._match_kwargs)`. -/
def newMatch (p : Pattern) (input : Str) (start stop : Int) : Match :=
  { start := start, stop := stop, name := p.opts.name, tags := p.opts.tags, marker := p.opts.marker, priv := p.opts.priv,
    solver := p.opts.solver, pattern := some p.id, inputString := some input }

end Pattern

/-- The options of a string pattern that `find_all` reads (`pattern.py:452`). -/
structure StringOpts where
  start : Option Int := none
  stop : Option Int := none
  ignoreCase : Bool := false

/-- `StringPattern._match` (`pattern.py:451-455`). The `find_all` loop is given more iterations than it needs when it ends at all
(`C32_find_all`). -/
def Pattern.matchString (p : Pattern) (lower : Str → Str) (o : StringOpts) (input sub : Str) : Except PyErr (List MTree) :=
  match findAll lower ((if o.ignoreCase then lower input else input).length + 2) input sub o.start o.stop o.ignoreCase with
  | none => .error .diverges
  | some l => .ok ((l.map (fun (i : Nat) => MTree.node (p.newMatch input i (i + sub.length)) [])).filter
      (fun t => decide (t.root.len ≠ 0)))

/-- A group of a regular expression match object: `match.span(i)` and, with the `regex` module, `match.spans(i)`. -/
structure ReGroup where
  span : Int × Int
  spans : List (Int × Int)

/-- A match object. -/
structure ReObj where
  start : Int
  stop : Int
  groups : List ReGroup

/-- A compiled regular expression: the names of the groups `1..n` and `finditer`. -/
structure Regex where
  names : List (Option String)
  finditer : Str → List ReObj

/-- The spans of a group (`pattern.py:512-516`). -/
def ReGroup.used (g : ReGroup) (repeatedCaptures : Bool) : List (Int × Int) :=
  if repeatedCaptures then g.spans else if g.span.1 > -1 && g.span.2 > -1 then [g.span] else []

/-- A child match (`pattern.py:518-526`): the pattern's options except its name. -/
def Pattern.newChild (p : Pattern) (input : Str) (main : Match) (name : Option String) (sp : Int × Int) : Match :=
  { p.newMatch input sp.1 sp.2 with name := name, ancestors := main.core :: main.ancestors }

/-- The children of a match object (`pattern.py:509-528`): group `i` with its name (the pattern's one by default). -/
def Pattern.reChildren (p : Pattern) (repeatedCaptures : Bool) (input : Str) (main : Match) :
    List (Option String) → List ReGroup → List Match
  | n :: ns, g :: gs =>
    ((g.used repeatedCaptures).map (p.newChild input main (n.or main.name))).filter
      (fun c => decide (c.len ≠ 0)) ++ p.reChildren repeatedCaptures input main ns gs
  | _, _ => []

/-- One match object (`pattern.py:504-531`). `Matches.append` refuses a marker (`match.py:994`). -/
def Pattern.reMatch (p : Pattern) (repeatedCaptures : Bool) (names : List (Option String)) (input : Str) (o : ReObj) :
    Except PyErr (List MTree) :=
  let main := p.newMatch input o.start o.stop
  let cs := p.reChildren repeatedCaptures input main names o.groups
  if cs.any (fun c => c.marker) then .error .assertionError
  else .ok (if main.len ≠ 0 then [.node main (cs.map (fun c => .node c []))] else [])

/-- `RePattern._match` (`pattern.py:502-531`). -/
def Pattern.matchRegex (p : Pattern) (repeatedCaptures : Bool) (re : Regex) (input : Str) : Except PyErr (List MTree) :=
  let rec go : List ReObj → Except PyErr (List MTree)
    | [] => .ok []
    | o :: os =>
      match p.reMatch repeatedCaptures re.names input o with
      | .error e => .error e
      | .ok l => match go os with
        | .error e => .error e
        | .ok r => .ok (l ++ r)
  go (re.finditer input)

/-! ### Functional patterns -/

/-- Explicit options of a match returned by a functional pattern; `none` means not given. -/
structure MatchArgs where
  start : Option Int := none
  stop : Option Int := none
  value : Option Val := none
  name : Option (Option String) := none
  tags : Option (List String) := none
  marker : Option Bool := none
  priv : Option Bool := none
  formatter : Option Formatter := none
  solver : Option (Option Nat) := none

/-- What a functional pattern may return: `None`, a plain value, a dict of options, a list or tuple, or a generator (an iterable
without `__getitem__`). -/
inductive FRet where
  | none
  | val (v : Val)
  | dict (d : MatchArgs)
  | seq (l : List FRet)
  | gen (l : List FRet)

/-- `isinstance(x, int)` (`bool` is a subclass of `int`). -/
def FRet.isInt : FRet → Bool
  | .val (.int _) => true
  | .val (.bool _) => true
  | _ => false

/-- Truthiness. Simplification: a dict of options is taken to be non-empty. -/
def FRet.truthy : FRet → Bool
  | .none => false
  | .val v => v.truthy
  | .dict _ => true
  | .seq l => !l.isEmpty
  | .gen _ => true

/-- The list of arguments (`pattern.py:555-564`). -/
def FRet.argsIterable (r : FRet) : List FRet :=
  if !r.truthy then []
  else match r with
    | .seq (x :: l) => if x.isInt then [r] else x :: l
    | .gen l => l
    | _ => [r]

/-- The start or end position given positionally (`bool` is a subclass of `int`: `True` is the position 1). -/
def FRet.pos? : FRet → Option Int
  | .val (.int i) => Option.some i
  | .val (.bool b) => Option.some (if b then 1 else 0)
  | _ => Option.none

/-- A value given positionally. Simplification: dicts, lists and generators as values are written `.val`. -/
def FRet.value? : FRet → Option Val
  | .val v => Option.some v
  | .none => Option.some .none
  | _ => Option.none

/-- A name given positionally. -/
def FRet.name? : FRet → Option (Option String)
  | .none => Option.some Option.none
  | .val .none => Option.some Option.none
  | .val (.str s) => Option.some (Option.some (String.ofList s))
  | _ => Option.none

/-- The fourth positional argument of `Match` (`match.py:1021`): a name also given by keyword, be it by the pattern (`named`), is a
`TypeError`. Simplification: more positional arguments are not modelled (`TypeError` here). -/
def FRet.nameArg (named : Bool) (a : MatchArgs) : List FRet → Except PyErr MatchArgs
  | [] => .ok a
  | [x] => match x.name? with
    | .some n => if named || a.name.isSome then .error .typeError else .ok { a with name := some n }
    | .none => .error .typeError
  | _ => .error .typeError

/-- The third positional argument and the rest (`match.py:1020`); `value` of the pattern is filtered out (`pattern.py:599`). -/
def FRet.valueArg (named : Bool) (a : MatchArgs) : List FRet → Except PyErr MatchArgs
  | [] => .ok a
  | x :: rest => match x.value? with
    | .some v => if a.value.isSome then .error .typeError else FRet.nameArg named { a with value := some v } rest
    | .none => .error .typeError

/-- The second positional argument and the rest (`match.py:1019`). -/
def FRet.stopArg (named : Bool) (a : MatchArgs) : List FRet → Except PyErr MatchArgs
  | [] => .ok a
  | x :: rest => match x.pos? with
    | .some i => if a.stop.isSome then .error .typeError else FRet.valueArg named { a with stop := some i } rest
    | .none => .error .typeError

/-- The first positional argument and the rest (`match.py:1018`). An argument given twice is a `TypeError`. -/
def FRet.startArg (named : Bool) (a : MatchArgs) : List FRet → Except PyErr MatchArgs
  | [] => .ok a
  | x :: rest => match x.pos? with
    | .some i => if a.start.isSome then .error .typeError else FRet.stopArg named { a with start := some i } rest
    | .none => .error .typeError

/-- Positional arguments followed by an optional dict of options (`pattern.py:577-582`). -/
def FRet.seqArgs (named : Bool) (l : List FRet) : Except PyErr MatchArgs :=
  match l.getLast? with
  | some (.dict d) => FRet.startArg named d l.dropLast
  | _ => FRet.startArg named {} l

/-- The explicit options of one result (`pattern.py:566-582`); `named` says whether the pattern has a name. -/
def FRet.matchArgs (named : Bool) : FRet → Except PyErr MatchArgs
  | .dict d => .ok d
  | .seq l => if l.isEmpty then .error .indexError else FRet.seqArgs named l
  | _ => .error .typeError

/-- `Match(pattern=self, input_string=input_string, **options)`: explicit options override those of the pattern. -/
def Pattern.matchWithArgs (p : Pattern) (input : Str) (a : MatchArgs) : Except PyErr Match :=
  match a.start, a.stop with
  | some start, some stop =>
    .ok { start := start, stop := stop, name := a.name.getD p.opts.name, tags := a.tags.getD p.opts.tags,
          marker := a.marker.getD p.opts.marker, priv := a.priv.getD p.opts.priv, solver := a.solver.getD p.opts.solver,
          lit := a.value.getD .none, formatter := a.formatter.getD none, pattern := some p.id, inputString := some input }
  | _, _ => .error .typeError

/-- The loop over the results (`pattern.py:565-584`). -/
def Pattern.functionalLoop (p : Pattern) (input : Str) : List FRet → Except PyErr (List MTree)
  | [] => .ok []
  | r :: rs =>
    match r.matchArgs p.opts.name.isSome with
    | .error e => .error e
    | .ok a =>
      match p.matchWithArgs input a with
      | .error e => .error e
      | .ok m =>
        match m.truthy? with
        | .error e => .error e
        | .ok t =>
          match p.functionalLoop input rs with
          | .error e => .error e
          | .ok l => .ok (if t then .node m [] :: l else l)

/-- `FunctionalPattern._match` (`pattern.py:553-584`); `f` is the user function with the arguments `call` passes on. -/
def Pattern.matchFunctional (p : Pattern) (f : Str → FRet) (input : Str) : Except PyErr (List MTree) :=
  p.functionalLoop input (f input).argsIterable

/-! ## Complete patterns -/

/-- Collect the raw matches of the sub-patterns. Simplification: in Python the processing of the first matches precedes the search
of the next ones; this only matters for which of several exceptions is raised. -/
def collectRaws : List (Except PyErr (List MTree)) → Except PyErr (List (List MTree))
  | [] => .ok []
  | .error e :: _ => .error e
  | .ok l :: rest => match collectRaws rest with
    | .error e => .error e
    | .ok r => .ok (l :: r)

/-- `Pattern.matches` (`pattern.py:177-208`) from the results of `_match` on each sub-pattern. -/
def Pattern.run (p : Pattern) (raws : List (Except PyErr (List MTree))) : Except PyErr (List MTree) :=
  match collectRaws raws with
  | .error e => .error e
  | .ok l => p.matchesOf l

/-- `StringPattern(*strings, **kwargs).matches(input)`. -/
def Pattern.runString (p : Pattern) (lower : Str → Str) (o : StringOpts) (strings : List Str) (input : Str) :
    Except PyErr (List MTree) := p.run (strings.map (p.matchString lower o input))

/-- `RePattern(*regexes, **kwargs).matches(input)`. -/
def Pattern.runRegex (p : Pattern) (repeatedCaptures : Bool) (regexes : List Regex) (input : Str) :
    Except PyErr (List MTree) := p.run (regexes.map (fun re => p.matchRegex repeatedCaptures re input))

/-- `FunctionalPattern(*functions, **kwargs).matches(input)`. -/
def Pattern.runFunctional (p : Pattern) (functions : List (Str → FRet)) (input : Str) :
    Except PyErr (List MTree) := p.run (functions.map (fun f => p.matchFunctional f input))

end Rebulk
