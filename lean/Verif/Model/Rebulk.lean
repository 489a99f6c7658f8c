import Verif.Model.Chain
import Verif.Model.Processors
import Verif.Model.Project
/-!
# `rebulk/rebulk.py`: the `Rebulk` object

Patterns are objects compared by identity (`Pattern.id`), rules are compared by class. `Ctx` is the type of contexts; the user functions of
patterns are those for the context at hand. `disabled` functions are pure. Logging is not modelled.
-/
namespace Rebulk

/-- The attributes of a pattern that do not matter for its matches (`pattern.py:145-150`, `382-390`). A `properties` value is taken to be a list. -/
structure PatternInfo (Ctx : Type) where
  disabled : Ctx → Bool := fun _ => false
  properties : Dict String (List Val) := []

mutual
/-- A pattern object: `StringPattern` (`pattern.py:432-455`), `RePattern` (`458-531`), `FunctionalPattern` (`534-584`) or `Chain` (`chain.py:28-50`). -/
inductive PatternObj (Ctx : Type) where
  | string (info : PatternInfo Ctx) (p : Pattern) (o : StringOpts) (strings : List Str)
  | regex (info : PatternInfo Ctx) (p : Pattern) (repeatedCaptures : Bool) (regexes : List Regex)
  | functional (info : PatternInfo Ctx) (p : Pattern) (functions : List (Str → FRet))
  | chain (info : PatternInfo Ctx) (p : Pattern) (breaker : Option (List MTree → Bool)) (parts : PartObjs Ctx)
/-- The parts of a chain (`chain.py:219-229`). -/
inductive PartObjs (Ctx : Type) where
  | nil
  | cons (pattern : PatternObj Ctx) (start : Int) (stop : Option Int) (hidden : Bool) (rest : PartObjs Ctx)
end

namespace PatternObj
variable {Ctx : Type}

/-- The attributes shared by all patterns. -/
def base : PatternObj Ctx → Pattern
  | string _ p _ _ => p
  | regex _ p _ _ => p
  | functional _ p _ => p
  | chain _ p _ _ => p

/-- Same. -/
def info : PatternObj Ctx → PatternInfo Ctx
  | string i _ _ _ => i
  | regex i _ _ _ => i
  | functional i _ _ => i
  | chain i _ _ _ => i

/-- The identity of the object. -/
def id (p : PatternObj Ctx) : Nat := p.base.id

/-- Truthy `pattern.name`. -/
def nameKey (p : PatternObj Ctx) : Option String :=
  match p.base.opts.name with
  | none => none
  | some n => if n.isEmpty then none else some n

mutual
/-- `pattern.matches(input, context, with_raw_matches=True)` (`pattern.py:177-208`). `lower` is `str.lower`. -/
def run (lower : Str → Str) : PatternObj Ctx → Str → Except PyErr (List MTree × List MTree)
  | .string _ p o strings, input => p.partOfString lower o strings input
  | .regex _ p rc regexes, input => p.partOfRegex rc regexes input
  | .functional _ p fs, input =>
    match collectRaws (fs.map (fun f => p.matchFunctional f input)) with
    | .error e => .error e
    | .ok raws => p.matchesWithRaws p.processMatch raws
  | .chain _ p breaker parts, input => Chain.run { pattern := p, parts := runParts lower parts, breaker := breaker } input
/-- The parts of a chain as `Chain._match` sees them. -/
def runParts (lower : Str → Str) : PartObjs Ctx → List Part
  | .nil => []
  | .cons p start stop hidden rest => { search := run lower p, start := start, stop := stop, hidden := hidden } :: runParts lower rest
end

/-- `pattern.matches(input, context)`. -/
def matches_ (lower : Str → Str) (p : PatternObj Ctx) (input : Str) : Except PyErr (List MTree) :=
  match p.run lower input with
  | .error e => .error e
  | .ok (ms, _) => .ok ms

end PatternObj

/-- A rule object: what the engine reads, and its `properties` (`rules.py:75`). -/
structure RuleObj where
  info : RuleInfo
  properties : Dict String (List Val) := []

/-- `ConflictSolver` (`processors.py:45-52`); classes 0 and 1 are the two default rules. -/
def conflictSolverRule (id : Nat) : RuleObj := { info := { id := id, cls := 0, priority := 2048 } }
/-- `PrivateRemover` (`processors.py:110-117`). -/
def privateRemoverRule (id : Nat) : RuleObj := { info := { id := id, cls := 1, priority := -2048 } }

/-- A `Rebulk` object (`rebulk.py:95-104`). -/
structure RebulkObj (Ctx : Type) where
  disabled : Ctx → Bool := fun _ => false
  patterns : List (PatternObj Ctx) := []
  rules : List RuleObj := []
  keys : Dict String Key := []
  children : List (RebulkObj Ctx) := []

namespace RebulkObj
variable {Ctx : Type}

/-- The loop of `effective_patterns` (`rebulk.py:261-263`). -/
def addPatterns (ctx : Ctx) : List (RebulkObj Ctx) → List (PatternObj Ctx) → List (PatternObj Ctx)
  | [], acc => acc
  | c :: cs, acc =>
    if !c.disabled ctx then addPatterns ctx cs (extendSafe (fun a b => a.id == b.id) (fun _ => true) false acc c.patterns)
    else addPatterns ctx cs acc

/-- `effective_patterns` (`rebulk.py:252-264`). -/
def effectivePatterns (r : RebulkObj Ctx) (ctx : Ctx) : List (PatternObj Ctx) := addPatterns ctx r.children r.patterns

/-- The loop of `effective_rules` (`rebulk.py:177-179`): rules are equal when their classes are (`rules.py:103-107`). -/
def addRules (ctx : Ctx) : List (RebulkObj Ctx) → List RuleObj → List RuleObj
  | [], acc => acc
  | c :: cs, acc =>
    if !c.disabled ctx then addRules ctx cs (extendSafe (fun a b => a.info.cls == b.info.cls) (fun _ => true) false acc c.rules)
    else addRules ctx cs acc

/-- `effective_rules` (`rebulk.py:167-180`). -/
def effectiveRules (r : RebulkObj Ctx) (ctx : Ctx) : List RuleObj := addRules ctx r.children r.rules

/-- `for name, key in rebulk._keys.items(): keys.setdefault(name, key)` (`rebulk.py:196-197`, `227-228`). -/
def mergeKeys (acc d : Dict String Key) : Dict String Key := d.foldl (fun acc nk => acc.setDefault nk.1 nk.2) acc

/-- The loop of `effective_keys` (`rebulk.py:194-197`). -/
def addKeys (ctx : Ctx) : List (RebulkObj Ctx) → Dict String Key → Dict String Key
  | [], acc => acc
  | c :: cs, acc => if !c.disabled ctx then addKeys ctx cs (mergeKeys acc c.keys) else addKeys ctx cs acc

/-- `effective_keys` (`rebulk.py:182-198`). -/
def effectiveKeys (r : RebulkObj Ctx) (ctx : Ctx) : Dict String Key := addKeys ctx r.children r.keys

end RebulkObj

/-! ## `matches` -/

/-- A `Matches` object with what hangs on it: its markers and declared keys (`match.py:106-109`, `989-991`). -/
structure Found where
  found : Matches
  markers : Matches
  keys : Dict String Key := []

/-- `Matches(input_string=string)` (`rebulk.py:148`). -/
def Found.empty (input : Str) : Found := { found := .empty false (some input), markers := .empty true (some input) }

/-- One match of a pattern goes to the markers or to the matches (`rebulk.py:284-289`). Objects are numbered in the order they are
added; simplification: a pattern whose post processor returns an object twice is taken to return two objects. -/
def Found.add (f : Found) (t : MTree) : Found × Option PyErr :=
  let m := { t.root with id := f.found.length + f.markers.length }
  if m.marker then ({ f with markers := (f.markers.append m).1 }, (f.markers.append m).2)
  else ({ f with found := (f.found.append m).1 }, (f.found.append m).2)

/-- `for match in pattern_matches` (`rebulk.py:283`). -/
def Found.addAll : List MTree → Found → Except PyErr Found
  | [], f => .ok f
  | t :: ts, f => match f.add t with
    | (_, some e) => .error e
    | (f, none) => Found.addAll ts f

/-- The loop over the patterns (`rebulk.py:278-291`). -/
def searchPatterns {Ctx : Type} (lower : Str → Str) (ctx : Ctx) (input : Str) : List (PatternObj Ctx) → Found → Except PyErr Found
  | [], f => .ok f
  | p :: ps, f =>
    if !p.info.disabled ctx then
      match p.matches_ lower input with
      | .error e => .error e
      | .ok ts => match Found.addAll ts f with
        | .error e => .error e
        | .ok f => searchPatterns lower ctx input ps f
    else searchPatterns lower ctx input ps f

/-- What is around: `str.lower`, `debug.CHECK_DECLARED_KEYS`, `isinstance`, the user code of rules and the truthiness of their answers. -/
structure Env (ρ : Type) where
  lower : Str → Str
  checkKeys : Bool := false
  isinstance : Val → Nat → Bool
  truthy : ρ → Bool
  rule : RuleRef → Behaviour Found ρ

namespace RebulkObj
variable {Ctx ρ : Type}

/-- `_matches_patterns` (`rebulk.py:266-291`). -/
def matchesPatterns (env : Env ρ) (r : RebulkObj Ctx) (input : Str) (ctx : Ctx) (f : Found) : Except PyErr Found :=
  if !r.disabled ctx then searchPatterns env.lower ctx input (r.effectivePatterns ctx) f else .ok f

/-- `_execute_rules` (`rebulk.py:238-250`). -/
def executeRules (env : Env ρ) (r : RebulkObj Ctx) (ctx : Ctx) (f : Found) : Except PyErr Found :=
  if !r.disabled ctx then
    let x := executeAll env.truthy env.rule ((r.effectiveRules ctx).map RuleObj.info) f
    match x.err with | some e => .error e | none => .ok x.state
  else .ok f

/-- `if debug.CHECK_DECLARED_KEYS: matches.check_declared_keys()` (`rebulk.py:160-161`). -/
def checkFound (env : Env ρ) (f : Found) : Option PyErr :=
  if env.checkKeys then checkDeclaredKeys env.isinstance f.keys f.found.delegate else none

/-- `Rebulk.matches` (`rebulk.py:138-165`). -/
def matches_ (env : Env ρ) (r : RebulkObj Ctx) (input : Str) (ctx : Ctx) : Except PyErr Found :=
  let f := if !r.disabled ctx then { Found.empty input with keys := r.effectiveKeys ctx } else Found.empty input
  match r.matchesPatterns env input ctx f with
  | .error e => .error e
  | .ok f => match checkFound env f with
    | some e => .error e
    | none => r.executeRules env ctx f

end RebulkObj

/-! ## The default rules on a `Matches` object with its markers -/

/-- A rule that looks at and changes the matches only. -/
def onMatches {ρ : Type} (b : Behaviour Matches ρ) : Behaviour Found ρ where
  enabled := fun f => b.enabled f.found
  when_ := fun f => ({ f with found := (b.when_ f.found).1 }, (b.when_ f.found).2)
  then_ := fun f a => ({ f with found := (b.then_ f.found a).1 }, (b.then_ f.found a).2)

/-- The user code of the default rules: class 0 is `ConflictSolver`, the rest `PrivateRemover`. -/
def defaultRule (sv : Solvers) (order : List Match → List Match) (r : RuleRef) : Behaviour Found (List Match) :=
  if r.cls = 0 then onMatches (conflictRule sv order) else onMatches privateRule

/-! ## `check_keys` -/

/-- `compiled.groupindex` (`rebulk.py:46`): the names of the named groups. -/
def Regex.groupNames (re : Regex) : List String := re.names.filterMap (fun n => n)

namespace PatternObj
variable {Ctx : Type}

mutual
/-- `_producible_names` (`rebulk.py:30-50`): a set, here as a list. -/
def producible : PatternObj Ctx → List String
  | .string i p o ss => i.properties.keys ++ (nameKey (.string i p o ss)).toList
  | .regex i p rc res => i.properties.keys ++ (nameKey (.regex i p rc res)).toList ++ res.flatMap Regex.groupNames
  | .functional i p fs => i.properties.keys ++ (nameKey (.functional i p fs)).toList
  | .chain i p b parts => i.properties.keys ++ (nameKey (.chain i p b parts)).toList ++ producibleParts parts
/-- The names of the parts (`rebulk.py:48-49`). -/
def producibleParts : PartObjs Ctx → List String
  | .nil => []
  | .cons p _ _ _ rest => p.producible ++ producibleParts rest
end

end PatternObj

/-- `allowed_unused` (`rebulk.py:235`): a single name or an iterable of names. -/
inductive Allowed where
  | one (n : String)
  | many (l : List String)

/-- The set of allowed names. -/
def Allowed.names : Allowed → List String
  | .one n => [n]
  | .many l => l

namespace RebulkObj
variable {Ctx : Type}

/-- The loop of `check_keys` over the children, keys (`rebulk.py:226-228`). -/
def allKeys : List (RebulkObj Ctx) → Dict String Key → Dict String Key
  | [], acc => acc
  | c :: cs, acc => allKeys cs (mergeKeys acc c.keys)

/-- The loop of `check_keys` over the children, patterns (`rebulk.py:229`). -/
def allPatterns : List (RebulkObj Ctx) → List (PatternObj Ctx) → List (PatternObj Ctx)
  | [], acc => acc
  | c :: cs, acc => allPatterns cs (acc ++ c.patterns)

/-- `check_keys` (`rebulk.py:200-236`). -/
def checkKeys (r : RebulkObj Ctx) (allowed : Allowed := .many []) : List String :=
  let declared := allKeys r.children r.keys
  if declared.isEmpty then []
  else
    let produced := (allPatterns r.children r.patterns).flatMap PatternObj.producible
    pySorted (fun a b => decide (a < b)) (declared.keys.filter (fun n => !produced.contains n && !allowed.names.contains n))

end RebulkObj

/-! ## `introspector.py` -/

/-- Hashable values: lists are not. -/
def Val.hashable : Val → Bool
  | .list _ => false
  | _ => true

/-- A `defaultdict(list)` of properties; a name may be `None`. -/
abbrev Props := Dict (Option String) (List Val)

/-- `extend_safe(properties[key], values)` (`introspector.py:46`, `58-70`, `94`, `129`, `132`). -/
def Props.extendSafe (d : Props) (key : Option String) (values : List Val) : Props :=
  Dict.set d key (Rebulk.extendSafe (fun a b => decide (a = b)) Val.hashable false (d.getList key) values)

/-- A loop of such calls. -/
def Props.extendAll (d : Props) (l : List (Option String × List Val)) : Props := l.foldl (fun d kv => d.extendSafe kv.1 kv.2) d

/-- `pattern_values` (`introspector.py:51-55`). -/
def patternValues (name : Option String) (values : Dict (Option String) Val) : Dict (Option String) Val :=
  (values.filter (fun kv => decide (kv.2 ≠ .none))).foldl
    (fun d kv => d.set (match kv.1 with | some n => if n.isEmpty then name else some n | none => name) kv.2) []

/-- `if pattern.name and pattern.name not in pattern.private_names: extend_safe(self._properties[pattern.name], [None])`
(`introspector.py:62-63`, `69-70`). -/
def nameProps {Ctx : Type} (p : PatternObj Ctx) : Props :=
  match p.nameKey with
  | some n => if p.base.privateNames.contains n then [] else Props.extendAll [] [(some n, [.none])]
  | none => []

/-- `PatternDescription.properties` (`introspector.py:40-70`, `73-79`). -/
def describePattern {Ctx : Type} (p : PatternObj Ctx) : Props :=
  if !p.info.properties.isEmpty then Props.extendAll [] (p.info.properties.map (fun kv => (some kv.1, kv.2)))
  else if !(patternValues p.base.opts.name p.base.values).isEmpty then
    Props.extendAll [] ((patternValues p.base.opts.name p.base.values).map (fun kv => (kv.1, [kv.2])))
  else match p with
    | .string _ b _ strings => Props.extendAll [] [(b.opts.name, strings.map Val.str)]
    | .regex i b rc regexes =>
      if b.privateChildren then nameProps (.regex i b rc regexes)
      else Props.extendAll (nameProps (.regex i b rc regexes)) ((regexes.flatMap Regex.groupNames).filterMap
        (fun n => if b.privateNames.contains n then none else some (some n, [.none])))
    | .functional i b fs => nameProps (.functional i b fs)
    | .chain .. => []

/-- `RuleDescription.properties` (`introspector.py:87-94`, `97-103`). -/
def describeRule (r : RuleObj) : Props := Props.extendAll [] (r.properties.map (fun kv => (some kv.1, kv.2)))

/-- The `Introspection` object (`introspector.py:111-117`, `136-146`): the descriptions of patterns and of rules. -/
def introspect {Ctx : Type} (r : RebulkObj Ctx) (ctx : Ctx) : List Props × List Props :=
  (((r.effectivePatterns ctx).filter (fun p => !p.base.opts.priv && !p.base.opts.marker)).map describePattern,
   (r.effectiveRules ctx).map describeRule)

/-- `Introspection.properties` (`introspector.py:120-133`). -/
def introspectProperties {Ctx : Type} (r : RebulkObj Ctx) (ctx : Ctx) : Props :=
  ((introspect r ctx).1 ++ (introspect r ctx).2).foldl (fun d p => d.extendAll p) []

/-! ## `Rules.load` -/

/-- A member of a module, as `load_module` sees it (`rules.py:277-291`): whether its `__module__` is the module, and what calling it without
argument gives (a rule class makes a rule; a function or a plain object is called too). -/
structure Member where
  name : String
  own : Bool
  isRuleClass : Bool
  call : Except PyErr RuleObj

/-- The argument of `rules()`: a module with its members in alphabetical order, a class, or an object. -/
inductive RuleArg where
  | module_ (members : List Member)
  | class_ (make : Except PyErr RuleObj)
  | object (r : RuleObj)

/-- `load_module` (`rules.py:277-291`): the predicate returns the function `inspect.isclass`, which is truthy, instead of calling it. The
rules loaded, and the exception if there is one: `load_class` (`rules.py:293-302`) appends what the call returns. -/
def loadModule : List Member → List RuleObj → List RuleObj × Option PyErr
  | [], acc => (acc, none)
  | m :: ms, acc =>
    if m.own then match m.call with
      | .error e => (acc, some e)
      | .ok r => loadModule ms (acc ++ [r])
    else loadModule ms acc

/-- `Rules.load` (`rules.py:260-275`): the rules loaded, and the exception if there is one (what was loaded before it stays). -/
def loadRules : List RuleArg → List RuleObj → List RuleObj × Option PyErr
  | [], acc => (acc, none)
  | .module_ ms :: rest, acc => match loadModule ms acc with
    | (acc, some e) => (acc, some e)
    | (acc, none) => loadRules rest acc
  | .class_ make :: rest, acc => match make with
    | .error e => (acc, some e)
    | .ok r => loadRules rest (acc ++ [r])
  | .object r :: rest, acc => loadRules rest (acc ++ [r])

end Rebulk
