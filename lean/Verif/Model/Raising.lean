import Verif.Model.Rebulk
/-!
# Patterns whose user functions may raise

The same code as in `Model/Pattern.lean`, `Model/Chain.lean` and `Model/Rebulk.lean`, with user functions (validators, match processors, post
processors, functional patterns, chain breakers) that return or raise. Here the matches of a sub-pattern are processed one by one while they are searched, as
in the code. Formatters are not called at this stage: a match is only given its formatter.

`total` replaces what a raising call would have returned by something else, which gives a pattern of the other models.
-/
namespace Rebulk

/-- An exception that leaves a generator (PEP 479): `StopIteration` becomes `RuntimeError`. `_process_matches` and the `_match`
of all patterns but chains are generators (`pattern.py:330`, `451`, `502`, `553`). -/
def leaveGenerator : PyErr → PyErr
  | .stopIteration => .runtimeError
  | e => e

/-- The matches yielded by a generator, and the exception it ends with. -/
abbrev MStream := List MTree × Option PyErr

/-- A user function that may raise: validators, processors. -/
structure RPattern where
  base : Pattern
  validators : Dict (Option String) (Option (MTree → Except PyErr Bool))
  defaultValidator : Option (MTree → Except PyErr Bool)
  preMatch : Option (MTree → Except PyErr ProcRet)
  postMatch : Option (MTree → Except PyErr ProcRet)
  postProcessor : Option (List MTree → Except PyErr (List MTree))

namespace RPattern

/-- `_process_match_validator` (`pattern.py:291-304`). -/
def processValidator (p : RPattern) (child : Bool) (t : MTree) : Except PyErr Bool :=
  let included := if child then p.base.shouldIncludeChildren else p.base.shouldIncludeParent
  if included || p.base.validateAll then
    match getFirstDefined p.validators (Pattern.configKeys t.root child) p.defaultValidator with
    | some v => v t
    | none => .ok true
  else .ok true

/-- `_process_match` (`pattern.py:306-320`). -/
def processMatch (p : RPattern) (idx : Nat) (child : Bool) (t : MTree) : Except PyErr (MTree × Bool) :=
  let t := t.setRoot (p.base.configure idx child t.root)
  match p.processValidator child t with
  | .error e => .error e
  | .ok b => .ok (t, b)

/-- `_process_match_processor` (`pattern.py:322-328`). -/
def processProcessor (processor : Option (MTree → Except PyErr ProcRet)) (t : MTree) : Except PyErr (Option MTree) :=
  match processor with
  | some f => match f t with
    | .error e => .error e
    | .ok (.tree r) => .ok (some r)
    | .ok .falsy => .ok none
    | .ok .none => .ok (some t)
  | none => .ok (some t)

/-- `for child in match.children` (`pattern.py:344-346`). -/
def processChildren (proc : Nat → Bool → MTree → Except PyErr (MTree × Bool)) (idx : Nat) : List MTree → Except PyErr (Option (List MTree))
  | [] => .ok (some [])
  | c :: cs =>
    match proc idx true c with
    | .error e => .error e
    | .ok (_, false) => .ok none
    | .ok (c, true) => match processChildren proc idx cs with
      | .error e => .error e
      | .ok none => .ok none
      | .ok (some cs) => .ok (some (c :: cs))

/-- The end of `_process_matches` (`pattern.py:344-356`), after the match itself was accepted: `t` is the processed match. -/
def processAccepted (p : RPattern) (proc : Nat → Bool → MTree → Except PyErr (MTree × Bool)) (idx : Nat) (t : MTree) : Except PyErr (List MTree) :=
  match processChildren proc idx t.children with
  | .error e => .error e
  | .ok none => .ok []
  | .ok (some cs) => match processProcessor p.postMatch (.node t.root cs) with
    | .error e => .error e
    | .ok r => match Pattern.keepGoing r with
      | .error e => .error e
      | .ok none => .ok []
      | .ok (some t) => .ok (p.base.emitted t)

/-- `_process_matches` (`pattern.py:330-356`): what is emitted, and what the raw match has become. -/
def processMatches (p : RPattern) (proc : Nat → Bool → MTree → Except PyErr (MTree × Bool)) (idx : Nat) (t : MTree) :
    Except PyErr (List MTree × MTree) :=
  match processProcessor p.preMatch t with
  | .error e => .error e
  | .ok none => .ok ([], t)
  | .ok (some t) => match t.root.truthy? with
    | .error e => .error e
    | .ok false => .ok ([], t)
    | .ok true => match proc idx false t with
      | .error e => .error e
      | .ok (t, false) => .ok ([], t)
      | .ok (t, true) => match p.processAccepted proc idx t with
        | .error e => .error e
        | .ok l => .ok (l, t)

/-- An exception goes out of a generator. -/
def leaving {α : Type} : Except PyErr α → Except PyErr α
  | .error e => .error (leaveGenerator e)
  | .ok x => .ok x

/-- `for match_index, match in enumerate(self._match(…))` (`pattern.py:199-202`), from index `i`: the emitted matches and the raw matches. -/
def processStream (p : RPattern) (proc : Nat → Bool → MTree → Except PyErr (MTree × Bool)) : Nat → List MTree → Option PyErr →
    Except PyErr (List MTree × List MTree)
  | _, [], none => .ok ([], [])
  | _, [], some e => .error (leaveGenerator e)
  | i, t :: ts, e => match leaving (p.processMatches proc i t) with
    | .error x => .error x
    | .ok (l, raw) => match p.processStream proc (i + 1) ts e with
      | .error x => .error x
      | .ok (ls, raws) => .ok (l ++ ls, raw :: raws)

/-- The loop over the sub-patterns (`pattern.py:198-202`). -/
def processStreams (p : RPattern) (proc : Nat → Bool → MTree → Except PyErr (MTree × Bool)) : List MStream → Except PyErr (List MTree × List MTree)
  | [] => .ok ([], [])
  | s :: rest => match p.processStream proc 0 s.1 s.2 with
    | .error x => .error x
    | .ok (l, raws) => match p.processStreams proc rest with
      | .error x => .error x
      | .ok (ls, rs) => .ok (l ++ ls, raws ++ rs)

/-- `Pattern.matches(…, with_raw_matches=True)` (`pattern.py:177-208`). -/
def run (p : RPattern) (proc : Nat → Bool → MTree → Except PyErr (MTree × Bool)) (streams : List MStream) : Except PyErr (List MTree × List MTree) :=
  match p.processStreams proc streams with
  | .error e => .error e
  | .ok (ms, raws) => match p.postProcessor with
    | none => .ok (ms, raws)
    | some f => match f ms with
      | .error e => .error e
      | .ok ms => .ok (ms, raws)

end RPattern

/-! ## Searching -/

/-- `StringPattern._match` (`pattern.py:451-455`). -/
def Pattern.stringStream (p : Pattern) (lower : Str → Str) (o : StringOpts) (input sub : Str) : MStream :=
  match p.matchString lower o input sub with
  | .error e => ([], some e)
  | .ok l => (l, none)

/-- `RePattern._match` (`pattern.py:502-531`). -/
def Pattern.regexStream (p : Pattern) (repeatedCaptures : Bool) (names : List (Option String)) (input : Str) : List ReObj → MStream
  | [] => ([], none)
  | o :: os => match p.reMatch repeatedCaptures names input o with
    | .error e => ([], some e)
    | .ok l => (l ++ (p.regexStream repeatedCaptures names input os).1, (p.regexStream repeatedCaptures names input os).2)

/-- What a user function of a functional pattern returns; an iterator may raise `after` its last item. -/
structure RFRet where
  ret : FRet
  after : Option PyErr := none

/-- The exception met after the items (`for args in args_iterable`, `pattern.py:565`): an iterator ends with `StopIteration`. -/
def RFRet.ending (r : RFRet) : Option PyErr :=
  match r.ret with
  | .gen _ => match r.after with
    | some .stopIteration => none
    | x => x
  | _ => none

/-- The loop over the results (`pattern.py:565-584`). -/
def Pattern.functionalStream (p : Pattern) (input : Str) (after : Option PyErr) : List FRet → MStream
  | [] => ([], after)
  | r :: rs => match r.matchArgs p.opts.name.isSome with
    | .error e => ([], some e)
    | .ok a => match p.matchWithArgs input a with
      | .error e => ([], some e)
      | .ok m => match m.truthy? with
        | .error e => ([], some e)
        | .ok t => (if t then .node m [] :: (p.functionalStream input after rs).1 else (p.functionalStream input after rs).1,
            (p.functionalStream input after rs).2)

/-- `FunctionalPattern._match` (`pattern.py:553-584`). -/
def Pattern.userStream (p : Pattern) (f : Str → Except PyErr RFRet) (input : Str) : MStream :=
  match f input with
  | .error e => ([], some e)
  | .ok r => p.functionalStream input r.ending r.ret.argsIterable

/-! ## Chains -/

/-- A chain with a breaker that may raise. -/
structure RChain where
  pattern : RPattern
  parts : List Part := []
  breaker : Option (List MTree → Except PyErr Bool) := none

namespace RChain

/-- `_chain_breaker_eval` (`chain.py:181-182`). -/
def breakerEval (c : RChain) (ms : List MTree) : Except PyErr Bool :=
  match c.breaker with
  | none => .ok true
  | some f => if ms.any (fun t => t.root.marker) then .error .assertionError else match f ms with
    | .error e => .error e
    | .ok b => .ok (!b)

/-- The loop over the groups (`chain.py:112-120`). -/
def nextGroups (c : RChain) (input : Str) (hidden : Bool) (groups : Dict Nat (List MTree)) :
    Dict Nat (List MTree) → ChainSt → Except PyErr ChainSt
  | [], st => .ok st
  | (i, raws) :: rest, st =>
    match raws.getLast? with
    | none => .error .indexError
    | some last =>
      let st := { st with found := true, offset := last.root.rawEndOf, input := pySlice input (some last.root.rawEndOf) none }
      if hidden then c.nextGroups input hidden groups rest st
      else
        match c.breakerEval (st.current ++ (groups.get? i).getD []) with
        | .error e => .error e
        | .ok true => c.nextGroups input hidden groups rest { st with current := st.current ++ (groups.get? i).getD [] }
        | .ok false => c.nextGroups input hidden groups rest st

/-- `_to_next_chain_part` (`chain.py:94-121`). -/
def toNext (c : RChain) (input : Str) (part : Part) (ms raws : List MTree) (st : ChainSt) : Except PyErr ChainSt :=
  let ms := MTree.fixList input st.offset ms
  let raws := MTree.fixList input st.offset raws
  if raws.isEmpty then .ok st
  else c.nextGroups input part.hidden (groupByIndex ms) (groupByIndex raws) st

/-- `for chain_part in self.parts` (`chain.py:65-85`): only `_InvalidChainException` is caught. Simplification: a breaker that raises this
private exception itself is left out. -/
def runParts (c : RChain) (input : Str) : Bool → List Part → ChainSt → Except PyErr (ChainSt × Bool)
  | _, [], st => .ok (st, true)
  | first, part :: rest, st =>
    match part.matchesOf first st.input with
    | .error .invalidChain =>
      .ok ((match st.current with | [] => st | x :: _ => { st with offset := x.root.rawEndOf }), false)
    | .error e => .error e
    | .ok (ms, raws) =>
      match c.toNext input part ms raws st with
      | .error e => .error e
      | .ok st => c.runParts input false rest st

/-- `_build_chain_match` (`chain.py:163-179`) calls no user function. -/
def build (c : RChain) (input : Str) (cur : List MTree) : Except PyErr MTree := Chain.build { pattern := c.pattern.base } input cur

/-- `while offset < len(input_string)` (`chain.py:61-90`). -/
def loop (c : RChain) (input : Str) : Nat → Str → Int → List MTree → Except PyErr (List MTree)
  | 0, _, offset, acc => if offset < input.length then .error .diverges else .ok acc
  | fuel + 1, chainInput, offset, acc =>
    if offset < input.length then
      match c.runParts input true c.parts ⟨false, chainInput, offset, []⟩ with
      | .error e => .error e
      | .ok (st, valid) =>
        if !st.found then .ok acc
        else if !st.current.isEmpty && valid then
          match c.build input st.current with
          | .error e => .error e
          | .ok m => c.loop input fuel st.input st.offset (acc ++ [m])
        else c.loop input fuel st.input st.offset acc
    else .ok acc

/-- `Chain._match` (`chain.py:52-92`); it is not a generator. -/
def rawMatches (c : RChain) (input : Str) : Except PyErr (List MTree) := c.loop input input.length input 0 []

/-- The loop over the groups of the last pattern (`chain.py:149-156`). -/
def backtrack (p : RPattern) (idx : Nat) (child : Bool) (pat : Option Nat) : List Nat → MTree → List Bool → Except PyErr (MTree × Option MTree)
  | [], t, _ => .ok (t, none)
  | i :: is, t, fs =>
    let fs := Chain.dropAll t.children (Chain.positions t.children pat i) fs
    let t := t.setRoot { t.root with stop := Chain.endOf t.root.start (Chain.alive t.children fs) }
    let t := t.setRoot (p.base.configure idx child t.root)
    let seen := MTree.node t.root (Chain.alive t.children fs)
    match p.processValidator child seen with
    | .error e => .error e
    | .ok true => .ok (t, some seen)
    | .ok false => backtrack p idx child pat is t fs

/-- `Chain._process_match` (`chain.py:123-161`). -/
def processMatch (p : RPattern) (idx : Nat) (child : Bool) (t : MTree) : Except PyErr (MTree × Bool) :=
  match p.processMatch idx child t with
  | .error e => .error e
  | .ok (t, true) => .ok (t, true)
  | .ok (t, false) =>
    match t.children.getLast? with
    | none => .ok (t, false)
    | some last =>
      let keys := (groupByIndex (t.children.filter (fun c => decide (c.root.pattern = last.root.pattern)))).keys
      match backtrack p idx child last.root.pattern keys.reverse t (t.children.map (fun _ => true)) with
      | .error e => .error e
      | .ok (_, some seen) => .ok (seen, true)
      | .ok (t', none) => .ok (t'.setRoot { t'.root with stop := t.root.stop }, false)

/-- `Chain.matches(…, with_raw_matches=True)`. -/
def run (c : RChain) (input : Str) : Except PyErr (List MTree × List MTree) :=
  match c.rawMatches input with
  | .error e => .error e
  | .ok raws => c.pattern.run (processMatch c.pattern) [(raws, none)]

end RChain

/-! ## Pattern objects -/

mutual
/-- A pattern object, as in `Model/Rebulk.lean`. -/
inductive RPatternObj (Ctx : Type) where
  | string (info : PatternInfo Ctx) (p : RPattern) (o : StringOpts) (strings : List Str)
  | regex (info : PatternInfo Ctx) (p : RPattern) (repeatedCaptures : Bool) (regexes : List Regex)
  | functional (info : PatternInfo Ctx) (p : RPattern) (functions : List (Str → Except PyErr RFRet))
  | chain (info : PatternInfo Ctx) (p : RPattern) (breaker : Option (List MTree → Except PyErr Bool)) (parts : RPartObjs Ctx)
/-- The parts of a chain. -/
inductive RPartObjs (Ctx : Type) where
  | nil
  | cons (pattern : RPatternObj Ctx) (start : Int) (stop : Option Int) (hidden : Bool) (rest : RPartObjs Ctx)
end

namespace RPatternObj
variable {Ctx : Type}

mutual
/-- `pattern.matches(input, context, with_raw_matches=True)` (`pattern.py:177-208`). -/
def run (lower : Str → Str) : RPatternObj Ctx → Str → Except PyErr (List MTree × List MTree)
  | .string _ p o strings, input => p.run p.processMatch (strings.map (p.base.stringStream lower o input))
  | .regex _ p rc regexes, input => p.run p.processMatch (regexes.map (fun re => p.base.regexStream rc re.names input (re.finditer input)))
  | .functional _ p fs, input => p.run p.processMatch (fs.map (fun f => p.base.userStream f input))
  | .chain _ p breaker parts, input => RChain.run { pattern := p, parts := runParts lower parts, breaker := breaker } input
/-- The parts of a chain as `Chain._match` sees them. -/
def runParts (lower : Str → Str) : RPartObjs Ctx → List Part
  | .nil => []
  | .cons p start stop hidden rest => { search := run lower p, start := start, stop := stop, hidden := hidden } :: runParts lower rest
end

/-- Same. -/
def info : RPatternObj Ctx → PatternInfo Ctx
  | string i _ _ _ => i
  | regex i _ _ _ => i
  | functional i _ _ => i
  | chain i _ _ _ => i

/-- `pattern.matches(input, context)`. -/
def matches_ (lower : Str → Str) (p : RPatternObj Ctx) (input : Str) : Except PyErr (List MTree) :=
  match p.run lower input with
  | .error e => .error e
  | .ok (ms, _) => .ok ms

end RPatternObj

/-- The loop over the patterns (`rebulk.py:278-291`). -/
def searchPatternsR {Ctx : Type} (lower : Str → Str) (ctx : Ctx) (input : Str) : List (RPatternObj Ctx) → Found → Except PyErr Found
  | [], f => .ok f
  | p :: ps, f =>
    if !p.info.disabled ctx then
      match p.matches_ lower input with
      | .error e => .error e
      | .ok ts => match Found.addAll ts f with
        | .error e => .error e
        | .ok f => searchPatternsR lower ctx input ps f
    else searchPatternsR lower ctx input ps f

/-- A `Rebulk` object (`rebulk.py:95-104`) of such patterns. -/
structure RRebulkObj (Ctx : Type) where
  disabled : Ctx → Bool := fun _ => false
  patterns : List (RPatternObj Ctx) := []
  rules : List RuleObj := []
  keys : Dict String Key := []
  children : List (RRebulkObj Ctx) := []

/-- The attributes shared by all patterns. -/
def RPatternObj.base {Ctx : Type} : RPatternObj Ctx → Pattern
  | string _ p _ _ => p.base
  | regex _ p _ _ => p.base
  | functional _ p _ => p.base
  | chain _ p _ _ => p.base

namespace RRebulkObj
variable {Ctx ρ : Type}

/-- The loop of `effective_patterns` (`rebulk.py:261-263`). -/
def addPatterns (ctx : Ctx) : List (RRebulkObj Ctx) → List (RPatternObj Ctx) → List (RPatternObj Ctx)
  | [], acc => acc
  | c :: cs, acc =>
    if !c.disabled ctx then addPatterns ctx cs (extendSafe (fun a b => a.base.id == b.base.id) (fun _ => true) false acc c.patterns)
    else addPatterns ctx cs acc

/-- `effective_patterns` (`rebulk.py:252-264`). -/
def effectivePatterns (r : RRebulkObj Ctx) (ctx : Ctx) : List (RPatternObj Ctx) := addPatterns ctx r.children r.patterns

mutual
/-- The same object without its patterns. -/
def bare : RRebulkObj Ctx → RebulkObj Ctx
  | ⟨d, _, rs, ks, cs⟩ => ⟨d, [], rs, ks, bareList cs⟩
/-- Same for a list. -/
def bareList : List (RRebulkObj Ctx) → List (RebulkObj Ctx)
  | [] => []
  | r :: rs => r.bare :: bareList rs
end

/-- `Rebulk.matches` (`rebulk.py:138-165`). -/
def matches_ (env : Env ρ) (r : RRebulkObj Ctx) (input : Str) (ctx : Ctx) : Except PyErr Found :=
  let f := if !r.disabled ctx then { Found.empty input with keys := r.bare.effectiveKeys ctx } else Found.empty input
  match (if !r.disabled ctx then searchPatternsR env.lower ctx input (r.effectivePatterns ctx) f else .ok f) with
  | .error e => .error e
  | .ok f => match RebulkObj.checkFound env f with
    | some e => .error e
    | none => r.bare.executeRules env ctx f

end RRebulkObj

/-! ## What a raising call would have returned -/

/-- Values put in the place of exceptions. -/
structure Fill where
  validator : MTree → Bool
  processor : MTree → ProcRet
  postProcessor : List MTree → List MTree
  function : Str → FRet
  breaker : List MTree → Bool

/-- The value in the place of an exception. -/
def filled {α : Type} (d : α) : Except PyErr α → α
  | .ok x => x
  | .error _ => d

/-- The pattern whose functions return `f` where those of `p` raise. -/
def RPattern.total (f : Fill) (p : RPattern) : Pattern :=
  { p.base with
    validators := p.validators.map (fun kv => (kv.1, kv.2.map (fun v t => filled (f.validator t) (v t))))
    defaultValidator := p.defaultValidator.map (fun v t => filled (f.validator t) (v t))
    preMatch := p.preMatch.map (fun g t => filled (f.processor t) (g t))
    postMatch := p.postMatch.map (fun g t => filled (f.processor t) (g t))
    postProcessor := p.postProcessor.map (fun g l => filled (f.postProcessor l) (g l)) }

mutual
/-- Same, for a pattern object. -/
def RPatternObj.total {Ctx : Type} (f : Fill) : RPatternObj Ctx → PatternObj Ctx
  | .string i p o ss => .string i (p.total f) o ss
  | .regex i p rc res => .regex i (p.total f) rc res
  | .functional i p fs => .functional i (p.total f) (fs.map (fun g s => match g s with | .ok r => r.ret | .error _ => f.function s))
  | .chain i p b parts => .chain i (p.total f) (b.map (fun g l => filled (f.breaker l) (g l))) (RPartObjs.total f parts)
/-- Same, for the parts of a chain. -/
def RPartObjs.total {Ctx : Type} (f : Fill) : RPartObjs Ctx → PartObjs Ctx
  | .nil => .nil
  | .cons p start stop hidden rest => .cons (p.total f) start stop hidden (RPartObjs.total f rest)
end

mutual
/-- Same, for a `Rebulk` object. -/
def RRebulkObj.total {Ctx : Type} (f : Fill) : RRebulkObj Ctx → RebulkObj Ctx
  | ⟨d, ps, rs, ks, cs⟩ => ⟨d, ps.map (RPatternObj.total f), rs, ks, RRebulkObj.totalList f cs⟩
/-- Same for a list. -/
def RRebulkObj.totalList {Ctx : Type} (f : Fill) : List (RRebulkObj Ctx) → List (RebulkObj Ctx)
  | [] => []
  | r :: rs => r.total f :: RRebulkObj.totalList f rs
end

end Rebulk
