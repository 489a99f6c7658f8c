import Verif.Model.Pattern
/-!
# `rebulk/chain.py`: chains of patterns

A chain part is a pattern with a repeater. What the chain uses of the pattern is `matches(input_string, with_raw_matches=True)`: a
function from the string to the emitted and the raw matches. It is a parameter here; `Pattern.partOfString`, `Pattern.partOfRegex`
and `Chain.part` give it for string patterns, regular expressions and nested chains.

Simplifications: matches are trees (`Model/Pattern.lean`), so a match that is both a child of the chain match and a child of another
child (parts with `every=True`) is two copies, which are not kept in step by later processing; a match listed without its parent (a child, for a part
with `children=True`) keeps the value of the parent when offsets are fixed.
-/
namespace Rebulk

/-! ## Raw matches along with the matches -/

/-- What becomes of a raw match listed in `raw_matches` (`pattern.py:201`) while it is processed (`pattern.py:330-342`): it is the same
object, so it gets its index, privacy, value and formatter. A processor that returns a match is taken to return the one it was given,
modified. -/
def Pattern.rawAfter (p : Pattern) (proc : Nat → Bool → MTree → MTree × Bool) (idx : Nat) (t : MTree) : MTree :=
  match Pattern.processProcessor p.preMatch t with
  | none => t
  | some t => match t.root.truthy? with
    | .ok true => (proc idx false t).1
    | _ => t

/-- `Pattern.matches(..., with_raw_matches=True)` (`pattern.py:177-208`), given the raw matches of each sub-pattern. -/
def Pattern.matchesWithRaws (p : Pattern) (proc : Nat → Bool → MTree → MTree × Bool) (raws : List (List MTree)) :
    Except PyErr (List MTree × List MTree) :=
  match Pattern.processAll (p.processMatchesWith proc) raws with
  | .error e => .error e
  | .ok l => .ok (p.postProcess l, raws.flatMap (fun rs => rs.mapIdx (p.rawAfter proc)))

/-- The search function of a chain part whose pattern is `string(*strings)`. -/
def Pattern.partOfString (p : Pattern) (lower : Str → Str) (o : StringOpts) (strings : List Str) (input : Str) :
    Except PyErr (List MTree × List MTree) :=
  match collectRaws (strings.map (p.matchString lower o input)) with
  | .error e => .error e
  | .ok raws => p.matchesWithRaws p.processMatch raws

/-- The search function of a chain part whose pattern is `regex(*regexes)`. -/
def Pattern.partOfRegex (p : Pattern) (repeatedCaptures : Bool) (regexes : List Regex) (input : Str) :
    Except PyErr (List MTree × List MTree) :=
  match collectRaws (regexes.map (fun re => p.matchRegex repeatedCaptures re input)) with
  | .error e => .error e
  | .ok raws => p.matchesWithRaws p.processMatch raws

/-- `FunctionalPattern(*functions, **kwargs).matches(input, with_raw_matches=True)`. -/
def Pattern.partOfFunctional (p : Pattern) (functions : List (Str → FRet)) (input : Str) : Except PyErr (List MTree × List MTree) :=
  match collectRaws (functions.map (fun f => p.matchFunctional f input)) with
  | .error e => .error e
  | .ok raws => p.matchesWithRaws p.processMatch raws

/-! ## Parts -/

/-- `ChainPart` (`chain.py:224-229`, `328-334`): its pattern's search function, the bounds of its repeater (no upper bound is `none`), and whether it
is hidden. -/
structure Part where
  search : Str → Except PyErr (List MTree × List MTree)
  start : Int := 1
  stop : Option Int := some 1
  hidden : Bool := false

/-- `match.initiator.raw_start`. Simplification: `raw_start` of a parent is taken to be its `start`. -/
def Match.initRawStart (m : Match) : Int :=
  match m.ancestors with
  | [] => m.rawStartOf
  | p :: _ => if p.stop - p.start == 0 then m.rawStartOf else m.initiator.start
/-- `match.initiator.raw_end`; same simplification. -/
def Match.initRawEnd (m : Match) : Int :=
  match m.ancestors with
  | [] => m.rawEndOf
  | p :: _ => if p.stop - p.start == 0 then m.rawEndOf else m.initiator.stop

namespace Part

/-- The loop over neighbours (`chain.py:291-297`): the first matches, up to the first one followed by a separator. -/
def adjacentRun (input : Str) : List MTree → List MTree
  | [] => []
  | [m] => [m]
  | a :: b :: rest =>
    if (pySlice input (some a.root.initRawEnd) (some b.root.initRawStart)).isEmpty then a :: adjacentRun input (b :: rest) else [a]

/-- `_truncate_repeater` (`chain.py:282-300`, `236-237`); `first` is `_is_chain_start`. -/
def truncate (first : Bool) (stop : Option Int) (input : Str) (ms : List MTree) : List MTree :=
  match ms with
  | [] => []
  | m :: _ =>
    if !first && !(pySlice input (some 0) (some m.root.initRawStart)).isEmpty then []
    else match stop with
      | some e => (adjacentRun input ms).filter (fun t => decide ((t.root.matchIndex : Int) < e))
      | none => adjacentRun input ms

/-- `max(m.match_index for m in matches)`, `-1` when there is none. -/
def maxIndex (ms : List MTree) : Int := ms.foldl (fun acc t => max acc (t.root.matchIndex : Int)) (-1)

/-- `ChainPart.matches` with `_validate_repeater` (`chain.py:264-280`, `302-307`). -/
def matchesOf (part : Part) (first : Bool) (input : Str) : Except PyErr (List MTree × List MTree) :=
  match part.search input with
  | .error e => .error e
  | .ok (ms, raws) =>
    let ms := truncate first part.stop input ms
    let raws := truncate first part.stop input raws
    if maxIndex raws + 1 < part.start then .error .invalidChain else .ok (ms, raws)

end Part

/-! ## The search -/

/-- A parent at its new place; its value is that it had. -/
def Core.shift (offset : Int) (c : Core) : Core := { c with start := c.start + offset, stop := c.stop + offset }

/-- What is done to one match (`chain.py:186-189`). The parents, fixed too, are shifted. -/
def Match.moved (input : Str) (offset : Int) (m : Match) : Match :=
  { m with inputString := some input, start := m.start + offset, stop := m.stop + offset, ancestors := m.ancestors.map (Core.shift offset) }

mutual
/-- `_fix_matches_offset` (`chain.py:184-192`) for one match and, recursively, its children, which see what becomes of it. -/
def MTree.fix (input : Str) (offset : Int) : MTree → MTree
  | .node m cs =>
    if m.inputString ≠ some input then
      let m' := m.moved input offset
      .node m' (MTree.relinkList (m.core.shift offset :: m'.ancestors) (m'.core :: m'.ancestors) (MTree.fixList input offset cs))
    else .node m (MTree.fixList input offset cs)
/-- `_fix_matches_offset` (`chain.py:184-192`). -/
def MTree.fixList (input : Str) (offset : Int) : List MTree → List MTree
  | [] => []
  | t :: ts => MTree.fix input offset t :: MTree.fixList input offset ts
end

/-- `_group_by_match_index` (`chain.py:194-202`). -/
def groupByIndex (ms : List MTree) : Dict Nat (List MTree) :=
  groupBy (fun t => t.root.matchIndex) (pySorted (fun a b => decide (a.root.matchIndex < b.root.matchIndex)) ms)

/-- The variables of the loops of `Chain._match`. -/
structure ChainSt where
  found : Bool
  input : Str
  offset : Int
  current : List MTree

/-- A chain (`chain.py:37-50`): it is a pattern with parts and possibly a chain breaker. -/
structure Chain where
  pattern : Pattern
  parts : List Part := []
  breaker : Option (List MTree → Bool) := none

namespace Chain

/-- `_chain_breaker_eval` (`chain.py:181-182`): whether the matches may be added. `Matches(matches)` refuses a marker (`match.py:994`). -/
def breakerEval (c : Chain) (ms : List MTree) : Except PyErr Bool :=
  match c.breaker with
  | none => .ok true
  | some f => if ms.any (fun t => t.root.marker) then .error .assertionError else .ok (!f ms)

/-- The loop over the groups (`chain.py:112-120`); `groups` is `grouped_matches_dict`. -/
def nextGroups (c : Chain) (input : Str) (hidden : Bool) (groups : Dict Nat (List MTree)) :
    Dict Nat (List MTree) → ChainSt → Except PyErr ChainSt
  | [], st => .ok st
  | (i, raws) :: rest, st =>
    match raws.getLast? with
    | none => .error .indexError
    | some last =>
      let st := { st with found := true, offset := last.root.rawEndOf, input := pySlice input (some last.root.rawEndOf) none }
      if hidden then c.nextGroups input hidden groups rest st
      else
        match c.breakerEval (st.current ++ (groups.get? i).getD []) with
        | .error e => .error e
        | .ok true => c.nextGroups input hidden groups rest { st with current := st.current ++ (groups.get? i).getD [] }
        | .ok false => c.nextGroups input hidden groups rest st

/-- `_to_next_chain_part` (`chain.py:94-121`). -/
def toNext (c : Chain) (input : Str) (part : Part) (ms raws : List MTree) (st : ChainSt) : Except PyErr ChainSt :=
  let ms := MTree.fixList input st.offset ms
  let raws := MTree.fixList input st.offset raws
  if raws.isEmpty then .ok st
  else c.nextGroups input part.hidden (groupByIndex ms) (groupByIndex raws) st

/-- `for chain_part in self.parts` (`chain.py:65-85`); the result tells whether the chain is valid. -/
def runParts (c : Chain) (input : Str) : Bool → List Part → ChainSt → Except PyErr (ChainSt × Bool)
  | _, [], st => .ok (st, true)
  | first, part :: rest, st =>
    match part.matchesOf first st.input with
    | .error .invalidChain =>
      .ok ((match st.current with | [] => st | x :: _ => { st with offset := x.root.rawEndOf }), false)
    | .error e => .error e
    | .ok (ms, raws) =>
      match c.toNext input part ms raws st with
      | .error e => .error e
      | .ok st => c.runParts input false rest st

/-- Whether `x in matches`: list membership compares with `==` (`match.py:1303-1311`). -/
def contains (ms : List MTree) (x : MTree) : Bool := ms.any (fun t => t.root.eqv x.root)

/-- The loop over the chain matches (`chain.py:172-178`). `m` is the match being built, `cs` its children so far. Setting the parent of
`x` is seen by everything below `x`, whether already a child or still to come. -/
def buildChildren (m : Match) (cs xs : List MTree) : List MTree := go xs.length cs xs
where
  /-- One match after the other; the number is that of the matches to come. -/
  go : Nat → List MTree → List MTree → List MTree
  | n + 1, cs, x :: xs =>
    let cs := cs ++ x.children
    if contains cs x then go n cs xs
    else
      let old := x.root.core :: x.root.ancestors
      let x' := x.setRoot { x.root with ancestors := [m.core] }
      let new := x'.root.core :: x'.root.ancestors
      go n (MTree.relinkList old new cs ++ [x']) (xs.map (MTree.relink old new))
  | _, cs, _ => cs

/-- The span of the chain match (`chain.py:164-170`): the smallest start and the largest end. -/
def buildSpan (cur : List MTree) : Option (Int × Int) :=
  cur.foldl (fun acc t => match acc with
    | none => some t.root.span
    | some (s, e) => some (if s > t.root.start then t.root.start else s, if e < t.root.stop then t.root.stop else e)) none

/-- `_build_chain_match` (`chain.py:163-179`). `Matches.append` refuses a marker (`match.py:994`). -/
def build (c : Chain) (input : Str) (cur : List MTree) : Except PyErr MTree :=
  match buildSpan cur with
  | none => .error .typeError
  | some (s, e) =>
    let m := c.pattern.newMatch input s e
    let cs := buildChildren m [] cur
    if cs.any (fun t => t.root.marker) then .error .assertionError else .ok (.node m cs)

/-- `while offset < len(input_string)` (`chain.py:61-90`), at most `fuel` attempts. -/
def loop (c : Chain) (input : Str) : Nat → Str → Int → List MTree → Except PyErr (List MTree)
  | 0, _, offset, acc => if offset < input.length then .error .diverges else .ok acc
  | fuel + 1, chainInput, offset, acc =>
    if offset < input.length then
      match c.runParts input true c.parts ⟨false, chainInput, offset, []⟩ with
      | .error e => .error e
      | .ok (st, valid) =>
        if !st.found then .ok acc
        else if !st.current.isEmpty && valid then
          match c.build input st.current with
          | .error e => .error e
          | .ok m => c.loop input fuel st.input st.offset (acc ++ [m])
        else c.loop input fuel st.input st.offset acc
    else .ok acc

/-- `Chain._match` (`chain.py:52-92`); the loop is given as many attempts as the input has characters (`C54`). -/
def rawMatches (c : Chain) (input : Str) : Except PyErr (List MTree) := c.loop input input.length input 0 []

/-! ## Processing -/

/-- The children that are still there. -/
def alive (all : List MTree) (flags : List Bool) : List MTree := ((all.zip flags).filter (fun x => x.2)).map (fun x => x.1)

/-- `match.children.remove(x)` (`chain.py:151-152`): the first child equal to `x` goes. (`x` or an equal child is always found.) -/
def drop (x : MTree) : List MTree → List Bool → List Bool
  | t :: ts, f :: fs => if f && t.root.eqv x.root then false :: fs else f :: drop x ts fs
  | _, fs => fs

/-- `for last_match in last_matches` (`chain.py:151-152`): `ks` are the positions of the matches among the original children. -/
def dropAll (all : List MTree) : List Nat → List Bool → List Bool
  | [], fs => fs
  | k :: ks, fs => match all[k]? with
    | some x => dropAll all ks (drop x all fs)
    | none => dropAll all ks fs

/-- The positions of the children of pattern `pat` with the given index. -/
def positions (all : List MTree) (pat : Option Nat) (i : Nat) : List Nat :=
  (List.range all.length).filter (fun k => match all[k]? with
    | some t => decide (t.root.pattern = pat) && decide (t.root.matchIndex = i)
    | none => false)

/-- `match.children[-1].end if match.children else match.start` (`chain.py:153`). -/
def endOf (start : Int) (cs : List MTree) : Int := match cs.getLast? with | some t => t.root.stop | none => start

/-- The loop over the groups of the last pattern (`chain.py:149-156`). `t` is the match with all its original children, `fs` tells which
are still there; `none` when the match is still rejected at the end. -/
def backtrack (p : Pattern) (idx : Nat) (child : Bool) (pat : Option Nat) : List Nat → MTree → List Bool → MTree × Option MTree
  | [], t, _ => (t, none)
  | i :: is, t, fs =>
    let fs := dropAll t.children (positions t.children pat i) fs
    let t := t.setRoot { t.root with stop := endOf t.root.start (alive t.children fs) }
    let t := t.setRoot (p.configure idx child t.root)
    let seen := MTree.node t.root (alive t.children fs)
    if p.processValidator child seen then (t, some seen) else backtrack p idx child pat is t fs

/-- `Chain._process_match` (`chain.py:123-161`). -/
def processMatch (p : Pattern) (idx : Nat) (child : Bool) (t : MTree) : MTree × Bool :=
  match p.processMatch idx child t with
  | (t, true) => (t, true)
  | (t, false) =>
    match t.children.getLast? with
    | none => (t, false)
    | some last =>
      let keys := (groupByIndex (t.children.filter (fun c => decide (c.root.pattern = last.root.pattern)))).keys
      match backtrack p idx child last.root.pattern keys.reverse t (t.children.map (fun _ => true)) with
      | (_, some seen) => (seen, true)
      | (t', none) => (t'.setRoot { t'.root with stop := t.root.stop }, false)

/-- `Chain.matches(..., with_raw_matches=True)`. -/
def run (c : Chain) (input : Str) : Except PyErr (List MTree × List MTree) :=
  match c.rawMatches input with
  | .error e => .error e
  | .ok raws => c.pattern.matchesWithRaws (processMatch c.pattern) [raws]

/-- A nested chain as a part of another chain (`chain.py:309-313`). -/
def part (c : Chain) (start : Int := 1) (stop : Option Int := some 1) (hidden : Bool := false) : Part :=
  { search := c.run, start := start, stop := stop, hidden := hidden }

end Chain

/-! ## Repeaters -/

/-- The argument of `repeater`. -/
inductive RepeaterArg where
  | int (n : Int)
  | str (s : Str)

/-- Blanks (`\s`). Simplification: ASCII ones. -/
def isBlank (c : Char) : Bool := c == ' ' || c == '\t' || c == '\n' || c == '\r' || c == '\x0b' || c == '\x0c'

/-- Value of a digit. -/
def digitVal (c : Char) : Nat := c.toNat - '0'.toNat

/-- The number written in decimal digits. -/
def numberOf (ds : Str) : Nat := ds.foldl (fun acc c => 10 * acc + digitVal c) 0

/-- `int(s)`. Simplification: ASCII digits without underscores. -/
def pyInt? (s : Str) : Option Int :=
  let s := ((s.dropWhile isBlank).reverse.dropWhile isBlank).reverse
  let (sign, ds) := match s with
    | '-' :: r => ((-1 : Int), r)
    | '+' :: r => (1, r)
    | r => (1, r)
  if ds.isEmpty || !ds.all Char.isDigit then none else some (sign * numberOf ds)

/-- `re.match(r"\{\s*(\d*)\s*,?\s*(\d*)\s*\}", value)` (`chain.py:389`): the two groups. The expression never needs to backtrack. -/
def repeaterMatch (s : Str) : Option (Str × Str) :=
  match s with
  | '{' :: r =>
    let r := r.dropWhile isBlank
    let g1 := r.takeWhile Char.isDigit
    let r := (r.dropWhile Char.isDigit).dropWhile isBlank
    let r := match r with | ',' :: r => r | r => r
    let r := r.dropWhile isBlank
    let g2 := r.takeWhile Char.isDigit
    let r := (r.dropWhile Char.isDigit).dropWhile isBlank
    match r with | '}' :: _ => some (g1, g2) | _ => none
  | _ => none

/-- `repeater` (`chain.py:363-396`) on the string, once it is known not to be a number. -/
def Part.repeaterStr (part : Part) (s : Str) : Part :=
  let part := if s = ['+'] then { part with start := 1, stop := none } else part
  if s = ['*'] then { part with start := 0, stop := none }
  else if s = ['?'] then { part with start := 0, stop := some 1 }
  else match repeaterMatch s with
    | some (g1, g2) =>
      if g1.isEmpty && g2.isEmpty then part
      else { part with
        start := if g1.isEmpty then 0 else numberOf g1,
        stop := if g2.isEmpty then none else some (numberOf g2) }
    | none => part

/-- `repeater` (`chain.py:363-396`). -/
def Part.repeater (part : Part) (v : RepeaterArg) : Part :=
  match v with
  | .int n => { part with start := n, stop := some n }
  | .str s => match pyInt? s with
    | some n => { part with start := n, stop := some n }
    | none => part.repeaterStr s

end Rebulk
