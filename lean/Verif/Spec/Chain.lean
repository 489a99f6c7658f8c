import Verif.Model.Chain
import Verif.Spec.Pattern
import Verif.Spec.Initiator
/-!
# Specification of chains
-/
namespace Rebulk.Spec

/-- The match lies in the text `s`, is not empty, and its raw span is its span. -/
structure InText (s : Str) (m : Match) : Prop where
  lo : 0 ≤ m.start
  nonempty : m.start < m.stop
  hi : m.stop ≤ s.length
  input : m.inputString = some s
  raw : m.rawStart = none ∧ m.rawStop = none

/-- What the search of a single pattern finds: separate occurrences, from left to right, numbered from 0. -/
structure RawList (s : Str) (raws : List MTree) : Prop where
  inText : ∀ r ∈ raws, InText s r.root
  top : ∀ r ∈ raws, r.root.ancestors = []
  ordered : raws.Pairwise (fun a b => a.root.stop ≤ b.root.start)
  index : ∀ (i : Nat) (r : MTree), raws[i]? = some r → r.root.matchIndex = i

/-- A regular part: one pattern, whose matches lie in the searched text, with their children. -/
structure RegularPart (part : Part) : Prop where
  honest : ∀ s, part.search s ≠ .error .invalidChain
  returns : ∀ s, part.search s ≠ .error .diverges
  raws : ∀ s em raws, part.search s = .ok (em, raws) → RawList s raws
  emitted : ∀ s em raws, part.search s = .ok (em, raws) → ∀ e ∈ em, InText s e.root ∧ ∀ k ∈ e.children, InText s k.root

/-- One part of an attempt: the text searched, the position at which this text is taken to start, the kept matches and the kept
occurrences (raw matches), with positions in the text. -/
structure Step where
  part : Part
  text : Str
  pos : Int
  kept : List MTree
  raws : List MTree

/-- Where the next part is searched. -/
def Step.nextPos (s : Step) : Int := match s.raws.getLast? with | some r => s.pos + r.root.stop | none => s.pos
/-- What the next part is searched in. -/
def Step.nextText (input : Str) (s : Step) : Str :=
  match s.raws.getLast? with | some r => input.drop (s.pos + r.root.stop).toNat | none => s.text

/-- The first `n` matches of the list are its longest run of neighbours: no text lies between two of them, by the raw positions of their initiators, and
some does before the next match, if any. Unless `first`, the run is empty when there is text before the first match. -/
structure Neighbours (text : Str) (first : Bool) (ms : List MTree) (n : Nat) : Prop where
  fits : n ≤ ms.length
  inside : ∀ i (h : i + 1 < ms.length), i + 1 < n → pySlice text (some (topRaw ms[i].root).2) (some (topRaw ms[i + 1].root).1) = []
  after : ∀ i (h : i + 1 < ms.length), i + 1 = n → pySlice text (some (topRaw ms[i].root).2) (some (topRaw ms[i + 1].root).1) ≠ []
  starts : ∀ h : 0 < ms.length, (0 < n ↔ first = true ∨ pySlice text (some 0) (some (topRaw ms[0].root).1) = [])

/-- What is kept of a list of matches: a longest run of neighbours, without the repetitions from number `stop` on. -/
def KeptOf (text : Str) (first : Bool) (stop : Option Int) (ms kept : List MTree) : Prop :=
  ∃ n, Neighbours text first ms n ∧ kept = (ms.take n).filter (fun t => stop.all (fun e => decide ((t.root.matchIndex : Int) < e)))

/-- A part keeps the matches `kept` and the occurrences `raws` of what the search of its pattern finds in the text, and it has at least the smallest
number of repetitions (they are numbered from 0). -/
def Keeps (part : Part) (first : Bool) (text : Str) (kept raws : List MTree) : Prop :=
  ∃ em rs, part.search text = .ok (em, rs) ∧ KeptOf text first part.stop em kept ∧ KeptOf text first part.stop rs raws ∧
    (part.start ≤ 0 ∨ ∃ r ∈ raws, part.start ≤ r.root.matchIndex + 1)

/-- Each step is the search of its part, from where the previous one stopped. -/
def Steps (input : Str) : Bool → Str → Int → List Step → Prop
  | _, _, _, [] => True
  | first, text, pos, s :: rest => s.text = text ∧ s.pos = pos ∧ Keeps s.part first text s.kept s.raws ∧
      Steps input false (s.nextText input) s.nextPos rest

/-- The match `k` is the match `e`, found in a text that starts at `pos` of the input. -/
structure MovedTo (input : Str) (pos : Int) (e k : Match) : Prop where
  span : k.span = (e.start + pos, e.stop + pos)
  input : k.inputString = some input
  index : k.matchIndex = e.matchIndex
  name : k.name = e.name
  tags : k.tags = e.tags
  marker : k.marker = e.marker
  priv : k.priv = e.priv
  lit : k.lit = e.lit
  formatter : k.formatter = e.formatter
  solver : k.solver = e.solver
  pattern : k.pattern = e.pattern
  raw : k.rawStart = e.rawStart ∧ k.rawStop = e.rawStop

/-- `L` are the matches `l`, with their children, moved. -/
structure MovedList (input : Str) (pos : Int) (l L : List MTree) : Prop where
  count : L.length = l.length
  root : ∀ (i : Nat) e k, l[i]? = some e → L[i]? = some k → MovedTo input pos e.root k.root
  childCount : ∀ (i : Nat) e k, l[i]? = some e → L[i]? = some k → k.children.length = e.children.length
  children : ∀ (i : Nat) e k, l[i]? = some e → L[i]? = some k → ∀ (j : Nat) c d, e.children[j]? = some c → k.children[j]? = some d →
    MovedTo input pos c.root d.root

/-- Add the groups one after the other, leaving out those the breaker refuses. -/
def collect (breaker : Option (List MTree → Bool)) : List MTree → List (List MTree) → List MTree
  | cur, [] => cur
  | cur, g :: gs =>
    match breaker with
    | none => collect breaker (cur ++ g) gs
    | some f => if f (cur ++ g) then collect breaker cur gs else collect breaker (cur ++ g) gs

/-- The matches of each repetition, in the order of repetitions. -/
def repetitions (n : Nat) (ms : List MTree) : List (List MTree) :=
  (List.range n).map (fun i => ms.filter (fun t => decide (t.root.matchIndex = i)))

/-- The groups a step offers: none if the part is hidden. `moved` are the kept matches at their place in the input. -/
def Step.groups (s : Step) (moved : List MTree) : List (List MTree) :=
  if s.part.hidden then [] else repetitions s.raws.length moved

/-- The match is made from the collected matches: it spans them, and its children are these matches and their own children. -/
structure BuiltFrom (cur : List MTree) (t : MTree) : Prop where
  start : (∀ x ∈ cur, t.root.start ≤ x.root.start) ∧ ∃ x ∈ cur, t.root.start = x.root.start
  stop : (∀ x ∈ cur, x.root.stop ≤ t.root.stop) ∧ ∃ x ∈ cur, t.root.stop = x.root.stop
  sound : ∀ k ∈ t.children, ∃ x ∈ cur, SameButLinks x.root k.root ∨ ∃ y ∈ x.children, SameButLinks y.root k.root
  complete : ∀ x ∈ cur, (∃ k ∈ t.children, k.root.span = x.root.span ∧ k.root.value = x.root.value ∧ k.root.name = x.root.name) ∧
    ∀ y ∈ x.children, ∃ k ∈ t.children, SameButLinks y.root k.root

/-- An attempt that produced the chain match `t`: the steps, one per part, what each contributes, and the match built from it. -/
structure Attempt (c : Chain) (input : Str) (steps : List Step) (t : MTree) : Prop where
  parts : steps.map (fun s => s.part) = c.parts
  linked : ∃ text pos, Steps input true text pos steps
  collected : ∃ moved : List (List MTree), moved.length = steps.length ∧
    (∀ (i : Nat) (s : Step) (l : List MTree), steps[i]? = some s → moved[i]? = some l → MovedList input s.pos s.kept l) ∧
    BuiltFrom (collect c.breaker [] ((steps.zip moved).flatMap (fun x => x.1.groups x.2))) t

/-- The part occurs at most once and what it emits stops with its occurrence. -/
structure WholeOnce (part : Part) : Prop where
  once : ∃ e, part.stop = some e ∧ e ≤ 1
  whole : ∀ s em raws, part.search s = .ok (em, raws) → ∀ e ∈ em, ∀ r ∈ raws, e.root.matchIndex = r.root.matchIndex → e.root.stop = r.root.stop

/-- An attempt can only fail where its first match ends: all parts but the first are optional, or all but the first two and the first
one is a single occurrence. -/
def FailsEarly (parts : List Part) : Prop :=
  (∀ p ∈ parts.tail, p.start ≤ 0) ∨ ((∀ p ∈ parts.drop 2, p.start ≤ 0) ∧ ∀ p, parts.head? = some p → WholeOnce p)

/-- A part whose search returns, and whose matches do not end at the very beginning of the text they were found in. -/
structure SearchesForward (part : Part) : Prop where
  returns : ∀ s, part.search s ≠ .error .diverges
  forward : ∀ s em raws, part.search s = .ok (em, raws) → ∀ t, t ∈ em ∨ t ∈ raws →
    t.root.inputString = some s ∧ t.root.rawStop = none ∧ 0 < t.root.stop

/-- What `finditer` of a regular expression engine gives: match objects from left to right, not overlapping, lying in the searched text with
their groups. -/
structure ScansText (re : Regex) : Prop where
  inText : ∀ s, ∀ o ∈ re.finditer s, 0 ≤ o.start ∧ o.start ≤ o.stop ∧ o.stop ≤ s.length
  ordered : ∀ s, (re.finditer s).Pairwise (fun a b => a.stop ≤ b.start)
  groups : ∀ s, ∀ o ∈ re.finditer s, ∀ g ∈ o.groups, ∀ repeatedCaptures, ∀ sp ∈ g.used repeatedCaptures,
    0 ≤ sp.1 ∧ sp.1 ≤ sp.2 ∧ sp.2 ≤ s.length

mutual
/-- Every match of the tree is below the match whose identity and parents are `chain`. -/
def Below (chain : List Core) : MTree → Prop
  | .node m cs => chain <:+ m.ancestors ∧ BelowList chain cs
/-- The same for all the trees of a list. -/
def BelowList (chain : List Core) : List MTree → Prop
  | [] => True
  | t :: ts => Below chain t ∧ BelowList chain ts
end

/-- No two of the matches have the same span, value and name. -/
def Distinct (ms : List MTree) : Prop :=
  ms.Pairwise (fun a b => ¬ (a.root.span = b.root.span ∧ a.root.value = b.root.value ∧ a.root.name = b.root.name))

/-- The match as the validator of the pattern sees it: with its index, privacy, value and formatter. -/
def configured (p : Pattern) (idx : Nat) (child : Bool) (t : MTree) : MTree := t.setRoot (p.configure idx child t.root)

/-- The children that remain when the repetitions `n`, `n+1`, … of the pattern `pat` are dropped. -/
def remaining (pat : Option Nat) (n : Nat) (cs : List MTree) : List MTree :=
  cs.filter (fun c => decide (¬ (c.root.pattern = pat ∧ n ≤ c.root.matchIndex)))

/-- Where the last of the matches stops; `start` if there is none. -/
def lastStop (start : Int) (cs : List MTree) : Int := match cs.getLast? with | some c => c.root.stop | none => start

/-- The match without the repetitions `n`, `n+1`, … of the pattern `pat`: it stops where its last child stops. -/
def shortened (t : MTree) (pat : Option Nat) (n : Nat) : MTree :=
  (MTree.node t.root (remaining pat n t.children)).setRoot 
    { t.root with stop := lastStop t.root.start (remaining pat n t.children) }

/-- The occurrences follow each other without anything in between. -/
def Contiguous : List MTree → Prop
  | [] => True
  | [_] => True
  | a :: b :: r => a.root.stop = b.root.start ∧ Contiguous (b :: r)

end Rebulk.Spec

namespace Rebulk.Spec

/-! ## Repeaters -/

/-- The ASCII white space characters: space, tab, line feed, carriage return, vertical tab, form feed. -/
def Blank (c : Char) : Prop := c ∈ [' ', '\t', '\n', '\r', '\x0b', '\x0c']

/-- The decimal digits of a number. -/
def digits (n : Nat) : Str := Nat.toDigits 10 n

/-- The decimal text of an integer (`str(k)`). -/
def numberText : Int → Str
  | .ofNat n => digits n
  | .negSucc n => '-' :: digits (n + 1)

/-- A number which may be left out. -/
def optDigits : Option Nat → Str
  | some n => digits n
  | none => []

/-- The usual notations of a number of repetitions, with the least and the greatest number they allow (`none`: no limit). -/
inductive Repeats : RepeaterArg → Int → Option Int → Prop where
  | number (n : Nat) : Repeats (.int n) n (some n)
  | digits (n : Nat) : Repeats (.str (digits n)) n (some n)
  | plus : Repeats (.str ['+']) 1 none
  | star : Repeats (.str ['*']) 0 none
  | question : Repeats (.str ['?']) 0 (some 1)
  | exactly (n : Nat) : Repeats (.str ('{' :: Spec.digits n ++ ['}'])) n (some n)
  | atLeast (n : Nat) : Repeats (.str ('{' :: Spec.digits n ++ [',', '}'])) n none
  | atMost (m : Nat) : Repeats (.str ('{' :: ',' :: Spec.digits m ++ ['}'])) 0 (some m)
  | between (n m : Nat) : Repeats (.str ('{' :: Spec.digits n ++ ',' :: Spec.digits m ++ ['}'])) n (some m)

/-! ## Runs of neighbours -/

/-- Some character of the text stands at or after `i` and before `j`. -/
def Gap (text : Str) (i j : Int) : Prop := ∃ p : Nat, p < text.length ∧ i ≤ p ∧ (p : Int) < j

/-- Where the raw text of a match starts: its `raw_start` when it was set, its `start` otherwise. -/
def rawFrom (m : Match) : Int := m.rawStart.getD m.start
/-- Where the raw text of a match stops. -/
def rawTo (m : Match) : Int := m.rawStop.getD m.stop

/-- The first `n` matches of the list are the longest run of neighbours from the beginning of the list (and, unless `first`, from the
beginning of the text): no character stands between two of them, and one does before the next match of the list, if any. -/
structure LongestRun (text : Str) (first : Bool) (ms : List MTree) (n : Nat) : Prop where
  fits : n ≤ ms.length
  inside : ∀ i (h : i + 1 < ms.length), i + 1 < n → ¬ Gap text (rawTo ms[i].root) (rawFrom ms[i + 1].root)
  after : ∀ i (h : i + 1 < ms.length), i + 1 = n → Gap text (rawTo ms[i].root) (rawFrom ms[i + 1].root)
  starts : ∀ h : 0 < ms.length, (0 < n ↔ first = true ∨ ¬ Gap text 0 (rawFrom ms[0].root))

/-! ## Occurrences in the input -/

/-- The spans of the occurrences of a step, in the input. -/
def Step.spans (s : Step) : List (Int × Int) := s.raws.map (fun r => (s.pos + r.root.start, s.pos + r.root.stop))

/-- Each span starts where the one before it stops. -/
def Adjacent : List (Int × Int) → Prop
  | [] => True
  | [_] => True
  | a :: b :: r => a.2 = b.1 ∧ Adjacent (b :: r)

end Rebulk.Spec
