import Verif.Spec.ConfiguredSearch
/-!
# What a `Rebulk` finds that looks for groups of regular expressions (`C119`)
-/
namespace Rebulk.Spec
variable {Ctx : Type}

/-- The options of a regular expression searched for its groups: name and tags, whether the whole match is wanted too (`every`), value, formatter and validator
(each one for all, or by name or role), what is private and names that are left out. -/
structure GroupConfig where
  name : Option String := none
  tags : List String := []
  every : Bool := false
  value : DictArg Val := .absent
  formatter : DictArg Formatter := .absent
  validator : DictArg Validator := .absent
  hidden : List String := []
  hiddenParent : Bool := false
  hiddenChildren : Bool := false
  ignored : List String := []

/-- The keyword arguments given to the pattern: `children=True`, or `every=True`. -/
def GroupConfig.opts (g : GroupConfig) : PatternOpts :=
  { opts := { name := g.name, tags := g.tags }, children := !g.every, every := g.every, value := g.value, formatter := g.formatter, validator := g.validator,
    privateNames := g.hidden, privateParent := g.hiddenParent, privateChildren := g.hiddenChildren, ignoreNames := g.ignored }

open Classical in
/-- The value of a match of this role and name: the one given for it (when it is true), else its text, through the formatter given for it. The whole match is not
formatted when it is not wanted. -/
noncomputable def GroupConfig.valueOf (g : GroupConfig) (child : Bool) (name : Option String) (text : Str) : Val :=
  if IsTrue (chosen g.value .none name child) then chosen g.value .none name child
  else if child || g.every then (match chosen g.formatter (some (fun v => v)) name child with | none => .str text | some f => f (.str text))
  else .str text

/-- A hit, with the span of the whole match when it is one of its groups, and whether it is private. -/
structure Capture where
  hit : Hit
  origin : Option (Int × Int)
  hidden : Bool

/-- The match of a capture. -/
structure Captures (input : Str) (x : Capture) (m : Match) : Prop where
  span : m.span = (x.hit.start, x.hit.stop)
  rank : m.matchIndex = x.hit.rank
  value : m.value = x.hit.value
  name : m.name = x.hit.name
  tags : m.tags = x.hit.tags
  priv : m.priv = x.hidden
  noMarker : m.marker = false
  parents : m.ancestors.map (fun p => (p.start, p.stop)) = x.origin.toList
  noSolver : m.solver = none
  input : m.inputString = some input
  raw : m.rawStart = none ∧ m.rawStop = none

open Classical in
/-- The capture of a span. -/
noncomputable def GroupConfig.capture (g : GroupConfig) (input : Str) (rank : Nat) (origin : Option (Int × Int)) (span : Int × Int) (name : Option String) : Capture :=
  { hit := ⟨span.1, span.2, rank, g.valueOf origin.isSome name (textAt input span.1 span.2), name, g.tags⟩, origin := origin,
    hidden := decide (∃ n, name = some n ∧ n ≠ "" ∧ n ∈ g.hidden) || (if origin.isSome then g.hiddenChildren else g.hiddenParent) }

/-- The validator chosen for a capture accepts it. -/
def GroupConfig.Agrees (g : GroupConfig) (input : Str) (x : Capture) : Prop :=
  ∀ v, chosen g.validator (some (fun _ => true)) x.hit.name x.origin.isSome = some v → ∀ t, Captures input x t.root → v t = true

/-- The verdict of the validators depends on what the capture tells. -/
def GroupConfig.Judging (g : GroupConfig) (input : Str) : Prop :=
  ∀ x v, chosen g.validator (some (fun _ => true)) x.hit.name x.origin.isSome = some v → ∀ t t', Captures input x t.root → Captures input x t'.root → v t = v t'

/-- The capture of a whole match. -/
noncomputable def GroupConfig.whole (g : GroupConfig) (input : Str) (rank : Nat) (o : ReObj) : Capture := g.capture input rank none (o.start, o.stop) g.name

/-- The captures of its groups. -/
noncomputable def GroupConfig.parts (g : GroupConfig) (rc : Bool) (names : List (Option String)) (input : Str) (rank : Nat) (o : ReObj) : List Capture :=
  (expectedChildren rc g.name names o.groups).map (fun x => g.capture input rank (some (o.start, o.stop)) x.1 x.2)

open Classical in
/-- The captures of a match object, when they are all valid: the whole match if it is wanted (or asked for as private), then what its groups matched, but for the
names left out. -/
noncomputable def GroupConfig.capturesOf (g : GroupConfig) (rc : Bool) (names : List (Option String)) (input : Str) (rank : Nat) (o : ReObj) : List Capture :=
  if (g.every = true → g.Agrees input (g.whole input rank o)) ∧ (∀ x ∈ g.parts rc names input rank o, g.Agrees input x) then
    ((if g.every || g.hiddenParent then [g.whole input rank o] else []) ++ g.parts rc names input rank o).filter
      (fun x => decide (∀ n, x.hit.name = some n → n ∉ g.ignored))
  else []

/-- The captures of a regular expression: those of its match objects that are not empty. -/
noncomputable def GroupConfig.captures (g : GroupConfig) (rc : Bool) (input : Str) (re : Regex) : List Capture :=
  (((re.finditer input).filter (fun o => decide (o.start ≠ o.stop))).mapIdx (fun i o => g.capturesOf rc re.names input i o)).flatten

/-- What a pattern finds: groups of regular expressions, or hits of `C116`. -/
inductive FindsOf (lower : Str → Str) (input : Str) (ctx : Ctx) : PatternObj Ctx → List Capture → Prop where
  | plain {p hits} : HitsOf lower input ctx p hits → FindsOf lower input ctx p (hits.map (fun x => ⟨x, none, false⟩))
  | groups {info} (id : Nat) (g : GroupConfig) (rc : Bool) {regexes} : info.disabled ctx = false →
      FindsOf lower input ctx (.regex info (Pattern.init id g.opts) rc regexes) (regexes.flatMap (g.captures rc input))

/-- The same patterns, when the engine of regular expressions reports spans of the input. -/
inductive GroupPattern (lower : Str → Str) (input : Str) (ctx : Ctx) : PatternObj Ctx → Prop where
  | plain {p} : SearchPattern lower input ctx p → GroupPattern lower input ctx p
  | groups {info} (id : Nat) (g : GroupConfig) (rc : Bool) {regexes : List Regex} : Proper g.formatter → Proper g.validator → g.Judging input →
      (∀ re ∈ regexes, ∀ o ∈ re.finditer input, 0 ≤ o.start ∧ o.start ≤ o.stop ∧ o.stop ≤ input.length ∧ ∀ g ∈ o.groups, EngineGroup g) →
      GroupPattern lower input ctx (.regex info (Pattern.init id g.opts) rc regexes)

/-- Two captures that cannot be told apart by span, value, name and whole match. -/
def Capture.Alike (x y : Capture) : Prop :=
  x.hit.start = y.hit.start ∧ x.hit.stop = y.hit.stop ∧ x.hit.value = y.hit.value ∧ x.hit.name = y.hit.name ∧ x.origin = y.origin

/-- The length that counts: the one of the whole match. -/
def Capture.weight (x : Capture) : Int := match x.origin with | none => x.hit.stop - x.hit.start | some o => o.2 - o.1

/-- Two captures that share a character. -/
def Capture.Meets (x y : Capture) : Prop := x.hit.start < y.hit.stop ∧ y.hit.start < x.hit.stop

/-- `kept` are public captures of `xs`, in order; those that share a character have the same weight; a public one is lost only to one of greater weight with which it
shares a character. -/
structure HeaviestKept (xs kept : List Capture) : Prop where
  order : kept.Sublist xs
  isPublic : ∀ x ∈ kept, x.hidden = false
  settled : ∀ x ∈ kept, ∀ y ∈ kept, x.Meets y → x.weight = y.weight
  lost : ∀ x ∈ xs, x ∉ kept → x.hidden = false → ∃ c ∈ xs, c.hidden = false ∧ x.Meets c ∧ x.weight < c.weight

end Rebulk.Spec
