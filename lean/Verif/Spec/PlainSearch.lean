import Verif.Spec.Rebulk
import Verif.Spec.PatternRun
/-!
# What a `Rebulk` with plain patterns finds (`C115`)
-/
namespace Rebulk.Spec
variable {Ctx : Type}

/-- Something found in the input: where, as which text, with which rank among the finds of its sub-pattern, and the name and tags of the pattern. -/
structure Finding where
  start : Int
  stop : Int
  rank : Nat
  text : Str
  name : Option String
  tags : List String

/-- The match of a find: public, no marker, without parent; its value is the text. -/
structure Stands (x : Finding) (m : Match) : Prop where
  span : m.span = (x.start, x.stop)
  rank : m.matchIndex = x.rank
  value : m.value = .str x.text
  name : m.name = x.name
  tags : m.tags = x.tags
  isPublic : m.priv = false
  noMarker : m.marker = false
  noParent : m.ancestors = []

/-- No find of the list shares a character with `x` and is longer. -/
def Longest (l : List Finding) (x : Finding) : Prop := ¬ ∃ c ∈ l, x.start < c.stop ∧ c.start < x.stop ∧ x.stop - x.start < c.stop - c.start

/-- The text from `start` to `stop`. -/
def textAt (input : Str) (start stop : Int) : Str := (input.drop start.toNat).take (stop - start).toNat

/-- The finds of a word, given its positions. -/
def wordFinds (name : Option String) (tags : List String) (w : Str) (positions : List Nat) : List Finding :=
  positions.mapIdx (fun i (p : Nat) => ⟨p, p + w.length, i, w, name, tags⟩)

/-- The finds of a regular expression: its match objects that are not empty. -/
def regexFinds (name : Option String) (tags : List String) (input : Str) (re : Regex) : List Finding :=
  ((re.finditer input).filter (fun o => decide (o.start ≠ o.stop))).mapIdx (fun i o => ⟨o.start, o.stop, i, textAt input o.start o.stop, name, tags⟩)

/-- A pattern of strings or regular expressions, which has no option but a name and tags, and what it finds. -/
inductive Finds (input : Str) : PatternObj Ctx → List Finding → Prop where
  | string (id : Nat) (name : Option String) (tags : List String) (words : List Str) (finds : List (List Finding)) :
      Each (fun w l => ∃ positions, Occurrences input w none none positions ∧ l = wordFinds name tags w positions) words finds →
      Finds input (.string {} (Pattern.init id { opts := { name := name, tags := tags } }) {} words) finds.flatten
  | regex (id : Nat) (name : Option String) (tags : List String) (rc : Bool) (regexes : List Regex) :
      Finds input (.regex {} (Pattern.init id { opts := { name := name, tags := tags } }) rc regexes) (regexes.flatMap (regexFinds name tags input))

/-- The same patterns, when the strings are not empty and the engine of regular expressions reports spans of the input. -/
inductive PlainPattern (input : Str) : PatternObj Ctx → Prop where
  | string (id : Nat) (name : Option String) (tags : List String) (words : List Str) : (∀ w ∈ words, w ≠ []) →
      PlainPattern input (.string {} (Pattern.init id { opts := { name := name, tags := tags } }) {} words)
  | regex (id : Nat) (name : Option String) (tags : List String) (rc : Bool) (regexes : List Regex) :
      (∀ re ∈ regexes, ∀ o ∈ re.finditer input, 0 ≤ o.start ∧ o.start ≤ o.stop ∧ o.stop ≤ input.length ∧ ∀ g ∈ o.groups, EngineGroup g) →
      PlainPattern input (.regex {} (Pattern.init id { opts := { name := name, tags := tags } }) rc regexes)

/-- `Rebulk()` with these patterns. -/
def plainRebulk (a b : Nat) (patterns : List (PatternObj Ctx)) : RebulkObj Ctx :=
  { patterns := patterns, rules := [conflictSolverRule a, privateRemoverRule b] }

end Rebulk.Spec
