import Verif.Spec.PlainSearch
import Verif.Spec.ChainScan
import Verif.Spec.ChainValid
/-!
# What a `Rebulk` finds whose patterns have a value, a formatter or a validator (`C116`)
-/
namespace Rebulk.Spec
variable {Ctx : Type}

/-- The options of a pattern: a name, tags, and maybe a value, a formatter and a validator (each one for all matches, or by name or role). -/
structure Config where
  name : Option String := none
  tags : List String := []
  value : DictArg Val := .absent
  formatter : DictArg Formatter := .absent
  validator : DictArg Validator := .absent

/-- The keyword arguments given to the pattern. -/
def Config.opts (c : Config) : PatternOpts :=
  { opts := { name := c.name, tags := c.tags }, value := c.value, formatter := c.formatter, validator := c.validator }

/-- Something found in the input: where, with which rank among the finds of its sub-pattern, value, name and tags. -/
structure Hit where
  start : Int
  stop : Int
  rank : Nat
  value : Val
  name : Option String
  tags : List String

/-- The match of a hit: public, no marker, made of the input, without parent and conflict solver. -/
structure StandsFor (input : Str) (x : Hit) (m : Match) : Prop where
  span : m.span = (x.start, x.stop)
  rank : m.matchIndex = x.rank
  value : m.value = x.value
  name : m.name = x.name
  tags : m.tags = x.tags
  isPublic : m.priv = false
  noMarker : m.marker = false
  noParent : m.ancestors = []
  noSolver : m.solver = none
  input : m.inputString = some input
  raw : m.rawStart = none ∧ m.rawStop = none

open Classical in
/-- The value of a match: the one configured for it, else the one a function gives, else the formatted text. (Values that are not true do not count.) -/
noncomputable def Config.valueOf (c : Config) (name : Option String) (own : Val) (text : Str) : Val :=
  if IsTrue (chosen c.value .none name false) then chosen c.value .none name false else if IsTrue own then own else
    match chosen c.formatter (some (fun v => v)) name false with | none => .str text | some f => f (.str text)

/-- The validator chosen for the hit, if any, accepts it. -/
def Config.Agrees (c : Config) (input : Str) (x : Hit) : Prop :=
  ∀ v, chosen c.validator (some (fun _ => true)) x.name false = some v → ∀ t, StandsFor input x t.root → v t = true

/-- The verdict of the validators depends on what the hit tells: on the input, the span, the value, the name and the tags. -/
def Config.Judging (c : Config) (input : Str) : Prop :=
  ∀ x v, chosen c.validator (some (fun _ => true)) x.name false = some v → ∀ t t', StandsFor input x t.root → StandsFor input x t'.root → v t = v t'

/-- The hits of a word, given its positions. -/
noncomputable def Config.wordHits (c : Config) (input w : Str) (positions : List Nat) : List Hit :=
  positions.mapIdx (fun i (p : Nat) => ⟨p, p + w.length, i, c.valueOf c.name .none (textAt input p (p + w.length)), c.name, c.tags⟩)

/-- The hits of a regular expression: its match objects that are not empty. -/
noncomputable def Config.regexHits (c : Config) (input : Str) (re : Regex) : List Hit :=
  ((re.finditer input).filter (fun o => decide (o.start ≠ o.stop))).mapIdx (fun i o =>
    ⟨o.start, o.stop, i, c.valueOf c.name .none (textAt input o.start o.stop), c.name, c.tags⟩)

/-- The hits of a function, given its results: those that are not empty, with their own value, name and tags. -/
noncomputable def Config.functionHits (c : Config) (input : Str) (rs : List (FRet × (Int × Int) × MatchArgs)) : List Hit :=
  (rs.filter (fun x => decide (x.2.1.1 ≠ x.2.1.2))).mapIdx (fun i x =>
    ⟨x.2.1.1, x.2.1.2, i, c.valueOf (x.2.2.name.getD c.name) (x.2.2.value.getD .none) (textAt input x.2.1.1 x.2.1.2), x.2.2.name.getD c.name, x.2.2.tags.getD c.tags⟩)

/-- The hits of a chain: the matches of its search. -/
noncomputable def Config.chainHits (c : Config) (input : Str) (ts : List MTree) : List Hit :=
  ts.mapIdx (fun i t => ⟨t.root.start, t.root.stop, i, c.valueOf c.name .none (textAt input t.root.start t.root.stop), c.name, c.tags⟩)

/-- The hit of match number `i` of the search of a chain, whole or shortened. -/
noncomputable def Config.hitAt (c : Config) (input : Str) (i : Nat) (t : MTree) : Hit :=
  ⟨t.root.start, t.root.stop, i, c.valueOf c.name .none (textAt input t.root.start t.root.stop), c.name, c.tags⟩

/-- What the validator of a chain leaves of match number `i` of its search: the whole match if it is accepted; else the match without the repetitions of its last part from number
`n` on, as few as necessary for it to be accepted; nothing if this never happens before all is dropped. -/
inductive ChainHit (c : Config) (input : Str) (i : Nat) (t : MTree) : List Hit → Prop where
  | whole : c.Agrees input (c.hitAt input i t) → ChainHit c input i t [c.hitAt input i t]
  | shortened {last n} : ¬ c.Agrees input (c.hitAt input i t) → t.children.getLast? = some last → HasRepetition t last n →
      (shortened t last.root.pattern n).children ≠ [] → c.Agrees input (c.hitAt input i (shortened t last.root.pattern n)) →
      (∀ k, HasRepetition t last k → n < k → ¬ c.Agrees input (c.hitAt input i (shortened t last.root.pattern k))) →
      ChainHit c input i t [c.hitAt input i (shortened t last.root.pattern n)]
  | refused : ¬ c.Agrees input (c.hitAt input i t) → (∀ last, t.children.getLast? = some last → ∀ k, HasRepetition t last k →
      (shortened t last.root.pattern k).children ≠ [] → ¬ c.Agrees input (c.hitAt input i (shortened t last.root.pattern k))) →
      ChainHit c input i t []

/-- What the validator of a chain leaves of the matches of its search, counted from `i`. -/
inductive ChainHits (c : Config) (input : Str) : Nat → List MTree → List Hit → Prop where
  | nil {i} : ChainHits c input i [] []
  | cons {i t ts l ls} : ChainHit c input i t l → ChainHits c input (i + 1) ts ls → ChainHits c input i (t :: ts) (l ++ ls)

/-- Results of a function that are spans of the input, neither private nor markers nor with a conflict solver. -/
def SoundResults (input : Str) (rs : List (FRet × (Int × Int) × MatchArgs)) : Prop :=
  ∀ x ∈ rs, 0 ≤ x.2.1.1 ∧ x.2.1.2 ≤ input.length ∧ PlainArgs x.2.2 ∧ (x.2.2.marker = none ∨ x.2.2.marker = some false)

open Classical in
/-- What a pattern of strings, regular expressions or functions finds: the hits of each of them that the validator accepts; a chain without validator; and a
chain of plain parts with a validator. -/
inductive HitsOf (lower : Str → Str) (input : Str) (ctx : Ctx) : PatternObj Ctx → List Hit → Prop where
  | disabled {p} : p.info.disabled ctx = true → HitsOf lower input ctx p []
  | string {info} (id : Nat) (c : Config) (so : StringOpts) {words hits} : info.disabled ctx = false →
      Each (fun (w : Str) l => ∃ positions,
        Occurrences (if so.ignoreCase then lower input else input) (if so.ignoreCase then lower w else w) so.start so.stop positions ∧
        l = c.wordHits input w positions) words hits →
      HitsOf lower input ctx (.string info (Pattern.init id c.opts) so words) (hits.flatten.filter (fun x => decide (c.Agrees input x)))
  | regex {info} (id : Nat) (c : Config) (rc : Bool) {regexes} : info.disabled ctx = false →
      HitsOf lower input ctx (.regex info (Pattern.init id c.opts) rc regexes)
        ((regexes.flatMap (c.regexHits input)).filter (fun x => decide (c.Agrees input x)))
  | functional {info} (id : Nat) (c : Config) {functions hits} : info.disabled ctx = false →
      Each (fun (f : Str → FRet) l => ∃ rs, ReturnsResults c.name.isSome (f input) rs ∧ l = c.functionHits input rs) functions hits →
      HitsOf lower input ctx (.functional info (Pattern.init id c.opts) functions) (hits.flatten.filter (fun x => decide (c.Agrees input x)))
  | chain {info} (id : Nat) (c : Config) (breaker : Option (List MTree → Bool)) {parts ts} : info.disabled ctx = false → c.validator = .absent →
      Scans { pattern := Pattern.init id c.opts, parts := PatternObj.runParts lower parts, breaker := breaker } input input 0 ts →
      HitsOf lower input ctx (.chain info (Pattern.init id c.opts) breaker parts) (c.chainHits input ts)
  | validated {info} (id : Nat) (c : Config) (breaker : Option (List MTree → Bool)) {parts ts hits} : info.disabled ctx = false →
      Scans { pattern := Pattern.init id c.opts, parts := PatternObj.runParts lower parts, breaker := breaker } input input 0 ts →
      ChainHits c input 0 ts hits → HitsOf lower input ctx (.chain info (Pattern.init id c.opts) breaker parts) hits

/-- The same patterns, when the strings are not empty and the engine of regular expressions and the functions report spans of the input, and the parts of
chains are regular and always answer (plain, if the chain has a validator). -/
inductive SearchPattern (lower : Str → Str) (input : Str) (ctx : Ctx) : PatternObj Ctx → Prop where
  | disabled {p} : p.info.disabled ctx = true → SearchPattern lower input ctx p
  | string {info} (id : Nat) (c : Config) (so : StringOpts) {words} : Proper c.formatter → Proper c.validator → c.Judging input →
      (∀ w ∈ words, w ≠ [] ∧ (so.ignoreCase = true → lower w ≠ [])) → (so.ignoreCase = true → (lower input).length = input.length) →
      SearchPattern lower input ctx (.string info (Pattern.init id c.opts) so words)
  | regex {info} (id : Nat) (c : Config) (rc : Bool) {regexes : List Regex} : Proper c.formatter → Proper c.validator → c.Judging input →
      (∀ re ∈ regexes, ∀ o ∈ re.finditer input, 0 ≤ o.start ∧ o.start ≤ o.stop ∧ o.stop ≤ input.length ∧ ∀ g ∈ o.groups, EngineGroup g) →
      SearchPattern lower input ctx (.regex info (Pattern.init id c.opts) rc regexes)
  | functional {info} (id : Nat) (c : Config) {functions} : Proper c.formatter → Proper c.validator → c.Judging input →
      (∀ f ∈ functions, ∃ rs, ReturnsResults c.name.isSome (f input) rs ∧ SoundResults input rs) →
      SearchPattern lower input ctx (.functional info (Pattern.init id c.opts) functions)
  | chain {info} (id : Nat) (c : Config) (breaker : Option (List MTree → Bool)) {parts} : Proper c.formatter → c.validator = .absent →
      (∀ p ∈ PatternObj.runParts lower parts, RegularPart p ∧ Answers p) → SearchPattern lower input ctx (.chain info (Pattern.init id c.opts) breaker parts)
  | validated {info} (id : Nat) (c : Config) (breaker : Option (List MTree → Bool)) {parts} : Proper c.formatter → Proper c.validator → c.Judging input →
      (∀ p ∈ PatternObj.runParts lower parts, PlainPart p ∧ Answers p) → SearchPattern lower input ctx (.chain info (Pattern.init id c.opts) breaker parts)

/-- No hit of the list shares a character with `x` and is longer. -/
def Unbeaten (l : List Hit) (x : Hit) : Prop := ¬ ∃ c ∈ l, x.start < c.stop ∧ c.start < x.stop ∧ x.stop - x.start < c.stop - c.start

end Rebulk.Spec
