import Verif.Model.Rebulk
import Verif.Model.Consequences
/-!
# Several calls of `matches` on one `Rebulk` object

Between two calls the object keeps its patterns, rules and settings, which `matches` does not change, and the list objects holding the tags of its
patterns, which it shares with the matches it returns: a pattern keeps the list given to it in its match options (`pattern.py:441`, `472`, `543`,
`chain.py:44`), each match of the pattern is given that list (`pattern.py:453`, `507`, `525`, `577`, `chain.py:171`) and `Match.__init__` keeps it when
it is not empty (`match.py:1036`, `loose.py:102-115`). List objects are numbered.
-/
namespace Rebulk

/-- The contents of the list objects. -/
abbrev TagLists := Nat → List String

/-- A pattern with the tags given by `tags`, which maps patterns to tags. -/
def Pattern.withTags (tags : Nat → List String) (p : Pattern) : Pattern := { p with opts := { p.opts with tags := tags p.id } }

mutual
/-- Same, for a pattern object. -/
def PatternObj.withTags {Ctx : Type} (tags : Nat → List String) : PatternObj Ctx → PatternObj Ctx
  | .string i p o ss => .string i (p.withTags tags) o ss
  | .regex i p rc res => .regex i (p.withTags tags) rc res
  | .functional i p fs => .functional i (p.withTags tags) fs
  | .chain i p b parts => .chain i (p.withTags tags) b (PartObjs.withTags tags parts)
/-- Same, for the parts of a chain. -/
def PartObjs.withTags {Ctx : Type} (tags : Nat → List String) : PartObjs Ctx → PartObjs Ctx
  | .nil => .nil
  | .cons p start stop hidden rest => .cons (p.withTags tags) start stop hidden (PartObjs.withTags tags rest)
end

/-- Same, for a `Rebulk` object; patterns of grandchildren are not looked at by `matches` (`rebulk.py:252-264`). -/
def RebulkObj.withTags {Ctx : Type} (tags : Nat → List String) (r : RebulkObj Ctx) : RebulkObj Ctx :=
  { r with
    patterns := r.patterns.map (PatternObj.withTags tags)
    children := r.children.map (fun c => { c with patterns := c.patterns.map (PatternObj.withTags tags) }) }

/-- What is around: as `Env`, where the user code of rules also sees the list objects. `listOf` tells which
list object each pattern was given (`defaults` may give one list to several patterns), `holds` which one each match holds, from what was found. -/
structure SessionEnv (ρ : Type) where
  lower : Str → Str
  checkKeys : Bool := false
  isinstance : Val → Nat → Bool
  truthy : ρ → Bool
  listOf : Nat → Nat
  holds : Found → Nat → Nat
  rule : (Nat → Nat) → RuleRef → Behaviour (Found × TagLists) ρ

/-- `Env` for the part of `matches` that comes before the rules. -/
def SessionEnv.before {ρ : Type} (env : SessionEnv ρ) : Env ρ where
  lower := env.lower
  checkKeys := env.checkKeys
  isinstance := env.isinstance
  truthy := env.truthy
  rule := fun _ => ⟨fun _ => false, fun s => (s, .error .diverges), fun s _ => (s, none)⟩

/-- `_execute_rules` (`rebulk.py:238-250`): the outcome, and the list objects after it. -/
def RebulkObj.executeRulesIn {Ctx ρ : Type} (env : SessionEnv ρ) (r : RebulkObj Ctx) (ctx : Ctx) (lists : TagLists) (f : Found) :
    Except PyErr Found × TagLists :=
  if !r.disabled ctx then
    let x := executeAll env.truthy (env.rule (env.holds f)) ((r.effectiveRules ctx).map RuleObj.info) (f, lists)
    (match x.err with | some e => .error e | none => .ok x.state.1, x.state.2)
  else (.ok f, lists)

/-- One call of `Rebulk.matches` (`rebulk.py:138-165`): the outcome, and the list objects after it. -/
def RebulkObj.matchesIn {Ctx ρ : Type} (env : SessionEnv ρ) (r : RebulkObj Ctx) (input : Str) (ctx : Ctx) (lists : TagLists) :
    Except PyErr Found × TagLists :=
  let f := if !r.disabled ctx then { Found.empty input with keys := r.effectiveKeys ctx } else Found.empty input
  match (r.withTags (fun p => lists (env.listOf p))).matchesPatterns env.before input ctx f with
  | .error e => (.error e, lists)
  | .ok f => match RebulkObj.checkFound env.before f with
    | some e => (.error e, lists)
    | none => r.executeRulesIn env ctx lists f

/-- A series of calls, one after the other; an exception is caught by the caller and the next call is made. -/
def RebulkObj.session {Ctx ρ : Type} (env : SessionEnv ρ) (r : RebulkObj Ctx) : List (Str × Ctx) → TagLists → List (Except PyErr Found)
  | [], _ => []
  | c :: cs, lists => (r.matchesIn env c.1 c.2 lists).1 :: r.session env cs (r.matchesIn env c.1 c.2 lists).2

/-- A rule that does not touch tags, with its list objects. -/
def withLists {ρ : Type} (b : Behaviour Found ρ) : Behaviour (Found × TagLists) ρ where
  enabled := fun s => b.enabled s.1
  when_ := fun s => (((b.when_ s.1).1, s.2), (b.when_ s.1).2)
  then_ := fun s a => (((b.then_ s.1 a).1, s.2), (b.then_ s.1 a).2)

/-- An environment whose rules do not touch tags. -/
def Env.withLists {ρ : Type} (env : Env ρ) (listOf : Nat → Nat) (holds : Found → Nat → Nat) : SessionEnv ρ where
  lower := env.lower
  checkKeys := env.checkKeys
  isinstance := env.isinstance
  truthy := env.truthy
  listOf := listOf
  holds := holds
  rule := fun _ x => Rebulk.withLists (env.rule x)

/-- A rule with an `AppendTags` or `RemoveTags` consequence (`rules.py:202-249`) and this condition. -/
def retagRule (refs : Nat → Nat) (f : List String → List String) (when_ : Found → Answer) : Behaviour (Found × TagLists) Answer where
  enabled := fun _ => true
  when_ := fun s => (s, .ok (when_ s.1))
  then_ := fun s a => (({ s.1 with found := (thenRetag refs f a s.1.found s.2).1 }, (thenRetag refs f a s.1.found s.2).2.1),
    (thenRetag refs f a s.1.found s.2).2.2)

end Rebulk
