import Verif.Model.Utils
/-!
# `rebulk/rules.py`: the rule engine

Rules are compared and hashed by class (`rules.py:103-107`); `id` is the identity of the rule object. What the engine does with the rules
depends on their class, priority and dependency only; `enabled`, `when` and `then` are user code, given by `Behaviour`, on a state `σ`
(the matches, the context and whatever else rules look at or change). Logging (`log_level`) is not modelled.
-/
namespace Rebulk

/-- A rule object, as seen by `==` (class) and `is` (identity). -/
structure RuleRef where
  id : Nat
  cls : Nat
  deriving DecidableEq

/-- One dependency: a rule class or a rule object (`rules.py:381-384`). -/
inductive DepItem where
  | cls (c : Nat)
  | inst (r : RuleRef)

/-- The `dependency` attribute (`rules.py:74`, `374-377`): `None`, a single class or object, or an iterable of them. -/
inductive Dependency where
  | none
  | one (d : DepItem)
  | many (l : List DepItem)

/-- The attributes of a rule the engine reads (`rules.py:72-74`). -/
structure RuleInfo where
  id : Nat
  cls : Nat
  priority : Int := 0
  dependency : Dependency := .none

/-- The rule object itself. -/
def RuleInfo.ref (r : RuleInfo) : RuleRef := ⟨r.id, r.cls⟩

/-- `rule_dependencies` (`rules.py:374-377`). -/
def RuleInfo.dependencies (r : RuleInfo) : List DepItem :=
  match r.dependency with
  | .none => []
  | .one d => [d]
  | .many l => l

/-! ## `toposort_rules` -/

/-- The first loop of `toposort_rules` (`rules.py:369-372`). -/
def classDict : List RuleInfo → Dict Nat RuleRef → Except PyErr (Dict Nat RuleRef)
  | [], d => .ok d
  | r :: rs, d => if d.contains r.cls then .error .valueError else classDict rs (d.set r.cls r.ref)

/-- `dependency = class_dict.get(dependency)` for a class (`rules.py:381-382`); rule objects are truthy. -/
def DepItem.resolve (d : Dict Nat RuleRef) : DepItem → Option RuleRef
  | .cls c => d.get? c
  | .inst r => some r

/-- `dependencies.add(x)` (`rules.py:384`): a set of rules, compared by class; an equal element is not replaced. -/
def addRef (acc : List RuleRef) (x : RuleRef) : List RuleRef := if acc.any (fun y => y.cls == x.cls) then acc else acc ++ [x]

/-- The body of the inner loop of `toposort_rules` (`rules.py:381-384`). -/
def depStep (d : Dict Nat RuleRef) (acc : List RuleRef) (it : DepItem) : List RuleRef :=
  match it.resolve d with
  | some x => addRef acc x
  | none => acc

/-- The inner loop of `toposort_rules` (`rules.py:378-384`). -/
def dependencySet (d : Dict Nat RuleRef) (items : List DepItem) : List RuleRef := items.foldl (depStep d) []

/-- The graph built by `toposort_rules` (`rules.py:359-386`). The classes being different, no key is replaced. -/
def rulesGraph (rules : List RuleInfo) : Except PyErr (List (RuleRef × List RuleRef)) :=
  match classDict rules [] with
  | .error e => .error e
  | .ok d => .ok (rules.map (fun r => (r.ref, dependencySet d r.dependencies)))

/-- The rule object of class `c` that `toposort` yields: the key of the graph, or else the first of its dependency objects
(`set.union` keeps the element it has, `toposort.py:51-53`). There is always one. -/
def instanceOf (graph : List (RuleRef × List RuleRef)) (c : Nat) : RuleRef :=
  ((graph.map (fun kv => kv.1) ++ graph.flatMap (fun kv => kv.2)).find? (fun r => r.cls == c)).getD ⟨0, c⟩

/-- The graph as `toposort` sees it: rules compared by class. -/
def classGraph (graph : List (RuleRef × List RuleRef)) : Deps Nat :=
  graph.map (fun kv => (kv.1.cls, kv.2.map (fun r => r.cls)))

/-- More iterations than `toposort` needs. -/
def graphFuel (data : Deps Nat) : Nat := data.length + (data.flatMap (fun kv => kv.2)).length + 1

/-- `toposort(graph)` (`rules.py:386`): the groups yielded and the exception raised in the end, if any. -/
def ruleGroups (graph : List (RuleRef × List RuleRef)) : List (List RuleRef) × Option PyErr :=
  match toposort (graphFuel (classGraph graph)) (classGraph graph) with
  | none => ([], some .diverges)
  | some (groups, e) => (groups.map (fun g => g.map (instanceOf graph)), e)

/-! ## `execute_all_rules` -/

/-- `self.index(rule)` (`rules.py:320`): the first rule of the same class. -/
def ruleIndex (all : List RuleInfo) (r : RuleRef) : Option Nat := all.findIdx? (fun x => x.cls == r.cls)

/-- `sorted(rules_group, key=self.index)` (`rules.py:320`); `index` raises `ValueError` for a rule of a class not in the list. -/
def orderGroup (all : List RuleInfo) (g : List RuleRef) : Except PyErr (List RuleRef) :=
  if g.all (fun r => (ruleIndex all r).isSome) then
    .ok (pySorted (fun a b => decide ((ruleIndex all a).getD 0 < (ruleIndex all b).getD 0)) g)
  else .error .valueError

/-- The loop over the groups of one priority (`rules.py:319-320`): the rules to run, in order, and the exception raised after them. -/
def orderGroups (all : List RuleInfo) (e : Option PyErr) : List (List RuleRef) → List RuleRef × Option PyErr
  | [] => ([], e)
  | g :: gs => match orderGroup all g with
    | .error x => ([], some x)
    | .ok l => (l ++ (orderGroups all e gs).1, (orderGroups all e gs).2)

/-- What is run for one priority (`rules.py:318-320`). -/
def schedulePriority (all rules : List RuleInfo) : List RuleRef × Option PyErr :=
  match rulesGraph rules with
  | .error e => ([], some e)
  | .ok graph => orderGroups all (ruleGroups graph).2 (ruleGroups graph).1

/-- The loop over the priorities (`rules.py:317-320`). -/
def schedulePriorities (all : List RuleInfo) : List (Int × List RuleInfo) → List RuleRef × Option PyErr
  | [] => ([], none)
  | pr :: rest => match schedulePriority all pr.2 with
    | (l, some e) => (l, some e)
    | (l, none) => (l ++ (schedulePriorities all rest).1, (schedulePriorities all rest).2)

/-- The rules `execute_all_rules` runs (`rules.py:316-320`), in order, and the exception the engine raises after them, if any. The sort is
by `__lt__` (`rules.py:94-95`): greater priority first. -/
def schedule (all : List RuleInfo) : List RuleRef × Option PyErr :=
  schedulePriorities all (groupBy (fun r => r.priority) (pySorted (fun a b => decide (a.priority > b.priority)) all))

/-- The user code of a rule, on a state `σ`, with answers `ρ`. `enabled` (`rules.py:83-92`) is a function of the state; `when` and `then` may change it
and raise. -/
structure Behaviour (σ ρ : Type) where
  enabled : σ → Bool
  when_ : σ → σ × Except PyErr ρ
  then_ : σ → ρ → σ × Option PyErr

/-- A call made by the engine. -/
inductive RuleEvent where
  | enabled (r : RuleRef)
  | when_ (r : RuleRef)
  | then_ (r : RuleRef)
  deriving DecidableEq

/-- The outcome of running rules: the state, the calls made, the list returned, and the exception if one was raised. -/
structure RuleRun (σ ρ : Type) where
  state : σ
  trace : List RuleEvent := []
  ret : List (RuleRef × ρ) := []
  err : Option PyErr := none

/-- `execute_rule` (`rules.py:334-356`) and what `execute_all_rules` does with its result (`rules.py:327-329`). `truthy` is the truthiness
of answers. -/
def executeRule {σ ρ : Type} (truthy : ρ → Bool) (b : Behaviour σ ρ) (r : RuleRef) (s : σ) : RuleRun σ ρ :=
  if b.enabled s then
    match b.when_ s with
    | (s, .error e) => { state := s, trace := [.enabled r, .when_ r], err := some e }
    | (s, .ok a) =>
      if truthy a then
        match b.then_ s a with
        | (s, some e) => { state := s, trace := [.enabled r, .when_ r, .then_ r], err := some e }
        | (s, none) => { state := s, trace := [.enabled r, .when_ r, .then_ r], ret := [(r, a)] }
      else { state := s, trace := [.enabled r, .when_ r] }
  else { state := s, trace := [.enabled r] }

/-- Running rules one after the other (`rules.py:326-329`), then raising `e`. -/
def executeList {σ ρ : Type} (truthy : ρ → Bool) (beh : RuleRef → Behaviour σ ρ) (e : Option PyErr) : List RuleRef → σ → RuleRun σ ρ
  | [], s => { state := s, err := e }
  | r :: rs, s =>
    let x := executeRule truthy (beh r) r s
    match x.err with
    | some _ => x
    | none =>
      let y := executeList truthy beh e rs x.state
      { state := y.state, trace := x.trace ++ y.trace, ret := x.ret ++ y.ret, err := y.err }

/-- `Rules.execute_all_rules` (`rules.py:304-331`). When an exception is raised nothing is returned; `ret` is then what was collected. -/
def executeAll {σ ρ : Type} (truthy : ρ → Bool) (beh : RuleRef → Behaviour σ ρ) (rules : List RuleInfo) (s : σ) : RuleRun σ ρ :=
  executeList truthy beh (schedule rules).2 (schedule rules).1 s

end Rebulk
