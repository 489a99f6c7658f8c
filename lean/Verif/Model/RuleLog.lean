import Verif.Model.Rules
/-!
# `rebulk/rules.py`: the rule engine with its log

The engine of `Model/Rules.lean` again, group by group, with the calls to `log` (`rules.py:26`) and the reads of `log_level`, which raise
`AttributeError` when the rule has no such attribute. What is logged does not depend on what the logger does with it.
-/
namespace Rebulk

/-- The level of a rule after `CustomRule.__init__(log_level)` (`rules.py:77-81`): `own` is the `log_level` of its class, if it has one, and
`default` is `debug.LOG_LEVEL`. The argument is never stored; `none` is a missing attribute. -/
def initLogLevel (default : Int) (own given : Option Int) : Option Int :=
  match own with
  | some l => some l
  | none => if given.isNone then some default else none

/-- What is written by the engine: a call made to a rule, or a record given to the logger at a level. -/
inductive LogEvent where
  | call (e : RuleEvent)
  | group (level : Int) (count : Nat) (priority : Int)
  | checking (level : Int) (r : RuleRef)
  | triggered (level : Int) (r : RuleRef)
  | running (level : Int) (r : RuleRef)
  | disabled (level : Int) (r : RuleRef)
  deriving DecidableEq

/-- The outcome of running rules, with the log. -/
structure LoggedRun (σ ρ : Type) where
  state : σ
  events : List LogEvent := []
  ret : List (RuleRef × ρ) := []
  err : Option PyErr := none

/-- The loop computing `group_log_level` (`rules.py:321-324`); `none` is an `AttributeError`. -/
def groupLevel (level : RuleRef → Option Int) : List RuleRef → Option Int → Option (Option Int)
  | [], acc => some acc
  | r :: rs, acc => match level r with
    | none => none
    | some l => groupLevel level rs (match acc with
      | none => some l
      | some a => if a < l then some l else some a)

/-- `execute_rule` (`rules.py:334-356`) with its log, and what is returned. -/
def executeRuleLogged {σ ρ : Type} (truthy : ρ → Bool) (level : RuleRef → Option Int) (b : Behaviour σ ρ) (r : RuleRef) (s : σ) : LoggedRun σ ρ :=
  if b.enabled s then
    match level r with
    | none => { state := s, events := [.call (.enabled r)], err := some .attributeError }
    | some l => match b.when_ s with
      | (s, .error e) => { state := s, events := [.call (.enabled r), .checking l r, .call (.when_ r)], err := some e }
      | (s, .ok a) =>
        if truthy a then
          match b.then_ s a with
          | (s, some e) => { state := s, events := [.call (.enabled r), .checking l r, .call (.when_ r), .triggered l r, .running l r,
              .call (.then_ r)], err := some e }
          | (s, none) => { state := s, events := [.call (.enabled r), .checking l r, .call (.when_ r), .triggered l r, .running l r,
              .call (.then_ r)], ret := [(r, a)] }
        else { state := s, events := [.call (.enabled r), .checking l r, .call (.when_ r)] }
  else match level r with
    | none => { state := s, events := [.call (.enabled r)], err := some .attributeError }
    | some l => { state := s, events := [.call (.enabled r), .disabled l r] }

/-- One run after another, unless the first one raised. -/
def LoggedRun.andThen {σ ρ : Type} (x : LoggedRun σ ρ) (f : σ → LoggedRun σ ρ) : LoggedRun σ ρ :=
  match x.err with
  | some _ => x
  | none => { state := (f x.state).state, events := x.events ++ (f x.state).events, ret := x.ret ++ (f x.state).ret, err := (f x.state).err }

/-- The rules of a group, one after the other (`rules.py:326-329`). -/
def executeGroupLogged {σ ρ : Type} (truthy : ρ → Bool) (level : RuleRef → Option Int) (beh : RuleRef → Behaviour σ ρ) :
    List RuleRef → σ → LoggedRun σ ρ
  | [], s => { state := s }
  | r :: rs, s => (executeRuleLogged truthy level (beh r) r s).andThen (executeGroupLogged truthy level beh rs)

/-- The body of the loop over groups (`rules.py:320-329`): ordering the group, its level, its record, its rules. `toposort` never yields an
empty group, so that the level is a number. -/
def executeOneGroup {σ ρ : Type} (truthy : ρ → Bool) (level : RuleRef → Option Int) (beh : RuleRef → Behaviour σ ρ) (all : List RuleInfo) (p : Int)
    (g : List RuleRef) (s : σ) : LoggedRun σ ρ :=
  match orderGroup all g with
  | .error e => { state := s, err := some e }
  | .ok l => match groupLevel level l none with
    | none => { state := s, err := some .attributeError }
    | some n => LoggedRun.andThen { state := s, events := [.group (n.getD 0) l.length p] } (executeGroupLogged truthy level beh l)

/-- The loop over the groups of one priority (`rules.py:319-329`), then the exception of `toposort`. -/
def executeGroups {σ ρ : Type} (truthy : ρ → Bool) (level : RuleRef → Option Int) (beh : RuleRef → Behaviour σ ρ) (all : List RuleInfo) (p : Int)
    (e : Option PyErr) : List (List RuleRef) → σ → LoggedRun σ ρ
  | [], s => { state := s, err := e }
  | g :: gs, s => (executeOneGroup truthy level beh all p g s).andThen (executeGroups truthy level beh all p e gs)

/-- The rules of one priority (`rules.py:318-329`). -/
def executePriority {σ ρ : Type} (truthy : ρ → Bool) (level : RuleRef → Option Int) (beh : RuleRef → Behaviour σ ρ) (all : List RuleInfo)
    (pr : Int × List RuleInfo) (s : σ) : LoggedRun σ ρ :=
  match rulesGraph pr.2 with
  | .error e => { state := s, err := some e }
  | .ok graph => executeGroups truthy level beh all pr.1 (ruleGroups graph).2 (ruleGroups graph).1 s

/-- The loop over the priorities (`rules.py:317-329`). -/
def executePriorities {σ ρ : Type} (truthy : ρ → Bool) (level : RuleRef → Option Int) (beh : RuleRef → Behaviour σ ρ) (all : List RuleInfo) :
    List (Int × List RuleInfo) → σ → LoggedRun σ ρ
  | [], s => { state := s }
  | pr :: rest, s => (executePriority truthy level beh all pr s).andThen (executePriorities truthy level beh all rest)

/-- `Rules.execute_all_rules` (`rules.py:304-331`) with its log. -/
def executeAllLogged {σ ρ : Type} (truthy : ρ → Bool) (level : RuleRef → Option Int) (beh : RuleRef → Behaviour σ ρ) (rules : List RuleInfo) (s : σ) :
    LoggedRun σ ρ :=
  executePriorities truthy level beh rules (groupBy (fun r => r.priority) (pySorted (fun a b => decide (a.priority > b.priority)) rules)) s

end Rebulk
