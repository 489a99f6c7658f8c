import Verif.Model.Session
/-!
# Calls of `matches` running at the same time

Several threads call `matches` on one `Rebulk` object while other threads register patterns and rules on it. A call goes on in small steps and any
other thread may run between two of them. What threads share: the `Rebulk` object and the list objects holding tags (`Model/Session.lean`); everything
else a call looks at or changes is its own. Simplifications: the search of one pattern, `enabled` with `when`, and `then` are each one step; a pattern
object is not changed once it is registered.
-/
namespace Rebulk

/-- Where a call of `matches` (`rebulk.py:138-165`) is. -/
inductive Phase (Ctx ρ : Type) where
  /-- Before line 152. -/
  | begins
  /-- The declared keys are known; before `effective_patterns` (`rebulk.py:276-277`). -/
  | keyed (f : Found)
  /-- In the loop over the patterns (`rebulk.py:278`); those not searched yet. -/
  | searching (left : List (PatternObj Ctx)) (f : Found)
  /-- Before `_execute_rules` (`rebulk.py:163`). -/
  | searched (f : Found)
  /-- In `execute_all_rules` (`rules.py:316-329`): the rules not run yet, the exception raised after them, and which list each match holds. -/
  | ruling (left : List RuleRef) (e : Option PyErr) (refs : Nat → Nat) (f : Found)
  /-- In `execute_rule` (`rules.py:348-352`), between `when` and `then`. -/
  | triggered (r : RuleRef) (answer : ρ) (left : List RuleRef) (e : Option PyErr) (refs : Nat → Nat) (f : Found)
  /-- The call has returned or raised. -/
  | done (x : Except PyErr Found)

/-- `matches.declared_keys = self.effective_keys(context)` on a new `Matches` object (`rebulk.py:148-153`). -/
def RebulkObj.startFound {Ctx : Type} (r : RebulkObj Ctx) (input : Str) (ctx : Ctx) : Found :=
  if !r.disabled ctx then { Found.empty input with keys := r.effectiveKeys ctx } else Found.empty input

/-- The end of the search (`rebulk.py:160-161`). -/
def Phase.check {Ctx ρ : Type} (env : SessionEnv ρ) (f : Found) : Phase Ctx ρ :=
  match RebulkObj.checkFound env.before f with
  | some e => .done (.error e)
  | none => .searched f

/-- The search of one pattern (`rebulk.py:278-291`). -/
def Phase.searchOne {Ctx ρ : Type} (env : SessionEnv ρ) (input : Str) (ctx : Ctx) (lists : TagLists) (p : PatternObj Ctx)
    (left : List (PatternObj Ctx)) (f : Found) : Phase Ctx ρ :=
  if !p.info.disabled ctx then
    match (p.withTags (fun q => lists (env.listOf q))).matches_ env.lower input with
    | .error e => .done (.error e)
    | .ok ts => match Found.addAll ts f with
      | .error e => .done (.error e)
      | .ok f => .searching left f
  else .searching left f

/-- One step of a call on the object `r` as it is now. -/
def Phase.step {Ctx ρ : Type} (env : SessionEnv ρ) (r : RebulkObj Ctx) (input : Str) (ctx : Ctx) (lists : TagLists) :
    Phase Ctx ρ → Phase Ctx ρ × TagLists
  | .begins => (.keyed (r.startFound input ctx), lists)
  | .keyed f => (if !r.disabled ctx then .searching (r.effectivePatterns ctx) f else Phase.check env f, lists)
  | .searching [] f => (Phase.check env f, lists)
  | .searching (p :: left) f => (Phase.searchOne env input ctx lists p left f, lists)
  | .searched f =>
    (if !r.disabled ctx then
      .ruling (schedule ((r.effectiveRules ctx).map RuleObj.info)).1 (schedule ((r.effectiveRules ctx).map RuleObj.info)).2 (env.holds f) f
    else .done (.ok f), lists)
  | .ruling [] e _ f => (.done (match e with | some e => .error e | none => .ok f), lists)
  | .ruling (x :: left) e refs f =>
    if (env.rule refs x).enabled (f, lists) then
      match (env.rule refs x).when_ (f, lists) with
      | (s, .error e) => (.done (.error e), s.2)
      | (s, .ok a) => (if env.truthy a then .triggered x a left e refs s.1 else .ruling left e refs s.1, s.2)
    else (.ruling left e refs f, lists)
  | .triggered x a left e refs f =>
    match (env.rule refs x).then_ (f, lists) a with
    | (s, some e) => (.done (.error e), s.2)
    | (s, none) => (.ruling left e refs s.1, s.2)
  | .done x => (.done x, lists)

/-- A call and where it is. -/
structure Call (Ctx ρ : Type) where
  input : Str
  ctx : Ctx
  phase : Phase Ctx ρ := .begins

/-- The shared `Rebulk` object and list objects, and the calls in the order they began. -/
structure Pool (Ctx ρ : Type) where
  obj : RebulkObj Ctx
  lists : TagLists
  calls : List (Call Ctx ρ) := []

/-- What the scheduler may do next. -/
inductive Event (Ctx : Type) where
  /-- A thread calls `matches(input, ctx)`. -/
  | call (input : Str) (ctx : Ctx)
  /-- The thread of the `i`-th call makes one step. -/
  | step (i : Nat)
  /-- A thread registers patterns, rules, keys or other `Rebulk` objects, or disables it. -/
  | change (g : RebulkObj Ctx → RebulkObj Ctx)

/-- One event. -/
def Pool.event {Ctx ρ : Type} (env : SessionEnv ρ) (p : Pool Ctx ρ) : Event Ctx → Pool Ctx ρ
  | .call input ctx => { p with calls := p.calls ++ [{ input := input, ctx := ctx }] }
  | .change g => { p with obj := g p.obj }
  | .step i => match p.calls[i]? with
    | none => p
    | some c =>
      let x := c.phase.step env p.obj c.input c.ctx p.lists
      { p with
        lists := x.2
        calls := p.calls.set i { c with phase := x.1 } }

/-- A series of events. -/
def Pool.run {Ctx ρ : Type} (env : SessionEnv ρ) (p : Pool Ctx ρ) (es : List (Event Ctx)) : Pool Ctx ρ := es.foldl (Pool.event env) p

end Rebulk
