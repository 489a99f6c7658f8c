import Verif.Model.Threads
import Verif.Spec.Session
/-!
# Specification: calls at the same time
-/
namespace Rebulk.Spec

/-- The `Rebulk` object after these events: the changes made, one after the other. -/
def objectAfter {Ctx : Type} (r : RebulkObj Ctx) : List (Event Ctx) → RebulkObj Ctx
  | [] => r
  | .change g :: es => objectAfter (g r) es
  | _ :: es => objectAfter r es

/-- The calls made by these events. -/
def callsStarted {Ctx : Type} : List (Event Ctx) → List (Str × Ctx)
  | [] => []
  | .call input ctx :: es => (input, ctx) :: callsStarted es
  | _ :: es => callsStarted es

/-- The outcome of a call that reads the keys of `r1`, the patterns of `r2` and the rules of `r3`, made alone. -/
def outcomeOf {Ctx ρ : Type} (env : SessionEnv ρ) (r1 r2 r3 : RebulkObj Ctx) (input : Str) (ctx : Ctx) (lists : TagLists) : Except PyErr Found :=
  match (r2.withTags (fun p => lists (env.listOf p))).matchesPatterns env.before input ctx
      (if !r1.disabled ctx then { Found.empty input with keys := r1.effectiveKeys ctx } else Found.empty input) with
  | .error e => .error e
  | .ok f => match RebulkObj.checkFound env.before f with
    | some e => .error e
    | none => (r3.executeRulesIn env ctx lists f).1

/-- The event is a step of this call. -/
def isStepOf {Ctx : Type} (i : Nat) : Event Ctx → Bool
  | .step j => i == j
  | _ => false

end Rebulk.Spec
