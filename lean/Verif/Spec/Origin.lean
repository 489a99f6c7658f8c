import Verif.Spec.Introspect
/-!
# Where matches come from
-/
namespace Rebulk.Spec
variable {Ctx : Type}

/-- A match is in a tree: it is its root or it is below one of its children. -/
inductive NodeOf (m : Match) : MTree → Prop where
  | root {cs} : NodeOf m (.node m cs)
  | inside {r cs c} : c ∈ cs → NodeOf m c → NodeOf m (.node r cs)

/-- A pattern, a part of it, a part of a part, and so on. -/
inductive SubPattern : PatternObj Ctx → PatternObj Ctx → Prop where
  | self {p} : SubPattern p p
  | part {info p b parts q x} : IsPart q parts → SubPattern q x → SubPattern (.chain info p b parts) x

/-- A pattern is one of the parts of a chain that are not hidden. -/
inductive VisiblePart (p : PatternObj Ctx) : PartObjs Ctx → Prop where
  | head {start stop rest} : VisiblePart p (.cons p start stop false rest)
  | tail {q start stop hidden rest} : VisiblePart p rest → VisiblePart p (.cons q start stop hidden rest)

/-- A pattern, a part of it that is not hidden, such a part of such a part, and so on. -/
inductive VisibleSub : PatternObj Ctx → PatternObj Ctx → Prop where
  | self {p} : VisibleSub p p
  | part {info p b parts q x} : VisiblePart q parts → VisibleSub q x → VisibleSub (.chain info p b parts) x

/-- A match made by a pattern (not by one of its parts): it refers to the pattern, has its tags, marker flag and conflict solver, and is named as the pattern or
as a group of one of its regular expressions. -/
structure MadeByPattern (p : PatternObj Ctx) (m : Match) : Prop where
  pattern : m.pattern = some p.base.id
  tags : m.tags = p.base.opts.tags
  marker : m.marker = p.base.opts.marker
  solver : m.solver = p.base.opts.solver
  name : m.name = p.base.opts.name ∨ ∃ n, m.name = some n ∧ ∃ info b rc regexes, p = .regex info b rc regexes ∧ ∃ re ∈ regexes, some n ∈ re.names

/-- User code of a pattern leaves matches alone: no processor, and functions that give no name, tags, marker flag nor solver. -/
structure LeavesMatchesAlone (p : PatternObj Ctx) : Prop where
  noProcessor : p.base.preMatch = none ∧ p.base.postMatch = none ∧ p.base.postProcessor = none
  functions : ∀ info b fs, p = .functional info b fs → ∀ f ∈ fs, ∀ s : Str,
    ∀ r ∈ (f s).argsIterable, ∀ named a, r.matchArgs named = .ok a → a.name = none ∧ a.tags = none ∧ a.marker = none ∧ a.solver = none

end Rebulk.Spec
