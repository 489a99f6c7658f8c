import Verif.Spec.Chain
/-!
# Order of chain matches
-/
namespace Rebulk.Spec

/-- The match lies in the text `s` and its children, theirs and so on lie within their parents. -/
inductive Nested (s : Str) : MTree → Prop where
  | node {m : Match} {cs : List MTree} : InText s m → (∀ c ∈ cs, m.start ≤ c.root.start ∧ c.root.stop ≤ m.stop) → (∀ c ∈ cs, Nested s c) →
    Nested s (.node m cs)

/-- The match starts at `a` or later and stops at `b` or earlier. -/
def Within (a b : Int) (t : MTree) : Prop := a ≤ t.root.start ∧ t.root.stop ≤ b

/-- A regular part whose matches have their children inside and lie within the occurrence they come from. -/
structure TidyPart (part : Part) : Prop where
  regular : RegularPart part
  nested : ∀ s em raws, part.search s = .ok (em, raws) → ∀ e ∈ em, Nested s e
  within : ∀ s em raws, part.search s = .ok (em, raws) → ∀ e ∈ em, ∃ r ∈ raws, r.root.matchIndex = e.root.matchIndex ∧
    Within r.root.start r.root.stop e

/-- From left to right, without overlap. -/
def LeftToRight (ts : List MTree) : Prop := ts.Pairwise (fun a b => a.root.stop ≤ b.root.start)

/-- The groups of the match objects lie within the match (no group inside a look-around). -/
def GroupsInside (re : Regex) : Prop :=
  ∀ s, ∀ o ∈ re.finditer s, ∀ g ∈ o.groups, ∀ repeatedCaptures, ∀ sp ∈ g.used repeatedCaptures, o.start ≤ sp.1 ∧ sp.2 ≤ o.stop

/-- No processor. -/
def NoProcessors (p : Pattern) : Prop := p.preMatch = none ∧ p.postMatch = none ∧ p.postProcessor = none

/-- Nothing is ever rejected. -/
def NoValidators (p : Pattern) : Prop := ∀ child t, p.processValidator child t = true

end Rebulk.Spec
