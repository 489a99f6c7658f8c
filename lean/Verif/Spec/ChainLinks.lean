import Verif.Spec.ChainValid
/-!
# Matches found inside a chain belong to the chain match
-/
namespace Rebulk.Spec

/-- `T` is a match of the search or a shortened form of one: it has the place of a match `t` of the search, perhaps without its end. -/
structure OfSearch (ts : List MTree) (T : MTree) : Prop where
  place : ∃ t ∈ ts, T.root.start = t.root.start ∧ T.root.stop ≤ t.root.stop ∧ T.root.pattern = t.root.pattern

/-- `e` is a match of the search, or lies in one, which is its parent and its initiator. -/
def Belongs (ts : List MTree) (e : MTree) : Prop :=
  OfSearch ts e ∧ e.root.ancestors = [] ∨
  ∃ T, OfSearch ts T ∧ e ∈ T.children ∧ e.root.ancestors = [T.root.core] ∧ T.root.start ≤ e.root.start ∧ e.root.stop ≤ T.root.stop ∧
    e.root.initiator = T.root.core ∧ e.root.initLen = T.root.stop - T.root.start

/-- The parents `l` lead to `base`: none of those on the way is empty. -/
def Hangs (base l : List Core) : Prop := ∃ q, l = q ++ base ∧ ∀ a ∈ q, a.start < a.stop

/-- Following `parent` from a child leads to the match, and on to the parents of the match. -/
def Hung (t : MTree) : Prop := ∀ c ∈ t.children, Hangs (t.root.core :: t.root.ancestors) c.root.ancestors

/-- A match found in the text `s`, not empty, whose children were found there too and have it as parent. -/
structure FamilyIn (s : Str) (e : MTree) : Prop where
  hung : Hung e
  text : e.root.inputString = some s ∧ ∀ c ∈ e.children, c.root.inputString = some s
  wide : e.root.start < e.root.stop

/-- A part whose search gives such matches. -/
def FindsFamilies (part : Part) : Prop := ∀ s em raws, part.search s = .ok (em, raws) → ∀ e ∈ em, FamilyIn s e

/-- A regular expression whose groups do not end before they start (no regular expression does). -/
def GroupsForward (re : Regex) : Prop := ∀ s, ∀ o ∈ re.finditer s, ∀ g ∈ o.groups, ∀ repeatedCaptures, ∀ sp ∈ g.used repeatedCaptures, sp.1 ≤ sp.2

/-- `e` is a match of the chain (without parent), or following `parent` from it leads to one, `T`, among whose children it is, and which is its initiator; `T` has
the place of a match of the search, perhaps without its end. -/
def LeadsTo (ts : List MTree) (e : MTree) : Prop :=
  ∃ t ∈ ts, ∃ T : MTree, T.root.ancestors = [] ∧ T.root.start = t.root.start ∧ T.root.pattern = t.root.pattern ∧ T.root.start < T.root.stop ∧
    (e = T ∨ e ∈ T.children ∧ e.root.ancestors.getLast? = some T.root.core ∧ e.root.initiator = T.root.core)

end Rebulk.Spec
