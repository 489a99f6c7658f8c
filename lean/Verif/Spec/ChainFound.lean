import Verif.Spec.Chain
/-!
# When a chain is found
-/
namespace Rebulk.Spec

/-- Searching the text that follows the first occurrence finds the other ones. -/
def Resumes (part : Part) : Prop :=
  ∀ s em r rest, part.search s = .ok (em, r :: rest) → ∀ em' raws', part.search (s.drop r.root.stop.toNat) = .ok (em', raws') →
    raws'.map (fun t => (t.root.start + r.root.stop, t.root.stop + r.root.stop)) = rest.map (fun t => t.root.span)

/-- When there is an occurrence, the first match the part emits is for the first occurrence. -/
def EmitsFirst (part : Part) : Prop :=
  ∀ s em raws, part.search s = .ok (em, raws) → raws ≠ [] → ∃ e, em.head? = some e ∧ e.root.matchIndex = 0

/-- The text begins with `n` occurrences of the part, one right after the other, and this is a number of times the repeater allows. -/
def BeginsWith (part : Part) (s : Str) : Prop :=
  ∃ em raws n, part.search s = .ok (em, raws) ∧ n ≤ raws.length ∧ Contiguous (raws.take n) ∧
    (∀ r, (raws.take n).head? = some r → r.root.start = 0) ∧ part.start ≤ n ∧ ∀ e, part.stop = some e → (n : Int) ≤ e

end Rebulk.Spec
