/-!
# Specification of maximal runs of positions
-/
namespace Rebulk.Spec

/-- `(a, b)` is a maximal run of positions of `[lo, hi)` satisfying `P`: non-empty, inside `[lo, hi)`, `P` holds on all of it,
and it can be extended neither to the left nor to the right. -/
def IsMaxRun (P : Int → Prop) (lo hi : Int) (ab : Int × Int) : Prop :=
  lo ≤ ab.1 ∧ ab.1 < ab.2 ∧ ab.2 ≤ hi ∧ (∀ i, ab.1 ≤ i → i < ab.2 → P i) ∧
    (ab.1 = lo ∨ ¬ P (ab.1 - 1)) ∧ (ab.2 = hi ∨ ¬ P ab.2)

/-- `r` lists exactly the maximal runs, from left to right. -/
def ListsMaxRuns (P : Int → Prop) (lo hi : Int) (r : List (Int × Int)) : Prop :=
  (∀ ab, ab ∈ r ↔ IsMaxRun P lo hi ab) ∧ r.Pairwise (fun x y => x.2 < y.1)

end Rebulk.Spec
