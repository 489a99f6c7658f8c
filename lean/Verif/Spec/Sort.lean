/-!
# Specification of stable sorting
-/
namespace Rebulk.Spec

/-- `r` is the stable sort of `l` for the order `le` on `key`: a permutation of `l`, ordered by key, in which elements with
the same key keep their order. -/
structure IsStableSort {α κ : Type} [DecidableEq κ] (le : κ → κ → Prop) (key : α → κ) (l r : List α) : Prop where
  perm : r.Perm l
  sorted : r.Pairwise (fun a b => le (key a) (key b))
  stable : ∀ k, r.filter (fun x => decide (key x = k)) = l.filter (fun x => decide (key x = k))

/-- Lexicographic `≤` on pairs of integers. -/
def lexLe (a b : Int × Int) : Prop := a.1 < b.1 ∨ (a.1 = b.1 ∧ a.2 ≤ b.2)

end Rebulk.Spec
