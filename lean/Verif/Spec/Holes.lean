import Verif.Spec.Container
import Verif.Spec.Runs
/-!
# Specification of holes
-/
namespace Rebulk.Spec

/-- No non-ignored match of `l` covers the index `i`. -/
def Free (l : List Match) (ignore : Match → Bool) (i : Int) : Prop := ∀ x ∈ l, ignore x = false → ¬ Covers x i

/-- The index before the range is uncovered, and the first of the range is covered or there is none. -/
def EmptyFirst (F : Int → Prop) (lo hi : Int) : Prop := 0 < lo ∧ F (lo - 1) ∧ (lo = hi ∨ ¬ F lo)

/-- For a range that ends before it starts: the index before its end is uncovered, and no counted match starts between the end and the start. -/
def InvertedHole (l : List Match) (ignore : Match → Bool) (lo hi : Int) : Prop :=
  0 < hi ∧ Free l ignore (hi - 1) ∧ ∀ x ∈ l, ignore x = false → ¬ (hi ≤ x.start ∧ x.start < lo)

/-- What holds of the holes of `[lo, hi)` even with separators: non-empty uncovered spans inside the range, without separator
except possibly as first character, that stop at the end of the range, at a covered index or at a separator, and start at the start of
the range, after a covered index or after a separator; in increasing order and disjoint; every uncovered non-separator
index is in a hole. -/
structure HolesWithSeps (F : Int → Prop) (sep : Int → Prop) (lo hi : Int) (r : List (Int × Int)) : Prop where
  inside : ∀ ab ∈ r, lo ≤ ab.1 ∧ ab.1 < ab.2 ∧ ab.2 ≤ hi
  free : ∀ ab ∈ r, ∀ i, ab.1 ≤ i → i < ab.2 → F i
  noSep : ∀ ab ∈ r, ∀ i, ab.1 < i → i < ab.2 → ¬ sep i
  left : ∀ ab ∈ r, ab.1 = lo ∨ ¬ F (ab.1 - 1) ∨ sep (ab.1 - 1)
  right : ∀ ab ∈ r, ab.2 = hi ∨ ¬ F ab.2 ∨ sep ab.2
  ordered : r.Pairwise (fun x y => x.2 < y.1)
  complete : ∀ i, lo ≤ i → i < hi → F i → ¬ sep i → ∃ ab ∈ r, ab.1 ≤ i ∧ i < ab.2

/-- Without separators, this pins the result down: the maximal runs. -/
theorem HolesWithSeps.maxRuns {F : Int → Prop} {lo hi : Int} {r : List (Int × Int)}
    (h : HolesWithSeps F (fun _ => False) lo hi r) : ListsMaxRuns F lo hi r := by
  have hrun : ∀ ab ∈ r, IsMaxRun F lo hi ab := by
    intro ab hab
    obtain ⟨h1, h2, h3⟩ := h.inside ab hab
    refine ⟨h1, h2, h3, h.free ab hab, ?_, ?_⟩
    · have := h.left ab hab; simpa using this
    · have := h.right ab hab; simpa using this
  have huniq : ∀ x y : Int × Int, IsMaxRun F lo hi x → IsMaxRun F lo hi y → y.1 ≤ x.1 → x.1 < y.2 → x = y := by
    rintro ⟨a, b⟩ ⟨c, d⟩ ⟨h1, h2, h3, h4, h5, h6⟩ ⟨g1, g2, g3, g4, g5, g6⟩ i1 i2
    simp only at *
    have hac : a = c := by
      rcases Int.lt_or_eq_of_le i1 with hlt | heq
      · rcases h5 with h5 | h5
        · omega
        · exact absurd (g4 (a - 1) (by omega) (by omega)) h5
      · exact heq.symm
    have hbd : b = d := by
      rcases Int.lt_trichotomy b d with hlt | heq | hgt
      · rcases h6 with h6 | h6
        · omega
        · exact absurd (g4 b (by omega) hlt) h6
      · exact heq
      · rcases g6 with g6 | g6
        · omega
        · exact absurd (h4 d (by omega) hgt) g6
    rw [hac, hbd]
  refine ⟨fun ab => ⟨hrun ab, ?_⟩, h.ordered⟩
  intro hab
  have h1 := hab
  obtain ⟨g1, g2, g3, g4, _, _⟩ := h1
  obtain ⟨cd, hcd, h5, h6⟩ := h.complete ab.1 g1 (by omega) (g4 _ (by omega) g2) (by simp)
  rw [huniq ab cd hab (hrun cd hcd) h5 h6]
  exact hcd

end Rebulk.Spec
