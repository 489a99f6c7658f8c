import Verif.Lemmas.Py
import Verif.Spec.Sort
/-!
# `sorted` on matches is the stable sort by position
-/
namespace Rebulk
open Spec

theorem insertSorted_perm {α} (lt : α → α → Bool) (x : α) (l : List α) : (insertSorted lt x l).Perm (x :: l) := by
  induction l with
  | nil => exact List.Perm.refl _
  | cons y ys ih =>
    simp only [insertSorted]; split
    · exact (ih.cons y).trans (List.Perm.swap _ _ _)
    · exact List.Perm.refl _

theorem pySorted_perm {α} (lt : α → α → Bool) (l : List α) : (pySorted lt l).Perm l := by
  induction l with
  | nil => exact List.Perm.refl _
  | cons x xs ih => exact (insertSorted_perm lt x _).trans (ih.cons x)

section
variable {α κ : Type} [DecidableEq κ] (lt : α → α → Bool) (le : κ → κ → Prop) (key : α → κ)

theorem insertSorted_sorted (hlt : ∀ a b, lt a b = true → le (key a) (key b))
    (hnlt : ∀ a b, lt a b = false → le (key b) (key a)) (htr : ∀ a b c, le a b → le b c → le a c) (x : α) (l : List α)
    (h : l.Pairwise (fun a b => le (key a) (key b))) :
    (insertSorted lt x l).Pairwise (fun a b => le (key a) (key b)) := by
  induction l with
  | nil => simp [insertSorted]
  | cons y ys ih =>
    simp only [insertSorted]
    rw [List.pairwise_cons] at h
    split
    · next hl =>
      rw [List.pairwise_cons]
      refine ⟨?_, ih h.2⟩
      intro z hz
      rcases List.mem_cons.1 ((insertSorted_perm lt x ys).subset hz) with rfl | hz
      · exact hlt _ _ hl
      · exact h.1 z hz
    · next hl =>
      rw [List.pairwise_cons]
      refine ⟨?_, List.pairwise_cons.2 h⟩
      have hxy : le (key x) (key y) := hnlt _ _ (by simpa using hl)
      intro z hz
      rcases List.mem_cons.1 hz with rfl | hz
      · exact hxy
      · exact htr _ _ _ hxy (h.1 z hz)

theorem insertSorted_filter (hirr : ∀ a b, lt a b = true → key a ≠ key b) (x : α) (l : List α) (k : κ) :
    (insertSorted lt x l).filter (fun x => decide (key x = k)) = (x :: l).filter (fun x => decide (key x = k)) := by
  induction l with
  | nil => rfl
  | cons y ys ih =>
    simp only [insertSorted]
    split
    · next hl =>
      rw [List.filter_cons, ih]
      have := hirr _ _ hl
      by_cases h1 : key y = k <;> by_cases h2 : key x = k
      · exact absurd (h1.trans h2.symm) this
      · simp [h1, h2]
      · simp [h1, h2]
      · simp [h1, h2]
    · rfl

/-- Insertion sort is the stable sort. -/
theorem pySorted_isStableSort (hlt : ∀ a b, lt a b = true → le (key a) (key b) ∧ key a ≠ key b)
    (hnlt : ∀ a b, lt a b = false → le (key b) (key a)) (htr : ∀ a b c, le a b → le b c → le a c) (l : List α) :
    IsStableSort le key l (pySorted lt l) := by
  refine ⟨pySorted_perm lt l, ?_, ?_⟩
  · induction l with
    | nil => exact List.Pairwise.nil
    | cons x xs ih => exact insertSorted_sorted lt le key (fun a b h => (hlt a b h).1) hnlt htr x _ ih
  · intro k
    induction l with
    | nil => rfl
    | cons x xs ih =>
      simp only [pySorted]
      rw [insertSorted_filter lt key (fun a b h => (hlt a b h).2), List.filter_cons, ih, List.filter_cons]
end

theorem lexLe_trans (a b c : Int × Int) (h : lexLe a b) (h' : lexLe b c) : lexLe a c := by
  unfold lexLe at *; omega

theorem lexLe_total (a b : Int × Int) : lexLe a b ∨ lexLe b a := by unfold lexLe; omega

theorem lexLe_antisymm (a b : Int × Int) (h : lexLe a b) (h' : lexLe b a) : a = b := by
  unfold lexLe at *
  apply Prod.ext <;> omega

theorem tupleLt_iff (a b : Int × Int) : Match.tupleLt a b = true ↔ lexLe a b ∧ a ≠ b := by
  obtain ⟨a1, a2⟩ := a
  obtain ⟨b1, b2⟩ := b
  simp only [Match.tupleLt, lexLe, Bool.or_eq_true, decide_eq_true_eq, Bool.and_eq_true, beq_iff_eq, ne_eq, Prod.mk.injEq]
  omega

/-- `sorted(matches)` is the stable sort by `(start, end)`. -/
theorem sorted_matches (l : List Match) : IsStableSort lexLe Match.span l (pySorted Match.lt l) := by
  apply pySorted_isStableSort
  · intro a b h; exact (tupleLt_iff _ _).1 h
  · intro a b h
    rcases lexLe_total a.span b.span with h1 | h1
    · by_cases he : a.span = b.span
      · rw [he]; unfold lexLe; omega
      · have : Match.lt a b = true := (tupleLt_iff _ _).2 ⟨h1, he⟩
        rw [h] at this; cases this
    · exact h1
  · exact lexLe_trans

/-- Filtering a stable sort is the stable sort of the filtered list. -/
theorem IsStableSort.filter {α κ : Type} [DecidableEq κ] {le : κ → κ → Prop} {key : α → κ} {l r : List α}
    (h : IsStableSort le key l r) (p : α → Bool) : IsStableSort le key (l.filter p) (r.filter p) := by
  refine ⟨h.perm.filter p, h.sorted.filter p, ?_⟩
  intro k
  rw [List.filter_filter, List.filter_filter]
  have : ∀ m : List α, m.filter (fun a => decide (key a = k) && p a) = (m.filter (fun a => decide (key a = k))).filter p := by
    intro m; rw [List.filter_filter]; apply List.filter_congr; intro x _; rw [Bool.and_comm]
  rw [this, this, h.stable]

/-- A stable sort is unique. -/
theorem IsStableSort.unique {α κ : Type} [DecidableEq κ] {le : κ → κ → Prop} {key : α → κ} {l r r' : List α}
    (hanti : ∀ a b, le a b → le b a → a = b) (hrefl : ∀ a, le a a)
    (h : IsStableSort le key l r) (h' : IsStableSort le key l r') : r = r' := by
  have hst : ∀ k, r.filter (fun x => decide (key x = k)) = r'.filter (fun x => decide (key x = k)) :=
    fun k => (h.stable k).trans (h'.stable k).symm
  have hs := h.sorted
  have hs' := h'.sorted
  have hp : r.Perm r' := h.perm.trans h'.perm.symm
  clear h h'
  induction r generalizing r' with
  | nil => exact (List.nil_perm.1 hp).symm
  | cons x xs ih =>
    cases r' with
    | nil => exact absurd hp.length_eq (by simp)
    | cons y ys =>
      rw [List.pairwise_cons] at hs hs'
      have hkey : key x = key y := by
        have hx : x ∈ y :: ys := hp.subset List.mem_cons_self
        have hy : y ∈ x :: xs := hp.symm.subset List.mem_cons_self
        have a1 : le (key x) (key y) := by
          rcases List.mem_cons.1 hy with e | hy
          · rw [e]; exact hrefl _
          · exact hs.1 y hy
        have a2 : le (key y) (key x) := by
          rcases List.mem_cons.1 hx with e | hx
          · rw [e]; exact hrefl _
          · exact hs'.1 x hx
        exact hanti _ _ a1 a2
      have hxy : x = y := by
        have := hst (key y)
        rw [List.filter_cons, List.filter_cons] at this
        simp only [hkey, decide_true, if_true, List.cons.injEq] at this
        exact this.1
      subst hxy
      congr 1
      apply ih (r' := ys) _ hs.2 hs'.2 ((List.perm_cons x).1 hp)
      intro k
      have := hst k
      rw [List.filter_cons, List.filter_cons] at this
      by_cases hk : key x = k
      · simpa [hk] using this
      · simpa [hk] using this

end Rebulk
