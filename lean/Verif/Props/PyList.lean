import Verif.Props.BuiltContainers
import Verif.Lemmas.Slices
/-!
# C04, C19, C20: the Python list operations the containers are compared with

`Model/Py.lean` has Python's indexing and slicing of lists; here they are shown to be what `Spec/Sequence.lean` reads in Python's documentation.
-/
namespace Rebulk
open Matches Spec

/-- **C04, indexing.** `l[i]` is the element at `i`, a negative `i` counting from the end, and raises `IndexError` outside. -/
theorem C04_python_index {α : Type} (l : List α) (i : Int) :
    pyGet l i = (if 0 ≤ fromEnd l.length i then l[(fromEnd l.length i).toNat]? else none) ∧
    normIdx l.length i = (if 0 ≤ fromEnd l.length i ∧ fromEnd l.length i < l.length then some (fromEnd l.length i).toNat else none) := by
  have hn : normIdx l.length i =
      (if 0 ≤ fromEnd l.length i ∧ fromEnd l.length i < l.length then some (fromEnd l.length i).toNat else none) := by
    unfold normIdx fromEnd
    by_cases hi : i < 0
    · rw [if_pos hi, if_neg (by omega)]
      by_cases h : 0 ≤ i + (l.length : Int)
      · rw [if_pos h, if_pos ⟨h, by omega⟩]
      · rw [if_neg h, if_neg (fun hc => h hc.1)]
    · rw [if_neg hi, if_pos (by omega)]
      by_cases h : i < (l.length : Int)
      · rw [if_pos h, if_pos ⟨by omega, h⟩]
      · rw [if_neg h, if_neg (fun hc => h hc.2)]
  refine ⟨?_, hn⟩
  unfold pyGet
  rw [hn]
  by_cases h0 : 0 ≤ fromEnd l.length i
  · by_cases h1 : fromEnd l.length i < l.length
    · rw [if_pos ⟨h0, h1⟩, if_pos h0]
    · rw [if_neg (fun hc => h1 hc.2), if_pos h0, List.getElem?_eq_none (by omega)]
  · rw [if_neg (fun hc => h0 hc.1), if_neg h0]

/-- **C04, insertion.** The place of `insert(i, x)`: `i`, a negative one counting from the end, brought between the two ends. -/
theorem C04_python_insert (n : Nat) (i : Int) : (clampIdx n i : Int) = max 0 (min (n : Int) (fromEnd n i)) := by
  unfold clampIdx fromEnd
  by_cases hi : i < 0
  · rw [if_pos hi, if_pos hi]; omega
  · rw [if_neg hi, if_neg hi]; omega

theorem chosen_step_one (n : Nat) (a b : Option Int) (x : Nat) (hx : x < n) :
    Chosen n a b 1 x ↔ (sliceBounds n a b).1 ≤ x ∧ x < (sliceBounds n a b).2 := by
  have hd : ∀ z : Int, (1 : Int) ∣ z := fun z => ⟨z, by omega⟩
  unfold Chosen sliceFrom sliceTo sliceBounds fromEnd clampIdx
  simp only [show (0 : Int) < 1 by decide, if_true, hd, and_true]
  cases a with
  | none => cases b with
    | none => simp only; omega
    | some j => simp only; by_cases hj : j < 0 <;> simp only [hj, if_true, if_false] <;> omega
  | some i => cases b with
    | none => simp only; by_cases hi : i < 0 <;> simp only [hi, if_true, if_false] <;> omega
    | some j => simp only; by_cases hi : i < 0 <;> by_cases hj : j < 0 <;> simp only [hi, hj, if_true, if_false] <;> omega

theorem sliceBounds_le (n : Nat) (a b : Option Int) : (sliceBounds n a b).2 ≤ max n ((sliceBounds n a b).2 - 0) ∧
    ∀ x, (sliceBounds n a b).1 ≤ x → x < (sliceBounds n a b).2 → x < n := by
  refine ⟨by omega, ?_⟩
  intro x
  unfold sliceBounds clampIdx
  cases b with
  | none => simp only; omega
  | some j => simp only; by_cases hj : j < 0 <;> simp only [hj, if_true, if_false] <;> omega

/-- **C19, slices.** `l[a:b]` has the elements of the documented positions. -/
theorem C19_python_slice {α : Type} (l : List α) (a b : Option Int) : pySlice l a b = elementsAt l (positions l.length a b 1) := by
  have hp : positions l.length a b 1 = List.range' (sliceBounds l.length a b).1 ((sliceBounds l.length a b).2 - (sliceBounds l.length a b).1) := by
    unfold positions
    rw [if_pos (by decide)]
    refine eq_of_lt_sorted (List.pairwise_lt_range.sublist List.filter_sublist) List.pairwise_lt_range' (fun x => ?_)
    rw [List.mem_filter, List.mem_range, List.mem_range'_1]
    constructor
    · rintro ⟨h1, h2⟩
      have := (chosen_step_one _ a b x h1).1 (of_decide_eq_true h2)
      omega
    · rintro ⟨h1, h2⟩
      have hx := (sliceBounds_le l.length a b).2 x h1 (by omega)
      exact ⟨hx, decide_eq_true ((chosen_step_one _ a b x hx).2 ⟨h1, by omega⟩)⟩
  rw [hp, elementsAt_range', ← List.drop_take]
  rfl

theorem without_one {α : Type} (l : List α) (a b : Option Int) :
    (if (sliceBounds l.length a b).1 < (sliceBounds l.length a b).2 then
      l.take (sliceBounds l.length a b).1 ++ l.drop (sliceBounds l.length a b).2 else l) = withoutSlice l a b 1 := by
  unfold withoutSlice
  have hb := (sliceBounds_le l.length a b).2
  have hc := chosen_step_one l.length a b
  generalize hlo : (sliceBounds l.length a b).1 = lo at *
  generalize hhi : (sliceBounds l.length a b).2 = hi at *
  by_cases h : lo < hi
  · rw [if_pos h]
    have hle : hi ≤ l.length := by have := hb (hi - 1) (by omega) (by omega); omega
    have hr : (List.range l.length).filter (fun x => !decide (Chosen l.length a b 1 x)) =
        List.range' 0 lo ++ List.range' hi (l.length - hi) := by
      refine eq_of_lt_sorted (List.pairwise_lt_range.sublist List.filter_sublist) ?_ (fun x => ?_)
      · rw [List.pairwise_append]
        refine ⟨List.pairwise_lt_range', List.pairwise_lt_range', fun x hx y hy => ?_⟩
        rw [List.mem_range'_1] at hx hy
        omega
      · rw [List.mem_filter, List.mem_range, List.mem_append, List.mem_range'_1, List.mem_range'_1]
        constructor
        · rintro ⟨h1, h2⟩
          have : ¬ Chosen l.length a b 1 x := by simpa using h2
          rw [hc x h1] at this
          omega
        · intro h1
          have hx : x < l.length := by omega
          refine ⟨hx, ?_⟩
          have : ¬ Chosen l.length a b 1 x := by rw [hc x hx]; omega
          simpa using this
    rw [hr]
    unfold elementsAt
    rw [List.filterMap_append]
    have e1 := elementsAt_range' l 0 lo
    have e2 := elementsAt_range' l hi (l.length - hi)
    unfold elementsAt at e1 e2
    rw [e1, e2, List.drop_zero, List.take_of_length_le (l := l.drop hi) (by rw [List.length_drop]; omega)]
  · rw [if_neg h]
    have hr : (List.range l.length).filter (fun x => !decide (Chosen l.length a b 1 x)) = List.range' 0 l.length := by
      refine eq_of_lt_sorted (List.pairwise_lt_range.sublist List.filter_sublist) List.pairwise_lt_range' (fun x => ?_)
      rw [List.mem_filter, List.mem_range, List.mem_range'_1]
      constructor
      · rintro ⟨h1, _⟩; omega
      · rintro ⟨_, h1⟩
        have hx : x < l.length := by omega
        refine ⟨hx, ?_⟩
        have : ¬ Chosen l.length a b 1 x := by rw [hc x hx]; omega
        simpa using this
    rw [hr, elementsAt_range', List.drop_zero, List.take_length]

/-- **C20, what is left.** After `del matches[a:b]`, whether it raised or not, the sequence has lost the documented positions and nothing else. -/
theorem C20_without (s : Matches) (a b : Option Int) : (s.step (.delSlice a b)).1.delegate = withoutSlice s.delegate a b 1 := by
  rw [← without_one]
  have : (s.step (.delSlice a b)).1 = (s.delSlice a b).1 := by
    simp only [step]
  rw [this]
  unfold delSlice
  simp only
  rw [removeAll_delegate]

/-- Python examples: `l[-2]`, `l[5]`, `l[-3:-1]`, `l[2:1]`, and what `del l[1:-1]` leaves. -/
example : pyGet [10, 11, 12] (-2) = some 11 ∧ pyGet [10, 11, 12] 5 = none ∧ elementsAt [10, 11, 12] (positions 3 (some (-3)) (some (-1)) 1) = [10, 11] ∧
    elementsAt [10, 11, 12] (positions 3 (some 2) (some 1) 1) = [] ∧ withoutSlice [10, 11, 12] (some 1) (some (-1)) 1 = [10, 12] ∧
    clampIdx 3 (-7) = 0 ∧ clampIdx 3 7 = 3 := by decide

end Rebulk
