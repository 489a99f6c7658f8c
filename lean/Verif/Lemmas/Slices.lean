import Verif.Spec.Sequence
/-!
# Slices: CPython's computation and the documented meaning agree
-/
namespace Rebulk
open Spec

theorem eq_of_lt_sorted {l₁ l₂ : List Nat} (h₁ : l₁.Pairwise (· < ·)) (h₂ : l₂.Pairwise (· < ·)) (h : ∀ x, x ∈ l₁ ↔ x ∈ l₂) : l₁ = l₂ := by
  have n₁ : l₁.Nodup := h₁.imp (fun h => Nat.ne_of_lt h)
  have n₂ : l₂.Nodup := h₂.imp (fun h => Nat.ne_of_lt h)
  exact List.Perm.eq_of_pairwise (le := (· < ·)) (fun a b _ _ hab hba => by omega) h₁ h₂ ((List.perm_ext_iff_of_nodup n₁ n₂).2 h)

theorem eq_of_gt_sorted {l₁ l₂ : List Nat} (h₁ : l₁.Pairwise (· > ·)) (h₂ : l₂.Pairwise (· > ·)) (h : ∀ x, x ∈ l₁ ↔ x ∈ l₂) : l₁ = l₂ := by
  have n₁ : l₁.Nodup := h₁.imp (fun h => Nat.ne_of_gt h)
  have n₂ : l₂.Nodup := h₂.imp (fun h => Nat.ne_of_gt h)
  exact List.Perm.eq_of_pairwise (le := (· > ·)) (fun a b _ _ hab hba => by omega) h₁ h₂ ((List.perm_ext_iff_of_nodup n₁ n₂).2 h)

theorem sliceStart_bounds (n : Nat) (a : Option Int) : 0 ≤ sliceStart n false a ∧ sliceStart n false a ≤ n := by
  cases a with
  | none => simp [sliceStart]
  | some i => simp only [sliceStart, adjustBound, Bool.false_eq_true, if_false]; repeat' split <;> omega

theorem sliceStop_bounds (n : Nat) (a : Option Int) : 0 ≤ sliceStop n false a ∧ sliceStop n false a ≤ n := by
  cases a with
  | none => simp [sliceStop]
  | some i => simp only [sliceStop, adjustBound, Bool.false_eq_true, if_false]; repeat' split <;> omega

theorem sliceStart_bounds' (n : Nat) (a : Option Int) : -1 ≤ sliceStart n true a ∧ sliceStart n true a < n := by
  cases a with
  | none => simp [sliceStart]; omega
  | some i => simp only [sliceStart, adjustBound, if_true]; repeat' split <;> omega

theorem sliceStop_bounds' (n : Nat) (a : Option Int) : -1 ≤ sliceStop n true a ∧ sliceStop n true a < n := by
  cases a with
  | none => simp [sliceStop]; omega
  | some i => simp only [sliceStop, adjustBound, if_true]; repeat' split <;> omega

theorem mem_count {start stop k : Int} (hk : 0 < k) (i : Nat) :
    i < (if start < stop then ((stop - start - 1) / k + 1).toNat else 0) ↔ start + k * i < stop := by
  have hki : 0 ≤ k * (i : Int) := Int.mul_nonneg (by omega) (by omega)
  split
  · rename_i h
    have hd : (0 : Int) ≤ (stop - start - 1) / k := Int.ediv_nonneg (by omega) (by omega)
    have := @Int.le_ediv_iff_mul_le (i : Int) (stop - start - 1) k hk
    rw [Int.mul_comm] at this
    constructor
    · intro h'
      have : (i : Int) ≤ (stop - start - 1) / k := by omega
      have := (‹(i : Int) ≤ (stop - start - 1) / k ↔ _›).1 this
      omega
    · intro h'
      have := this.2 (by omega)
      omega
  · constructor
    · intro h'; omega
    · intro h'; omega

theorem mem_sliceIndices_pos {n : Nat} {a b : Option Int} {k : Int} (hk : 0 < k) (x : Nat) :
    x ∈ sliceIndices n a b k ↔ sliceStart n false a ≤ x ∧ (x : Int) < sliceStop n false b ∧ k ∣ x - sliceStart n false a := by
  have h0 : ¬ k < 0 := by omega
  have hs := sliceStart_bounds n a
  unfold sliceIndices
  simp only [h0, decide_false, sliceLength, if_false, List.mem_map, List.mem_range, mem_count hk]
  constructor
  · rintro ⟨i, hi, rfl⟩
    have : 0 ≤ k * (i : Int) := Int.mul_nonneg (by omega) (by omega)
    rw [Int.toNat_of_nonneg (by omega)]
    exact ⟨by omega, hi, ⟨i, by omega⟩⟩
  · rintro ⟨h1, h2, c, hc⟩
    have hcn : 0 ≤ c := by
      rcases Int.lt_or_le c 0 with h | h
      · have := Int.mul_neg_of_pos_of_neg hk h; omega
      · exact h
    refine ⟨c.toNat, ?_, ?_⟩
    · rw [Int.toNat_of_nonneg hcn]; omega
    · rw [Int.toNat_of_nonneg hcn]; omega

theorem mem_sliceIndices_neg {n : Nat} {a b : Option Int} {k : Int} (hk : k < 0) (x : Nat) :
    x ∈ sliceIndices n a b k ↔ (x : Int) ≤ sliceStart n true a ∧ sliceStop n true b < x ∧ k ∣ x - sliceStart n true a := by
  have hs := sliceStart_bounds' n a
  have ht := sliceStop_bounds' n b
  have hm : ∀ i : Nat, i < sliceLength (sliceStart n true a) (sliceStop n true b) k ↔ sliceStop n true b < sliceStart n true a + k * i := by
    intro i
    have := @mem_count (-(sliceStart n true a)) (-(sliceStop n true b)) (-k) (by omega) i
    unfold sliceLength
    rw [if_pos hk]
    have e1 : (sliceStop n true b < sliceStart n true a) = (-(sliceStart n true a) < -(sliceStop n true b)) := propext (by omega)
    have e2 : sliceStart n true a - sliceStop n true b - 1 = -(sliceStop n true b) - -(sliceStart n true a) - 1 := by omega
    simp only [e1, e2]
    rw [this, Int.neg_mul]
    omega
  unfold sliceIndices
  simp only [hk, decide_true, List.mem_map, List.mem_range, hm]
  constructor
  · rintro ⟨i, hi, rfl⟩
    have : 0 ≤ -k * (i : Int) := Int.mul_nonneg (by omega) (by omega)
    rw [Int.neg_mul] at this
    rw [Int.toNat_of_nonneg (by omega)]
    exact ⟨by omega, hi, ⟨i, by omega⟩⟩
  · rintro ⟨h1, h2, c, hc⟩
    have hcn : 0 ≤ c := by
      rcases Int.lt_or_le c 0 with h | h
      · have := Int.mul_pos_of_neg_of_neg hk h; omega
      · exact h
    refine ⟨c.toNat, ?_, ?_⟩
    · rw [Int.toNat_of_nonneg hcn]; omega
    · rw [Int.toNat_of_nonneg hcn]; omega

theorem sliceIndices_sorted_pos {n : Nat} {a b : Option Int} {k : Int} (hk : 0 < k) : (sliceIndices n a b k).Pairwise (· < ·) := by
  have h0 : ¬ k < 0 := by omega
  have hs := sliceStart_bounds n a
  unfold sliceIndices
  rw [List.pairwise_map]
  refine List.pairwise_lt_range.imp ?_
  intro i j hij
  simp only [h0, decide_false]
  have h1 : 0 ≤ k * (i : Int) := Int.mul_nonneg (by omega) (by omega)
  have h2 : k * (i : Int) < k * (j : Int) := Int.mul_lt_mul_of_pos_left (by omega) hk
  omega

theorem sliceIndices_sorted_neg {n : Nat} {a b : Option Int} {k : Int} (hk : k < 0) : (sliceIndices n a b k).Pairwise (· > ·) := by
  have hs := sliceStart_bounds' n a
  unfold sliceIndices
  rw [List.pairwise_map]
  have hall : ∀ i : Nat, i ∈ List.range (sliceLength (sliceStart n (decide (k < 0)) a) (sliceStop n (decide (k < 0)) b) k) →
      0 ≤ sliceStart n true a + k * i := by
    intro i hi
    have hmem : (sliceStart n true a + k * (i : Int)).toNat ∈ sliceIndices n a b k := by
      unfold sliceIndices
      refine List.mem_map.2 ⟨i, hi, ?_⟩
      simp only [hk, decide_true]
    have ht := sliceStop_bounds' n b
    rcases Int.lt_or_le (sliceStart n true a + k * (i : Int)) 0 with h | h
    · exfalso
      have hi' := List.mem_range.1 hi
      simp only [hk, decide_true] at hi'
      have := @mem_count (-(sliceStart n true a)) (-(sliceStop n true b)) (-k) (by omega) i
      have e1 : (sliceStop n true b < sliceStart n true a) = (-(sliceStart n true a) < -(sliceStop n true b)) := propext (by omega)
      have e2 : sliceStart n true a - sliceStop n true b - 1 = -(sliceStop n true b) - -(sliceStart n true a) - 1 := by omega
      unfold sliceLength at hi'
      rw [if_pos hk] at hi'
      simp only [e1, e2] at hi'
      have := this.1 hi'
      rw [Int.neg_mul] at this
      omega
    · exact h
  refine List.Pairwise.imp_of_mem ?_ List.pairwise_lt_range
  intro i j hi hj hij
  simp only [hk, decide_true]
  have h1 := hall j hj
  have h2 : -k * (i : Int) < -k * (j : Int) := Int.mul_lt_mul_of_pos_left (by omega) (by omega)
  rw [Int.neg_mul, Int.neg_mul] at h2
  have h3 := hall i hi
  omega

theorem chosen_pos {n : Nat} {a b : Option Int} {k : Int} (hk : 0 < k) (x : Nat) (hx : x < n) :
    Chosen n a b k x ↔ sliceStart n false a ≤ x ∧ (x : Int) < sliceStop n false b ∧ k ∣ x - sliceStart n false a := by
  have hto : (x : Int) < sliceTo n k b ↔ (x : Int) < sliceStop n false b := by
    cases b with
    | none => simp [sliceTo, sliceStop, hk]
    | some j => simp only [sliceTo, sliceStop, fromEnd, adjustBound, Bool.false_eq_true, if_false]; repeat' split <;> omega
  have hfrom : (sliceFrom n k a ≤ x → sliceFrom n k a = sliceStart n false a) ∧ (sliceFrom n k a ≤ x ↔ sliceStart n false a ≤ x) := by
    cases a with
    | none => simp [sliceFrom, sliceStart, hk]
    | some j =>
      simp only [sliceFrom, sliceStart, fromEnd, adjustBound, Bool.false_eq_true, if_false, hk, if_true]
      constructor
      · repeat' split <;> omega
      · repeat' split <;> omega
  unfold Chosen
  rw [if_pos hk, hto]
  constructor
  · rintro ⟨⟨h1, h2⟩, h3⟩
    rw [hfrom.1 h1] at h3
    exact ⟨hfrom.2.1 h1, h2, h3⟩
  · rintro ⟨h1, h2, h3⟩
    have h1' := hfrom.2.2 h1
    refine ⟨⟨h1', h2⟩, ?_⟩
    rw [hfrom.1 h1']; exact h3

theorem chosen_neg {n : Nat} {a b : Option Int} {k : Int} (hk : k < 0) (x : Nat) (hx : x < n) :
    Chosen n a b k x ↔ (x : Int) ≤ sliceStart n true a ∧ sliceStop n true b < x ∧ k ∣ x - sliceStart n true a := by
  have h0 : ¬ 0 < k := by omega
  have hto : sliceTo n k b < x ↔ sliceStop n true b < x := by
    cases b with
    | none => simp [sliceTo, sliceStop, h0]
    | some j => simp only [sliceTo, sliceStop, fromEnd, adjustBound, if_true]; repeat' split <;> omega
  have hfrom : ((x : Int) ≤ sliceFrom n k a → sliceFrom n k a = sliceStart n true a) ∧ ((x : Int) ≤ sliceFrom n k a ↔ (x : Int) ≤ sliceStart n true a) := by
    cases a with
    | none => simp [sliceFrom, sliceStart, h0]
    | some j =>
      simp only [sliceFrom, sliceStart, fromEnd, adjustBound, if_true, h0, if_false]
      constructor
      · repeat' split <;> omega
      · repeat' split <;> omega
  unfold Chosen
  rw [if_neg h0, hto]
  constructor
  · rintro ⟨⟨h1, h2⟩, h3⟩
    rw [hfrom.1 h1] at h3
    exact ⟨hfrom.2.1 h1, h2, h3⟩
  · rintro ⟨h1, h2, h3⟩
    have h1' := hfrom.2.2 h1
    refine ⟨⟨h1', h2⟩, ?_⟩
    rw [hfrom.1 h1']; exact h3

/-- The positions computed by CPython are the positions of the slice. -/
theorem sliceIndices_eq (n : Nat) (a b : Option Int) (k : Int) (hk : k ≠ 0) : sliceIndices n a b k = positions n a b k := by
  rcases Int.lt_or_lt_of_ne hk with h | h
  · unfold positions
    rw [if_neg (by omega)]
    apply eq_of_gt_sorted (sliceIndices_sorted_neg h)
    · rw [List.pairwise_reverse]
      exact List.pairwise_lt_range.filter _
    · intro x
      rw [mem_sliceIndices_neg h, List.mem_reverse, List.mem_filter, List.mem_range, decide_eq_true_eq]
      have hs := sliceStart_bounds' n a
      constructor
      · rintro ⟨h1, h2, h3⟩
        exact ⟨by omega, (chosen_neg h x (by omega)).2 ⟨h1, h2, h3⟩⟩
      · rintro ⟨h1, h2⟩
        exact (chosen_neg h x h1).1 h2
  · unfold positions
    rw [if_pos h]
    apply eq_of_lt_sorted (sliceIndices_sorted_pos h)
    · exact List.pairwise_lt_range.filter _
    · intro x
      rw [mem_sliceIndices_pos h, List.mem_filter, List.mem_range, decide_eq_true_eq]
      have hs := sliceStop_bounds n b
      constructor
      · rintro ⟨h1, h2, h3⟩
        exact ⟨by omega, (chosen_pos h x (by omega)).2 ⟨h1, h2, h3⟩⟩
      · rintro ⟨h1, h2⟩
        exact (chosen_pos h x h1).1 h2

theorem mem_positions {n : Nat} {a b : Option Int} {k : Int} {x : Nat} : x ∈ positions n a b k ↔ x < n ∧ Chosen n a b k x := by
  unfold positions
  split <;> simp

theorem positions_nodup (n : Nat) (a b : Option Int) (k : Int) : (positions n a b k).Nodup := by
  unfold positions
  split
  · exact List.nodup_range.filter _
  · exact List.pairwise_reverse.2 ((List.nodup_range.filter _).imp (fun h => h.symm))

theorem listGetSlice_eq {α} (l : List α) (a b step : Option Int) :
    listGetSlice l a b step = if step.getD 1 = 0 then .error .valueError else .ok (elementsAt l (positions l.length a b (step.getD 1))) := by
  unfold listGetSlice elementsAt
  split
  · rfl
  · rename_i h; rw [sliceIndices_eq _ _ _ _ h]

theorem filterMap_congr_mem {α β} {f g : α → Option β} {l : List α} (h : ∀ x ∈ l, f x = g x) : l.filterMap f = l.filterMap g := by
  induction l with
  | nil => rfl
  | cons x l ih =>
    rw [List.filterMap_cons, List.filterMap_cons, h x List.mem_cons_self, ih (fun y hy => h y (List.mem_cons_of_mem _ hy))]

theorem zipIdx_filter_range {α} (q : Nat → Bool) (l : List α) (off : Nat) :
    ((l.zipIdx off).filter (fun p => q p.2)).map Prod.fst = ((List.range' off l.length).filter q).filterMap (fun i => l[i - off]?) := by
  induction l generalizing off with
  | nil => rfl
  | cons x l ih =>
    rw [List.zipIdx_cons, List.length_cons, List.range'_succ, List.filter_cons, List.filter_cons]
    have hc : ((List.range' (off + 1) l.length).filter q).filterMap (fun i => (x :: l)[i - off]?) =
        ((List.range' (off + 1) l.length).filter q).filterMap (fun i => l[i - (off + 1)]?) := by
      apply filterMap_congr_mem
      intro i hi
      have := (List.mem_range'_1.1 (List.mem_filter.1 hi).1).1
      rw [show i - off = (i - (off + 1)) + 1 by omega, List.getElem?_cons_succ]
    by_cases hq : q off
    · simp only [hq, if_true, List.map_cons, List.filterMap_cons, Nat.sub_self, List.getElem?_cons_zero]
      rw [hc, ← ih]
    · simp only [hq, Bool.false_eq_true, if_false]
      rw [hc, ← ih]

theorem dropPositions_eq {α} (l : List α) (idxs : List Nat) :
    dropPositions l idxs = elementsAt l ((List.range l.length).filter (fun x => !idxs.contains x)) := by
  unfold dropPositions elementsAt
  rw [List.range_eq_range', zipIdx_filter_range (fun x => !idxs.contains x) l 0]
  rfl

theorem listDelSlice_eq {α} (l : List α) (a b step : Option Int) :
    listDelSlice l a b step = if step.getD 1 = 0 then .error .valueError else .ok (withoutSlice l a b (step.getD 1)) := by
  unfold listDelSlice
  split
  · rfl
  · rename_i h
    rw [sliceIndices_eq _ _ _ _ h, dropPositions_eq]
    unfold withoutSlice
    congr 2
    apply List.filter_congr
    intro x hx
    have := List.mem_range.1 hx
    congr 1
    rw [Bool.eq_iff_iff, List.contains_iff_mem, mem_positions, decide_eq_true_eq]
    exact ⟨fun h => h.2, fun h => ⟨this, h⟩⟩

theorem setPositions_get {α} (ps : List Nat) : ∀ (vs : List α) (l : List α), ps.Nodup → ps.length = vs.length → ∀ x,
    (setPositions l ps vs)[x]? = l[x]?.map (newValue ps vs x) := by
  induction ps with
  | nil =>
    intro vs l _ _ x
    have : (newValue [] vs x : α → α) = id := by funext m; simp [newValue, List.idxOf?]
    rw [this]; simp [setPositions]
  | cons p ps ih =>
    intro vs l hn hl x
    cases vs with
    | nil => simp at hl
    | cons v vs =>
      have hl' : ps.length = vs.length := by simpa using hl
      have hn' := List.nodup_cons.1 hn
      have : setPositions l (p :: ps) (v :: vs) = setPositions (l.set p v) ps vs := rfl
      rw [this, ih vs (l.set p v) hn'.2 hl' x, List.getElem?_set]
      unfold newValue
      rw [List.idxOf?_cons]
      by_cases hx : p = x
      · subst hx
        have hi : ps.idxOf? p = none := by
          rw [List.idxOf?_eq_none_iff]; exact hn'.1
        simp only [hi, if_true, beq_self_eq_true, List.getD_cons_zero]
        by_cases hlt : p < l.length
        · simp [hlt]
        · simp [hlt]
      · have hb : (p == x) = false := by simp [hx]
        simp only [if_neg hx, hb, Bool.false_eq_true, if_false]
        cases ps.idxOf? x <;> simp

theorem take_of_ge {α} {l : List α} {i j : Nat} (h : i = j ∨ (l.length ≤ i ∧ l.length ≤ j)) : l.take i = l.take j ∧ l.drop i = l.drop j := by
  rcases h with rfl | ⟨h1, h2⟩
  · exact ⟨rfl, rfl⟩
  · rw [List.take_of_length_le h1, List.take_of_length_le h2, List.drop_eq_nil_of_le h1, List.drop_eq_nil_of_le h2]
    exact ⟨rfl, rfl⟩

theorem listSetSlice_eq {α} (l : List α) (a b step : Option Int) (vs : List α) :
    listSetSlice l a b step vs =
      if step.getD 1 = 0 then .error .valueError
      else if step.getD 1 = 1 then .ok (spliced l a b vs)
      else if (positions l.length a b (step.getD 1)).length = vs.length then .ok (withSlice l a b (step.getD 1) vs)
      else .error .valueError := by
  unfold listSetSlice
  by_cases h0 : step.getD 1 = 0
  · rw [if_pos h0, if_pos h0]
  · rw [if_neg h0, if_neg h0, sliceIndices_eq _ _ _ _ h0]
    by_cases h1 : step.getD 1 = 1
    · rw [if_pos h1, if_pos h1]
      unfold spliced
      have hs := sliceStart_bounds l.length a
      have ht := sliceStop_bounds l.length b
      have hf : sliceFrom l.length 1 a = sliceStart l.length false a ∨ (l.length ≤ sliceFrom l.length 1 a ∧ sliceStart l.length false a = l.length) := by
        cases a with
        | none => simp [sliceFrom, sliceStart]
        | some j =>
          simp only [sliceFrom, sliceStart, fromEnd, adjustBound, Bool.false_eq_true, if_false, show (0 : Int) < 1 by omega, if_true]
          repeat' split <;> omega
      have hg : max 0 (sliceTo l.length 1 b) = sliceStop l.length false b ∨ (l.length ≤ sliceTo l.length 1 b ∧ sliceStop l.length false b = l.length) := by
        cases b with
        | none => right; simp [sliceTo, sliceStop]
        | some j =>
          simp only [sliceTo, sliceStop, fromEnd, adjustBound, Bool.false_eq_true, if_false]
          repeat' split <;> omega
      rw [(take_of_ge (l := l) (i := (sliceStart l.length false a).toNat) (j := (sliceFrom l.length 1 a).toNat) (by omega)).1,
        (take_of_ge (l := l) (i := (max (sliceStart l.length false a) (sliceStop l.length false b)).toNat)
          (j := (max (sliceFrom l.length 1 a) (sliceTo l.length 1 b)).toNat) (by omega)).2]
    · rw [if_neg h1, if_neg h1]
      split
      · rename_i h
        congr 1
        unfold withSlice
        apply List.ext_getElem?
        intro x
        rw [setPositions_get _ _ _ (positions_nodup _ _ _ _) h, List.getElem?_mapIdx]
      · rfl

theorem elementsAt_range' {α} (l : List α) (lo len : Nat) : elementsAt l (List.range' lo len) = (l.drop lo).take len := by
  induction len generalizing lo with
  | zero => simp [elementsAt]
  | succ n ih =>
    rw [List.range'_succ]
    unfold elementsAt
    rw [List.filterMap_cons]
    cases h : l[lo]? with
    | none =>
      have hlen : l.length ≤ lo := List.getElem?_eq_none_iff.1 h
      have := ih (lo + 1)
      unfold elementsAt at this
      simp only [this]
      rw [List.drop_eq_nil_of_le hlen, List.drop_eq_nil_of_le (by omega)]
      simp
    | some x =>
      have := ih (lo + 1)
      unfold elementsAt at this
      simp only [this]
      have hlt : lo < l.length := by
        rcases Nat.lt_or_ge lo l.length with h' | h'
        · exact h'
        · rw [List.getElem?_eq_none h'] at h; cases h
      rw [List.drop_eq_getElem_cons hlt, List.take_succ_cons]
      rw [List.getElem?_eq_getElem hlt] at h
      rw [Option.some.inj h]

theorem bounds_eq (n : Nat) (a b : Option Int) :
    Matches.sliceBounds n a b = ((sliceStart n false a).toNat, (sliceStop n false b).toNat) := by
  unfold Matches.sliceBounds
  congr 1
  · cases a with
    | none => rfl
    | some i =>
      simp only [clampIdx, sliceStart, adjustBound, Bool.false_eq_true, if_false]
      repeat' split <;> omega
  · cases b with
    | none => simp [sliceStop]
    | some i =>
      simp only [clampIdx, sliceStop, adjustBound, Bool.false_eq_true, if_false]
      repeat' split <;> omega

theorem pySlice_bounds {α} (l : List α) (a b : Option Int) :
    pySlice l a b = (l.take (Matches.sliceBounds l.length a b).2).drop (Matches.sliceBounds l.length a b).1 := rfl

theorem sliceIndices_one (n : Nat) (a b : Option Int) :
    sliceIndices n a b 1 = List.range' (sliceStart n false a).toNat ((sliceStop n false b).toNat - (sliceStart n false a).toNat) := by
  have hs := sliceStart_bounds n a
  have ht := sliceStop_bounds n b
  apply eq_of_lt_sorted (sliceIndices_sorted_pos (by omega)) List.pairwise_lt_range'
  intro x
  rw [mem_sliceIndices_pos (by omega), List.mem_range'_1]
  constructor
  · rintro ⟨h1, h2, _⟩; omega
  · rintro ⟨h1, h2⟩; exact ⟨by omega, by omega, Int.one_dvd _⟩

theorem pySlice_eq {α} (l : List α) (a b : Option Int) : listGetSlice l a b none = .ok (pySlice l a b) := by
  unfold listGetSlice
  simp only [Option.getD_none, show ¬ (1 : Int) = 0 by omega, if_false]
  congr 1
  have := elementsAt_range' l (sliceStart l.length false a).toNat ((sliceStop l.length false b).toNat - (sliceStart l.length false a).toNat)
  unfold elementsAt at this
  rw [sliceIndices_one, this]
  rw [pySlice_bounds, bounds_eq, List.drop_take]

theorem delSlice_list {α} (l : List α) (a b : Option Int) :
    listDelSlice l a b none = .ok (if (Matches.sliceBounds l.length a b).1 < (Matches.sliceBounds l.length a b).2 then
      l.take (Matches.sliceBounds l.length a b).1 ++ l.drop (Matches.sliceBounds l.length a b).2 else l) := by
  unfold listDelSlice
  simp only [Option.getD_none, show ¬ (1 : Int) = 0 by omega, if_false]
  rw [bounds_eq, sliceIndices_one, dropPositions_eq]
  simp only
  have hs := sliceStart_bounds l.length a
  have ht := sliceStop_bounds l.length b
  congr 1
  generalize hlo : (sliceStart l.length false a).toNat = lo
  generalize hhi : (sliceStop l.length false b).toNat = hi
  have hlo' : lo ≤ l.length := by omega
  have hhi' : hi ≤ l.length := by omega
  have whole : elementsAt l (List.range' 0 l.length) = l := by rw [elementsAt_range']; simp
  by_cases h : lo < hi
  · rw [if_pos h]
    have : (List.range l.length).filter (fun x => !(List.range' lo (hi - lo)).contains x) = List.range' 0 lo ++ List.range' hi (l.length - hi) := by
      apply eq_of_lt_sorted
      · exact List.pairwise_lt_range.filter _
      · rw [List.pairwise_append]
        refine ⟨List.pairwise_lt_range', List.pairwise_lt_range', ?_⟩
        intro x hx y hy
        have := List.mem_range'_1.1 hx
        have := List.mem_range'_1.1 hy
        omega
      · intro x
        simp only [List.mem_filter, List.mem_range, List.mem_append, List.mem_range'_1, Bool.not_eq_true', List.contains_eq_mem, decide_eq_false_iff_not]
        omega
    rw [this]
    unfold elementsAt
    rw [List.filterMap_append]
    have e1 := elementsAt_range' l 0 lo
    have e2 := elementsAt_range' l hi (l.length - hi)
    unfold elementsAt at e1 e2
    rw [e1, e2]
    simp [List.take_of_length_le]
  · rw [if_neg h, show hi - lo = 0 by omega]
    simp only [List.range'_zero, List.contains_nil, Bool.not_false]
    rw [List.filter_eq_self.2 (by simp), List.range_eq_range', whole]

end Rebulk
