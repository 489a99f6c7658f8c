import Verif.Lemmas.Slices
import Verif.Lemmas.Container
/-!
# Lemmas on the sequence interface
-/
namespace Rebulk
open Spec Matches

/-! ## The sequence after each call, from any state -/

theorem addMatch_delegate (s : Matches) (m : Match) : (s.addMatch m).1.delegate = s.delegate := by
  unfold addMatch; split <;> rfl

theorem shrinkMaxEnd_delegate (s : Matches) (m : Match) : (s.shrinkMaxEnd m).delegate = s.delegate := by
  unfold shrinkMaxEnd; simp only; split
  · split <;> rfl
  · rfl

theorem removeMatch_delegate (s : Matches) (m : Match) : (s.removeMatch m).1.delegate = s.delegate := by
  unfold removeMatch
  simp only
  split
  · rfl
  · split
    · rfl
    · split
      · rfl
      · split
        · rfl
        · split
          · rfl
          · rw [shrinkMaxEnd_delegate]

theorem addAll_delegate (ms : List Match) (s : Matches) : (s.addAll ms).1.delegate = s.delegate := by
  induction ms generalizing s with
  | nil => rfl
  | cons m ms ih =>
    unfold addAll
    have := addMatch_delegate s m
    cases h : s.addMatch m with
    | mk s' e =>
      rw [h] at this
      cases e with
      | none => simp only; rw [ih, this]
      | some e => exact this

theorem removeAll_delegate (ms : List Match) (s : Matches) : (s.removeAll ms).1.delegate = s.delegate := by
  induction ms generalizing s with
  | nil => rfl
  | cons m ms ih =>
    unfold removeAll
    have := removeMatch_delegate s m
    cases h : s.removeMatch m with
    | mk s' e =>
      rw [h] at this
      cases e with
      | none => simp only; rw [ih, this]
      | some e => exact this

theorem insert_delegate (s : Matches) (i : Int) (m : Match) :
    (s.insert i m).1.delegate = s.delegate.insertIdx (clampIdx s.delegate.length i) m := addMatch_delegate _ _

theorem append_delegate (s : Matches) (m : Match) : (s.append m).1.delegate = s.delegate ++ [m] := by
  unfold append
  rw [insert_delegate]
  unfold length
  rw [clampIdx_length, List.insertIdx_length_self]

theorem extend_delegate (ms : List Match) (s : Matches) (h : (s.extend ms).2 = none) : (s.extend ms).1.delegate = s.delegate ++ ms := by
  induction ms generalizing s with
  | nil => simp [extend]
  | cons m ms ih =>
    unfold extend at h ⊢
    have := append_delegate s m
    cases ha : s.append m with
    | mk s' e =>
      rw [ha] at h this
      cases e with
      | none =>
        simp only at h this ⊢
        rw [ih s' h, this, List.append_assoc]; rfl
      | some e => cases h

theorem setItem_delegate (s : Matches) (i : Int) (m : Match) :
    (s.setItem i m).1.delegate = (listStep s.delegate (.setItem i m)).1 := by
  unfold setItem
  simp only [listStep]
  cases normIdx s.delegate.length i with
  | none => rfl
  | some k => exact addMatch_delegate _ _

theorem delItem_delegate (s : Matches) {i : Int} {k : Nat} (hk : normIdx s.delegate.length i = some k) :
    (s.delItem i).1.delegate = s.delegate.eraseIdx k := by
  have hlt := normIdx_lt hk
  unfold delItem
  simp only [hk, List.getElem?_eq_getElem hlt]
  exact removeMatch_delegate _ _

theorem pop_of_norm (s : Matches) {i : Int} {k : Nat} (hk : normIdx s.delegate.length i = some k) :
    (s.pop i).1 = (s.delItem i).1 ∧ ∃ m, s.delegate[k]? = some m ∧ pyGet s.delegate i = some m ∧
      (s.pop i).2 = match (s.delItem i).2 with | none => .ok m | some e => .error e := by
  have hlt := normIdx_lt hk
  have hm : s.delegate[k]? = some s.delegate[k] := List.getElem?_eq_getElem hlt
  unfold pop getItem
  rw [pyGet_of_norm hk, hm]
  simp only
  cases hdel : s.delItem i with
  | mk s' e =>
    cases e with
    | none => exact ⟨rfl, _, rfl, rfl, rfl⟩
    | some e => exact ⟨rfl, _, rfl, rfl, rfl⟩

theorem clearLoop_delegate (n : Nat) (s : Matches) (hn : s.delegate.length < n) (h : (clearLoop n s).2 = none) :
    (clearLoop n s).1.delegate = [] := by
  induction n generalizing s with
  | zero => omega
  | succ n ih =>
    unfold clearLoop at h ⊢
    by_cases h0 : s.delegate.length = 0
    · have hk : normIdx s.delegate.length (-1) = none := by rw [h0]; rfl
      rw [pop_none hk]
      exact List.length_eq_zero_iff.1 h0
    · have hk : normIdx s.delegate.length (-1) = some (s.delegate.length - 1) := by
        unfold normIdx; rw [if_neg (by omega), if_pos (by omega)]; congr 1; omega
      obtain ⟨h1, m, _, _, h2⟩ := pop_of_norm s hk
      have hd := delItem_delegate s hk
      cases hpop : s.pop (-1) with
      | mk s' r =>
        rw [hpop] at h h1 h2
        simp only at h1 h2
        cases r with
        | ok m' =>
          simp only at h ⊢
          apply ih s' _ h
          rw [h1, hd, List.length_eraseIdx]; split <;> omega
        | error e =>
          cases hr : (s.delItem (-1)).2 with
          | none => rw [hr] at h2; cases h2
          | some e' =>
            have he : e' = .valueError := by
              have hdi : (s.delItem (-1)).2 = some e' := hr
              unfold delItem at hdi
              simp only [hk, List.getElem?_eq_getElem (normIdx_lt hk)] at hdi
              revert hdi
              unfold removeMatch
              simp only
              split
              · intro hx; cases hx; rfl
              · split
                · intro hx; cases hx; rfl
                · split
                  · intro hx; cases hx; rfl
                  · split
                    · intro hx; cases hx; rfl
                    · split
                      · intro hx; cases hx; rfl
                      · intro hx; cases hx
            rw [hr] at h2
            subst he
            cases h2
            cases h

theorem clear_delegate (s : Matches) (h : s.clear.2 = none) : s.clear.1.delegate = [] := clearLoop_delegate _ s (Nat.lt_succ_self _) h

/-! ### `reverse` -/

/-- One swap on a list. -/
def swapL {α} (l : List α) (i j : Nat) : List α :=
  match l[j]?, l[i]? with
  | some y, some x => (l.set i y).set j x
  | _, _ => l

theorem swapL_length {α} (l : List α) (i j : Nat) : (swapL l i j).length = l.length := by
  unfold swapL
  cases l[j]? <;> cases l[i]? <;> simp

theorem swapL_get {α} (l : List α) {i j : Nat} (hi : i < l.length) (hj : j < l.length) (x : Nat) :
    (swapL l i j)[x]? = if x = j then l[i]? else if x = i then l[j]? else l[x]? := by
  unfold swapL
  rw [List.getElem?_eq_getElem hi, List.getElem?_eq_getElem hj]
  simp only [List.getElem?_set, List.length_set, hi, hj, if_true]
  by_cases h1 : j = x
  · simp [h1]
  · by_cases h2 : i = x
    · have h1' : ¬ x = j := fun h => h1 h.symm
      simp [h1, h2, h1']
    · have h1' : ¬ x = j := fun h => h1 h.symm
      have h2' : ¬ x = i := fun h => h2 h.symm
      simp [h1, h2, h1', h2']

theorem swaps_get {α} (l : List α) (c : Nat) (hc : 2 * c ≤ l.length) :
    ((List.range c).foldl (fun l' i => swapL l' i (l.length - i - 1)) l).length = l.length ∧
    ∀ x, x < l.length → ((List.range c).foldl (fun l' i => swapL l' i (l.length - i - 1)) l)[x]? =
      if x < c ∨ l.length - c ≤ x then l[l.length - 1 - x]? else l[x]? := by
  induction c with
  | zero =>
    refine ⟨rfl, ?_⟩
    intro x hx
    rw [if_neg (by omega)]; rfl
  | succ c ih =>
    have ih := ih (by omega)
    rw [List.range_succ, List.foldl_append]
    simp only [List.foldl_cons, List.foldl_nil]
    refine ⟨by rw [swapL_length, ih.1], ?_⟩
    intro x hx
    rw [swapL_get _ (by rw [ih.1]; omega) (by rw [ih.1]; omega), ih.2 c (by omega), ih.2 _ (by omega), ih.2 x hx]
    by_cases h1 : x = l.length - c - 1
    · rw [if_pos h1, if_neg (by omega), if_pos (by omega)]
      congr 1; omega
    · rw [if_neg h1]
      by_cases h2 : x = c
      · rw [if_pos h2, if_neg (by omega), if_pos (by omega)]
        congr 1; omega
      · rw [if_neg h2]
        by_cases h3 : x < c ∨ l.length - c ≤ x
        · rw [if_pos h3, if_pos (by omega)]
        · rw [if_neg h3, if_neg (by omega)]

theorem swaps_reverse {α} (l : List α) :
    (List.range (l.length / 2)).foldl (fun l' i => swapL l' i (l.length - i - 1)) l = l.reverse := by
  have h := swaps_get l (l.length / 2) (by omega)
  apply List.ext_getElem?
  intro x
  by_cases hx : x < l.length
  · rw [h.2 x hx, List.getElem?_reverse hx]
    by_cases hc : x < l.length / 2 ∨ l.length - l.length / 2 ≤ x
    · rw [if_pos hc]
    · rw [if_neg hc]; congr 1; omega
  · rw [List.getElem?_eq_none (by omega), List.getElem?_eq_none (by rw [List.length_reverse]; omega)]

theorem setItem_nat_delegate (s : Matches) {i : Nat} (hi : i < s.delegate.length) (m : Match) :
    (s.setItem i m).1.delegate = s.delegate.set i m := by
  rw [setItem_delegate]
  simp only [listStep, normIdx_nat hi]

theorem swapItems_delegate (s : Matches) {i j : Nat} (hi : i < s.delegate.length) (hj : j < s.delegate.length)
    (h : (s.swapItems i j).2 = none) : (s.swapItems i j).1.delegate = swapL s.delegate i j := by
  unfold swapItems at h ⊢
  have gi : s.getItem (i : Int) = .ok s.delegate[i] := by
    unfold getItem; rw [pyGet_of_norm (normIdx_nat hi), List.getElem?_eq_getElem hi]
  have gj : s.getItem (j : Int) = .ok s.delegate[j] := by
    unfold getItem; rw [pyGet_of_norm (normIdx_nat hj), List.getElem?_eq_getElem hj]
  rw [gi, gj] at h ⊢
  simp only at h ⊢
  have h1 := setItem_nat_delegate s hi s.delegate[j]
  cases hs : s.setItem (i : Int) s.delegate[j] with
  | mk s' e =>
    rw [hs] at h h1
    simp only at h1
    cases e with
    | some e => cases h
    | none =>
      simp only
      rw [setItem_nat_delegate s' (by rw [h1, List.length_set]; exact hj), h1]
      unfold swapL
      rw [List.getElem?_eq_getElem hi, List.getElem?_eq_getElem hj]

theorem reverseLoop_delegate (n : Nat) (is : List Nat) (his : ∀ i ∈ is, i < n) (s : Matches) (hn : s.delegate.length = n)
    (h : (reverseLoop n is s).2 = none) :
    (reverseLoop n is s).1.delegate = is.foldl (fun l' i => swapL l' i (n - i - 1)) s.delegate := by
  induction is generalizing s with
  | nil => rfl
  | cons i is ih =>
    have hi : i < n := his i List.mem_cons_self
    have hj : (n : Int) - i - 1 = ((n - i - 1 : Nat) : Int) := by omega
    unfold reverseLoop at h ⊢
    rw [hj] at h ⊢
    have hsw := swapItems_delegate s (i := i) (j := n - i - 1) (by omega) (by omega)
    cases hs : s.swapItems (i : Int) ((n - i - 1 : Nat) : Int) with
    | mk s' e =>
      rw [hs] at h hsw
      cases e with
      | some e => cases h
      | none =>
        simp only at h hsw ⊢
        have hsw := hsw trivial
        rw [ih (fun x hx => his x (List.mem_cons_of_mem _ hx)) s' (by rw [hsw, swapL_length]; exact hn) h, hsw]
        rfl

theorem reverse_delegate (s : Matches) (h : s.reverse.2 = none) : s.reverse.1.delegate = s.delegate.reverse := by
  unfold reverse at h ⊢
  rw [reverseLoop_delegate s.length _ (fun i hi => by have := List.mem_range.1 hi; omega) s rfl h]
  exact swaps_reverse s.delegate

/-! ### Reading -/

theorem iterLoop_eq (s : Matches) (n i : Nat) (h : s.delegate.length < n + i) : s.iterLoop n (i : Int) = s.delegate.drop i := by
  induction n generalizing i with
  | zero => rw [List.drop_eq_nil_of_le (by omega)]; rfl
  | succ n ih =>
    unfold iterLoop
    by_cases hi : i < s.delegate.length
    · have : s.getItem (i : Int) = .ok s.delegate[i] := by
        unfold getItem; rw [pyGet_of_norm (normIdx_nat hi), List.getElem?_eq_getElem hi]
      rw [this]
      simp only
      rw [show (i : Int) + 1 = ((i + 1 : Nat) : Int) by omega, ih (i + 1) (by omega), List.drop_eq_getElem_cons hi]
    · have : s.getItem (i : Int) = .error .indexError := by
        unfold getItem pyGet normIdx
        rw [if_pos (by omega), if_neg (by omega)]
      rw [this, List.drop_eq_nil_of_le (by omega)]

theorem items_eq (s : Matches) : s.items = s.delegate := by
  unfold items
  have := iterLoop_eq s (s.length + 1) 0 (by unfold length; omega)
  simpa using this

/-- The match at a position, if any. -/
def itemOr (s : Matches) (i : Int) : Option Match := match s.getItem i with | .ok m => some m | .error _ => none

theorem itemOr_nat (s : Matches) (i : Nat) : itemOr s (i : Int) = s.delegate[i]? := by
  unfold itemOr getItem
  by_cases hi : i < s.delegate.length
  · rw [pyGet_of_norm (normIdx_nat hi), List.getElem?_eq_getElem hi]
  · unfold pyGet normIdx
    rw [if_pos (by omega), if_neg (by omega), List.getElem?_eq_none (by omega)]

theorem itemsReversed_eq (s : Matches) : s.itemsReversed = s.delegate.reverse := by
  have : s.itemsReversed = (pyRange 0 s.length).reverse.filterMap (itemOr s) := rfl
  rw [this, List.filterMap_reverse]
  congr 1
  unfold pyRange
  rw [List.filterMap_map]
  have hf : (itemOr s ∘ fun (i : Nat) => (0 : Int) + (i : Int)) = fun i => s.delegate[i]? := by
    funext i
    simp only [Function.comp, Int.zero_add]
    exact itemOr_nat s i
  rw [hf]
  have := elementsAt_range' s.delegate 0 s.delegate.length
  unfold elementsAt at this
  rw [show ((s.length : Int) - 0).toNat = s.delegate.length by unfold length; omega, List.range_eq_range', this]
  simp

/-- `stop is None or i < stop`. -/
def beforeStop : Option Int → Int → Bool
  | none, _ => true
  | some e, i => decide (i < e)

/-- The condition looked for by `index`. -/
def indexCond (l : List Match) (m : Match) (stop : Option Int) (i : Nat) : Bool := beforeStop stop i && (l[i]?.any (fun x => x.eqv m))

theorem indexLoop_eq (s : Matches) (m : Match) (stop : Option Int) (n i : Nat) (h : s.delegate.length < n + i) :
    s.indexLoop m stop n (i : Int) = ((List.range' i (s.delegate.length - i)).find? (indexCond s.delegate m stop)).map (fun (j : Nat) => (j : Int)) := by
  induction n generalizing i with
  | zero => rw [show s.delegate.length - i = 0 by omega]; rfl
  | succ n ih =>
    by_cases hi : i < s.delegate.length
    · have hg : s.getItem (i : Int) = .ok s.delegate[i] := by
        unfold getItem; rw [pyGet_of_norm (normIdx_nat hi), List.getElem?_eq_getElem hi]
      rw [show s.delegate.length - i = (s.delegate.length - (i + 1)) + 1 by omega, List.range'_succ, List.find?_cons]
      have ih := ih (i + 1) (by omega)
      have hlate : ∀ e, stop = some e → ¬ (i : Int) < e → (List.range' (i + 1) (s.delegate.length - (i + 1))).find? (indexCond s.delegate m stop) = none := by
        intro e he hlt
        rw [List.find?_eq_none]
        intro x hx
        have := (List.mem_range'_1.1 hx).1
        simp only [indexCond, beforeStop, he, Bool.and_eq_true, decide_eq_true_eq, not_and]
        intro h; omega
      have hc : indexCond s.delegate m stop i = (beforeStop stop i && (s.delegate[i]).eqv m) := by
        unfold indexCond; rw [List.getElem?_eq_getElem hi]; rfl
      unfold indexLoop
      rw [hg, hc]
      cases stop with
      | none =>
        simp only [beforeStop, if_true, Bool.true_and]
        cases he : (s.delegate[i]).eqv m with
        | true => rfl
        | false =>
          simp only [Bool.false_eq_true, if_false]
          rw [show (i : Int) + 1 = ((i + 1 : Nat) : Int) by omega, ih]
      | some e =>
        by_cases hlt : (i : Int) < e
        · simp only [beforeStop, hlt, decide_true, if_true, Bool.true_and]
          cases he : (s.delegate[i]).eqv m with
          | true => rfl
          | false =>
            simp only [Bool.false_eq_true, if_false]
            rw [show (i : Int) + 1 = ((i + 1 : Nat) : Int) by omega, ih]
        · simp only [beforeStop, hlt, decide_false, Bool.false_eq_true, if_false, Bool.false_and]
          rw [hlate e rfl hlt]; rfl
    · have hg : s.getItem (i : Int) = .error .indexError := by
        unfold getItem pyGet normIdx
        rw [if_pos (by omega), if_neg (by omega)]
      rw [show s.delegate.length - i = 0 by omega]
      unfold indexLoop
      rw [hg]
      simp

theorem find?_congr_mem {α} {p q : α → Bool} {l : List α} (h : ∀ x ∈ l, p x = q x) : l.find? p = l.find? q := by
  induction l with
  | nil => rfl
  | cons x l ih =>
    rw [List.find?_cons, List.find?_cons, h x List.mem_cons_self, ih (fun y hy => h y (List.mem_cons_of_mem _ hy))]

theorem indexOf_eq (s : Matches) (m : Match) (start : Int) (stop : Option Int) :
    s.indexOf m start stop = match firstIndex s.delegate m start stop with | some i => .ok (i : Int) | none => .error .valueError := by
  have hstart : (if start < 0 then max ((s.length : Int) + start) 0 else start) = (((fromEnd s.delegate.length start).toNat : Nat) : Int) := by
    unfold fromEnd length; split <;> omega
  unfold indexOf
  simp only
  rw [hstart, indexLoop_eq _ _ _ _ _ (by unfold length; omega)]
  have key : (List.range' (fromEnd s.delegate.length start).toNat (s.delegate.length - (fromEnd s.delegate.length start).toNat)).find?
        (indexCond s.delegate m (stop.map (fun (e : Int) => if e < 0 then e + (s.length : Int) else e))) =
      firstIndex s.delegate m start stop := by
    unfold firstIndex
    generalize hf : fromEnd s.delegate.length start = f
    have hsplit : List.range s.delegate.length = List.range' 0 (min f.toNat s.delegate.length) ++
        List.range' (min f.toNat s.delegate.length) (s.delegate.length - min f.toNat s.delegate.length) := by
      rw [List.range_eq_range']
      have := @List.range'_append_1 0 (min f.toNat s.delegate.length) (s.delegate.length - min f.toNat s.delegate.length)
      simp only [Nat.zero_add] at this
      rw [this]
      congr 1; omega
    have hnone : (List.range' 0 (min f.toNat s.delegate.length)).find? (indexHit s.delegate m start stop) = none := by
      rw [List.find?_eq_none]
      intro x hx
      have := (List.mem_range'_1.1 hx).2
      have h1 : ¬ f ≤ (x : Int) := by omega
      simp [indexHit, hf, h1]
    rw [hsplit, List.find?_append, hnone, Option.none_or]
    · by_cases hle : f.toNat ≤ s.delegate.length
      · rw [Nat.min_eq_left hle]
        apply find?_congr_mem
        intro x hx
        have := (List.mem_range'_1.1 hx).1
        have h1 : f ≤ (x : Int) := by omega
        unfold indexCond indexHit
        simp only [hf, h1, decide_true, Bool.true_and]
        cases stop with
        | none => rfl
        | some e => rfl
      · rw [show s.delegate.length - f.toNat = 0 by omega, show s.delegate.length - min f.toNat s.delegate.length = 0 by omega]
        rfl
  rw [key]
  cases firstIndex s.delegate m start stop <;> rfl

end Rebulk
