import Verif.Props.History
import Verif.Lemmas.Queries
/-!
# C07: what a removal does to `max_end`
-/
namespace Rebulk
open Spec Matches

theorem coh_end_empty {d : Index Int} {l : List Match} (h : Coh endKeys d l) (k : Int) :
    (d.getList k).isEmpty = true ↔ ∀ x ∈ l, x.stop ≠ k := by
  have hl := (h k).length_eq
  rw [List.length_map, List.length_map] at hl
  rw [List.isEmpty_iff, ← List.length_eq_zero_iff, hl, List.length_eq_zero_iff]
  unfold filed endKeys
  rw [List.flatMap_eq_nil_iff]
  constructor
  · intro hx x hm e
    have := hx x hm
    rw [e] at this
    simp at this
  · intro hx x hm
    have := hx x hm
    rw [List.count_eq_zero.2 (by simpa using fun e : k = x.stop => this e.symm)]
    rfl

theorem mem_keys_set_of {d : Index Int} {k j : Int} {v : List Match} (h : j ∈ d.keys) : j ∈ (Dict.set d k v).keys := by
  rw [Dict.keys_set]
  split
  · exact h
  · exact List.mem_append_left _ h

/-- `_max_end` after a removal. -/
theorem removeMatch_maxEnd {s : Matches} {l : List Match} (m : Match) (hi : Inv { s with delegate := l }) (hp : l.Perm (m :: s.delegate)) :
    ((∃ x ∈ s.delegate, m.stop ≤ x.stop) → (s.removeMatch m).1.maxEnd = s.maxEnd) ∧
    ((∀ x ∈ s.delegate, x.stop ≠ m.stop) → s.maxEnd ≤ m.stop → ∀ k ∈ endKeysNow s, k ≤ (s.removeMatch m).1.maxEnd) := by
  have hn := CohO_remove m (CohO_perm hp hi.name)
  have ht := CohO_remove m (CohO_perm hp hi.tag)
  have hs := CohO_remove m (CohO_perm hp hi.start)
  have he := CohO_remove m (CohO_perm hp hi.stop)
  have hx := CohO_remove m (CohO_perm hp hi.index)
  have hbound : ∀ x ∈ s.delegate, x.stop ≤ s.maxEnd := fun x h => hi.bound x (hp.symm.subset (List.mem_cons_of_mem _ h))
  have key : ∀ (t : Matches), t.delegate = s.delegate → t.maxEnd = s.maxEnd → t.endD = (removeFrom s.endD (endKeys m) m).1 →
      ((∃ x ∈ s.delegate, m.stop ≤ x.stop) → (t.shrinkMaxEnd m).maxEnd = s.maxEnd) ∧
      ((∀ x ∈ s.delegate, x.stop ≠ m.stop) → s.maxEnd ≤ m.stop → ∀ k ∈ endKeysNow s, k ≤ (t.shrinkMaxEnd m).maxEnd) := by
    intro t h1 h2 h3
    have hcoh : Coh endKeys (t.endDict.touch m.stop) s.delegate := by
      apply Coh_touch
      rw [← h1]
      refine view_coh (buildEnd_getList _) ?_
      rw [h3, h1]
      exact he.2
    unfold shrinkMaxEnd
    constructor
    · rintro ⟨x, hxm, hle⟩
      have := hbound x hxm
      by_cases hc : t.maxEnd ≤ m.stop
      · rw [if_pos hc]
        simp only
        rw [if_neg]
        · exact h2
        · rw [coh_end_empty hcoh]
          intro h
          exact h x hxm (by omega)
      · rw [if_neg hc]; exact h2
    · intro hne hle k hk
      rw [if_pos (by omega)]
      simp only
      rw [if_pos ((coh_end_empty hcoh _).2 hne)]
      apply le_maxKey
      rw [Dict.mem_keys_touch_iff]
      right
      unfold endKeysNow at hk
      cases hd : s.endD with
      | none => rw [hd] at hk; cases hk
      | some d =>
        rw [hd] at hk
        simp only at hk
        unfold endDict
        rw [h3, hd]
        have hok := he.1
        rw [hd] at hok
        simp only [removeFrom, endKeys, removeKeys] at hok ⊢
        split
        · exact mem_keys_set_of hk
        · rw [Option.getD_some, Dict.mem_keys_touch_iff]; exact Or.inr hk
  unfold removeMatch
  simp only [hn.1, ht.1, hs.1, he.1, hx.1, Bool.not_true]
  simp only [Bool.false_eq_true, if_false]
  exact key _ rfl rfl rfl

theorem delItem_nat {s : Matches} {k : Nat} {m : Match} (hk : s.delegate[k]? = some m) :
    s.delItem (k : Int) = removeMatch { s with delegate := s.delegate.eraseIdx k } m := by
  have hlt : k < s.delegate.length := (List.getElem?_eq_some_iff.1 hk).1
  unfold delItem normIdx
  rw [if_pos (by omega), if_pos (by omega)]
  simp only [Int.toNat_natCast, hk]

/-- **C07**: removing a match that does not end last leaves `max_end` as it is. -/
theorem C07_removal {b : Bool} {input : Option Str} {s : Matches} (h : Reachable b input s) {k : Nat} {m : Match} (hk : s.delegate[k]? = some m)
    (hx : ∃ x ∈ (s.delItem (k : Int)).1.delegate, m.stop ≤ x.stop) : (s.delItem (k : Int)).1.maxEndP = s.maxEndP := by
  have hp := getElem?_eraseIdx_perm hk
  have hi : Matches.Inv { { s with delegate := s.delegate.eraseIdx k } with delegate := s.delegate } := h.inv
  rw [delItem_nat hk] at hx ⊢
  rw [(inv_remove m hi hp).2.2] at hx
  have := (removeMatch_maxEnd m hi hp).1 hx
  unfold maxEndP
  rw [(removeMatch_input _ m).1, this]

/-- **C07**: removing the match that ends last, after a position was asked about with `ending`, leaves `max_end` at that position or behind it. -/
theorem C07_raised {b : Bool} {input : Option Str} {s : Matches} (h : Reachable b input s) (p : Int) {k : Nat} {m : Match} (hk : s.delegate[k]? = some m)
    (hm : s.maxEndP ≤ m.stop) (hx : ∀ x ∈ s.delegate.eraseIdx k, x.stop ≠ m.stop) :
    p ≤ ((s.step (.ending p)).1.delItem (k : Int)).1.maxEndP := by
  have h1 : Matches.Inv (s.step (.ending p)).1 := h.inv.sim (lookEnd_sim s p)
  have hp := getElem?_eraseIdx_perm hk
  have hi : Matches.Inv { { (s.step (.ending p)).1 with delegate := s.delegate.eraseIdx k } with delegate := s.delegate } := h1
  have hk' : (s.step (.ending p)).1.delegate[k]? = some m := hk
  rw [delItem_nat hk']
  have := (removeMatch_maxEnd m hi hp).2 hx (Int.le_trans (le_maxEndP s) hm) p (Dict.mem_keys_touch _ _)
  exact Int.le_trans this (le_maxEndP _)

/-- Two matches; the first one can go without effect; when the last one goes, a position asked about before stays behind. -/
example : let s := (empty false none).runOps [.append (mk 0 3), .append (mk 3 5)]
    (s.delItem 0).1.maxEndP = 5 ∧ (s.delItem 1).1.maxEndP = 5 ∧ ((s.step (.ending 40)).1.delItem 1).1.maxEndP = 40 ∧
    ((s.step (.ending 40)).1.delItem 0).1.maxEndP = 5 := by decide

end Rebulk
