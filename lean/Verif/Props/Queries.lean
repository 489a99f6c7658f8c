import Verif.Lemmas.Queries
import Verif.Props.Container
/-!
# Properties of the compound lookups: C08 – C13
-/
namespace Rebulk
open Matches Spec

/-- A container reached by a history of calls, used by the examples: matches over `"ab-cd ef"`. -/
def sampleOps : List Op :=
  [.append (mk 0 2 (some "a")), .starting 0, .append (mk 3 5 (some "b")), .extend [mk 6 8, mk 1 2, mk 4 7], .atIndex 4, .remove (mk 1 2)]
/-- See `sampleOps`. -/
def sample : Matches := (empty false (some "ab-cd ef".toList)).runOps sampleOps
theorem sample_reachable : Reachable false (some "ab-cd ef".toList) sample := ⟨sampleOps, by decide, rfl⟩

/-! ## C08, C09 -/

/-- **C08.** `previous(m)`: either no contained match ends in `[0, m.start]` and nothing is returned, or the result is
exactly the contained matches with the greatest end at or before `m.start`. -/
theorem C08_previous {b : Bool} {input : Option Str} {s : Matches} (h : Reachable b input s) (m : Match) :
    ∃ r, (s.step (.previous m)).2 = .list r ∧
      (((∀ x ∈ s.delegate, ¬ (0 ≤ x.stop ∧ x.stop ≤ m.start)) ∧ r = []) ∨
       ∃ e, 0 ≤ e ∧ e ≤ m.start ∧ (∃ x ∈ s.delegate, x.stop = e) ∧ (∀ x ∈ s.delegate, x.stop ≤ m.start → x.stop ≤ e) ∧
         SameUpToEq r (Spec.ending s.delegate e)) :=
  ⟨_, rfl, previous_spec h.inv m⟩

example : ∃ r, (sample.step (.previous (mk 6 8))).2 = .list r ∧ r.map Match.span = [(3, 5)] := ⟨_, rfl, by decide⟩

/-- **C09.** `next(m)`: either no contained match starts after `m.start` and nothing is returned, or the result is exactly the
contained matches with the least start strictly after `m.start`. -/
theorem C09_next {b : Bool} {input : Option Str} {s : Matches} (h : Reachable b input s)
    (hw : ∀ x ∈ s.delegate, x.start ≤ x.stop) (m : Match) :
    ∃ r, (s.step (.next m)).2 = .list r ∧
      (((∀ x ∈ s.delegate, x.start ≤ m.start) ∧ r = []) ∨
       ∃ c, m.start < c ∧ (∃ x ∈ s.delegate, x.start = c) ∧ (∀ x ∈ s.delegate, m.start < x.start → c ≤ x.start) ∧
         SameUpToEq r (Spec.starting s.delegate c)) :=
  ⟨_, rfl, next_spec h.inv hw m⟩

example : (∀ x ∈ sample.delegate, x.start ≤ x.stop) ∧
    ∃ r, (sample.step (.next (mk 0 2))).2 = .list r ∧ r.map Match.span = [(3, 5)] := ⟨by decide, _, rfl, by decide⟩

/-! ## C10 -/

/-- **C10.** `conflicting(m)` of a non-empty contained match: no two equal results, and exactly the contained matches sharing an
index with `m` and not equal to it. -/
theorem C10_conflicting {b : Bool} {input : Option Str} {s : Matches} (h : Reachable b input s) (m : Match)
    (hm : Holds s.delegate m) (hne : m.start < m.stop) :
    ∃ r, (s.step (.conflicting m)).2 = .list r ∧ NoEqual r ∧
      ∀ e, Holds r e ↔ (∃ x ∈ s.delegate, x.eqv e = true ∧ ∃ i, Covers x i ∧ Covers m i) ∧ m.eqv e = false := by
  have hi := h.inv
  have hmem := conflictSet_mem hi m
  have hno : NoEqual (conflictLoop (pyRange m.start m.stop) s []).2 := by
    rw [(conflictLoop_spec _ s []).2]; exact noEqual_addMissing _ _ List.Pairwise.nil
  have hin : ∃ x ∈ (conflictLoop (pyRange m.start m.stop) s []).2, x.eqv m = true := by
    obtain ⟨x, hx, hxm⟩ := hm
    have h1 := Match.eqv_start hxm; have h2 := Match.eqv_stop hxm
    exact (hmem m).2 ⟨x, hx, hxm, m.start, by omega, by omega⟩
  simp only [step, conflicting]
  cases hr : removeFirst (fun x => x.eqv m) (conflictLoop (pyRange m.start m.stop) s []).2 with
  | none =>
    obtain ⟨x, hx, hxm⟩ := hin
    have := (removeFirst_none _ _).1 hr x hx
    simp [hxm] at this
  | some l' =>
    refine ⟨l', rfl, ?_, ?_⟩
    · obtain ⟨a, x, c, h1, h2, _, _⟩ := removeFirst_some _ _ _ hr
      rw [h2]; rw [h1] at hno
      exact hno.sublist (List.Sublist.append (List.Sublist.refl _) (List.sublist_cons_self _ _))
    · intro e
      unfold Holds
      rw [removeFirst_eqv_mem hno hr e, hmem e]
      rfl

/-- **C10**, the other case: an empty match, or one equal to no contained match, makes the call raise `ValueError`. -/
theorem C10_conflicting_raises {b : Bool} {input : Option Str} {s : Matches} (h : Reachable b input s) (m : Match)
    (hm : ¬ (Holds s.delegate m ∧ m.start < m.stop)) : (s.step (.conflicting m)).2 = .raised .valueError := by
  have hi := h.inv
  have hmem := conflictSet_mem hi m
  simp only [step, conflicting]
  have : removeFirst (fun x => x.eqv m) (conflictLoop (pyRange m.start m.stop) s []).2 = none := by
    rw [removeFirst_none]
    intro x hx
    cases hxm : x.eqv m with
    | false => rfl
    | true =>
      exfalso
      obtain ⟨y, hy, hym, i, _, hi2⟩ := (hmem m).1 ⟨x, hx, hxm⟩
      exact hm ⟨⟨y, hy, hym⟩, by omega⟩
  rw [this]; rfl

example : Holds sample.delegate (mk 4 7) ∧ (mk 4 7).start < (mk 4 7).stop ∧
    (∃ r, (sample.step (.conflicting (mk 4 7))).2 = .list r ∧ r.map Match.span = [(3, 5), (6, 8)]) ∧
    ¬ Holds sample.delegate (mk 1 2) := by
  refine ⟨by unfold Holds; decide, by decide, ⟨_, rfl, by decide⟩, by unfold Holds; decide⟩

/-! ## C11 -/

/-- **C11**, `at_index`: the contained matches covering the index, with multiplicities. -/
theorem C11_at_index {b : Bool} {input : Option Str} {s : Matches} (h : Reachable b input s) (i : Int) :
    ∃ r, (s.step (.atIndex i)).2 = .list r ∧ SameUpToEq r (Spec.covering s.delegate i) := ⟨_, rfl, h.inv.seesIndex i⟩

/-- **C11**, `at_span`: exactly the contained matches covering the first or the last index of the span, without repetition
when no two contained matches are equal. `at_match(m)` is the same with the span of `m`. -/
theorem C11_at_span {b : Bool} {input : Option Str} {s : Matches} (h : Reachable b input s) (u v : Int) :
    ∃ r, (s.step (.atSpan u v)).2 = .list r ∧ (∀ m : Match, m.start = u → m.stop = v → (s.atMatch m).2 = r) ∧
      (∀ e, Holds r e ↔ ∃ x ∈ s.delegate, x.eqv e = true ∧ (Covers x u ∨ Covers x (v - 1))) ∧
      (NoEqual s.delegate → NoEqual r) := by
  have hi := h.inv
  refine ⟨_, rfl, ?_, ?_, ?_⟩
  · intro m h1 h2; unfold atMatch; rw [h1, h2]
  · intro e
    unfold Holds
    rw [atSpan_eq, addMissing_mem, atIndex_mem hi, atIndex_mem hi]
    constructor
    · rintro (⟨x, hx, h1, h2⟩ | ⟨x, hx, h1, h2⟩)
      · exact ⟨x, hx, h1, Or.inl h2⟩
      · exact ⟨x, hx, h1, Or.inr h2⟩
    · rintro ⟨x, hx, h1, h2 | h2⟩
      · exact Or.inl ⟨x, hx, h1, h2⟩
      · exact Or.inr ⟨x, hx, h1, h2⟩
  · intro hno
    rw [atSpan_eq]
    apply noEqual_addMissing
    have hsub : NoEqual (Spec.covering s.delegate u) := hno.sublist List.filter_sublist
    have hp := perm_of_sameUpToEq (hi.seesIndex u)
    have conv : ∀ l : List Match, NoEqual l ↔ (l.map Match.eqKey).Nodup := by
      intro l
      unfold NoEqual List.Nodup
      rw [List.pairwise_map]
      constructor <;> intro hh <;> refine hh.imp ?_
      · intro a b hab hc; rw [(Match.eqv_iff a b).2 hc] at hab; cases hab
      · intro a b hab
        cases hc : a.eqv b with
        | false => rfl
        | true => exact absurd ((Match.eqv_iff a b).1 hc) hab
    rw [conv] at hsub ⊢
    exact hp.nodup_iff.2 hsub

/-- A match strictly inside the span is not returned. -/
example : NoEqual sample.delegate ∧ ∃ r, (sample.step (.atSpan 0 7)).2 = .list r ∧ r.map Match.span = [(0, 2), (6, 8), (4, 7)] :=
  ⟨by decide, _, rfl, by decide⟩

/-! ## C12, C13 -/

/-- `i` is passable for a chain: covered by a satisfying match, or a separator character. -/
def Spec.Passable (l : List Match) (str : Str) (seps : Str) (pred : Match → Bool) (i : Int) : Prop :=
  (∃ x ∈ l, pred x = true ∧ Covers x i) ∨ ∃ c ∈ seps, str[i.toNat]? = some c

/-- **C12.** `chain_before(position, seps, start, predicate)`, for positions inside the input string and a predicate that does
not distinguish equal matches: exactly the satisfying matches covering an index `i` of `[start, position)` such that all indexes
between `i` and `position` are passable; no repetition. -/
theorem C12_chain_before {b : Bool} {str : Str} {s : Matches} (h : Reachable b (some str) s) (position : Int) (seps : Str)
    (start : Int) (pred : Match → Bool) (hp : RespectsEq pred) (h0 : 0 ≤ start) (hpos : position ≤ str.length) :
    ∃ r, (s.step (.chainBefore position seps start pred)).2 = .list r ∧ NoEqual r ∧
      ∀ e, Holds r e ↔ ∃ i, start ≤ i ∧ i < position ∧
        (∃ x ∈ s.delegate, x.eqv e = true ∧ pred x = true ∧ Covers x i) ∧
        ∀ j, i < j → j < position → Passable s.delegate str seps pred j := by
  have hi := h.inv
  have hstr := h.input.1
  have hmin : min s.maxEndP position = position := by
    unfold maxEndP; rw [hstr]
    simp only
    split
    · next he =>
      have : str = [] := by simpa using he
      subst this
      simp at hpos
      have := hi.nonneg; omega
    · omega
  have hin : ∀ i ∈ (pyRange start position).reverse, 0 ≤ i ∧ i < str.length := by
    intro i hi'; rw [List.mem_reverse, mem_pyRange] at hi'; omega
  obtain ⟨r, h1, h2, h3⟩ := chainLoop_spec hi hp seps str hstr (pyRange start position).reverse hin
  refine ⟨r, ?_, h2, ?_⟩
  · simp only [step, chainBefore, hmin, h1]; rfl
  · intro e
    unfold Holds
    rw [h3 e]
    constructor
    · rintro ⟨pre, i, post, hsplit, hx, hpass⟩
      have hmem : i ∈ (pyRange start position).reverse := by rw [hsplit]; simp
      rw [List.mem_reverse, mem_pyRange] at hmem
      refine ⟨i, hmem.1, hmem.2, hx, ?_⟩
      intro j hij hjp
      apply hpass
      have hj : j ∈ (pyRange start position).reverse := by rw [List.mem_reverse, mem_pyRange]; omega
      have hpw : ((pyRange start position).reverse).Pairwise (fun a b => b < a) := by
        rw [List.pairwise_reverse]; exact pyRange_pairwise _ _
      rw [hsplit] at hj hpw
      rcases List.mem_append.1 hj with hj | hj
      · exact hj
      · rcases List.mem_cons.1 hj with rfl | hj
        · omega
        · rw [List.pairwise_append] at hpw
          have := (List.pairwise_cons.1 hpw.2.1).1 _ hj; omega
    · rintro ⟨i, hi1, hi2, hx, hpass⟩
      have hmem : i ∈ (pyRange start position).reverse := by rw [List.mem_reverse, mem_pyRange]; omega
      obtain ⟨pre, post, hsplit⟩ := List.append_of_mem hmem
      refine ⟨pre, i, post, hsplit, hx, ?_⟩
      intro j hj
      have hj' : j ∈ (pyRange start position).reverse := by rw [hsplit]; exact List.mem_append_left _ hj
      rw [List.mem_reverse, mem_pyRange] at hj'
      have hpw : ((pyRange start position).reverse).Pairwise (fun a b => b < a) := by
        rw [List.pairwise_reverse]; exact pyRange_pairwise _ _
      rw [hsplit, List.pairwise_append] at hpw
      exact hpass j (hpw.2.2 j hj i List.mem_cons_self) hj'.2

example : RespectsEq (fun m => decide (m.name ≠ some "a")) ∧
    (∃ r, (sample.step (.chainBefore 8 " -".toList 0 (fun _ => true))).2 = .list r ∧
      r.map Match.span = [(6, 8), (4, 7), (3, 5), (0, 2)]) ∧
    ∃ r, (sample.step (.chainBefore 8 " -".toList 0 (fun m => decide (m.name ≠ some "a")))).2 = .list r ∧
      r.map Match.span = [(6, 8), (4, 7), (3, 5)] := by
  refine ⟨?_, ⟨_, rfl, by decide⟩, ⟨_, rfl, by decide⟩⟩
  intro a b h; simp only [Match.eqv_name h]

/-- **C13.** `chain_after(position, seps, end, predicate)`, for `0 ≤ position` and `end` inside the input string (or absent when
no contained match goes beyond the input): exactly the satisfying matches covering an index `i` of `[position, end)` such that all
indexes from `position` up to `i` are passable; no repetition. -/
theorem C13_chain_after {b : Bool} {str : Str} {s : Matches} (h : Reachable b (some str) s) (position : Int) (seps : Str)
    (stop : Option Int) (pred : Match → Bool) (hp : RespectsEq pred) (h0 : 0 ≤ position)
    (hstop : (∃ e, stop = some e ∧ e ≤ str.length) ∨ (stop = none ∧ s.maxEndP ≤ str.length)) :
    ∃ r, (s.step (.chainAfter position seps stop pred)).2 = .list r ∧ NoEqual r ∧
      ∀ e, Holds r e ↔ ∃ i, position ≤ i ∧ i < stop.getD str.length ∧
        (∃ x ∈ s.delegate, x.eqv e = true ∧ pred x = true ∧ Covers x i) ∧
        ∀ j, position ≤ j → j < i → Passable s.delegate str seps pred j := by
  have hi := h.inv
  have hstr := h.input.1
  have hlen : (str.length : Int) ≤ s.maxEndP := by
    unfold maxEndP; rw [hstr]
    simp only
    split
    · next he =>
      have : str = [] := by simpa using he
      subst this
      have := hi.nonneg; simpa using this
    · omega
  have hclamp : s.clampEnd stop = stop.getD str.length := by
    rcases hstop with ⟨e, he, h1⟩ | ⟨he, h1⟩
    · subst he
      have : s.clampEnd (some e) = min s.maxEndP e := rfl
      rw [this]; simp only [Option.getD_some]; omega
    · subst he
      have : s.clampEnd none = s.maxEndP := rfl
      rw [this]; simp only [Option.getD_none]; omega
  have hle : stop.getD str.length ≤ (str.length : Int) := by
    rcases hstop with ⟨e, he, h1⟩ | ⟨he, h1⟩ <;> subst he <;> simp <;> omega
  have hin : ∀ i ∈ pyRange position (stop.getD str.length), 0 ≤ i ∧ i < str.length := by
    intro i hi'; rw [mem_pyRange] at hi'; omega
  obtain ⟨r, h1, h2, h3⟩ := chainLoop_spec hi hp seps str hstr (pyRange position (stop.getD str.length)) hin
  refine ⟨r, ?_, h2, ?_⟩
  · simp only [step, chainAfter, hclamp, h1]; rfl
  · intro e
    unfold Holds
    rw [h3 e]
    have hpw := pyRange_pairwise position (stop.getD str.length)
    constructor
    · rintro ⟨pre, i, post, hsplit, hx, hpass⟩
      have hmem : i ∈ pyRange position (stop.getD str.length) := by rw [hsplit]; simp
      rw [mem_pyRange] at hmem
      refine ⟨i, hmem.1, hmem.2, hx, ?_⟩
      intro j hij hjp
      apply hpass
      have hj : j ∈ pyRange position (stop.getD str.length) := by rw [mem_pyRange]; omega
      rw [hsplit] at hj hpw
      rcases List.mem_append.1 hj with hj | hj
      · exact hj
      · rcases List.mem_cons.1 hj with rfl | hj
        · omega
        · rw [List.pairwise_append] at hpw
          have := (List.pairwise_cons.1 hpw.2.1).1 _ hj; omega
    · rintro ⟨i, hi1, hi2, hx, hpass⟩
      have hmem : i ∈ pyRange position (stop.getD str.length) := by rw [mem_pyRange]; omega
      obtain ⟨pre, post, hsplit⟩ := List.append_of_mem hmem
      refine ⟨pre, i, post, hsplit, hx, ?_⟩
      intro j hj
      have hj' : j ∈ pyRange position (stop.getD str.length) := by rw [hsplit]; exact List.mem_append_left _ hj
      rw [mem_pyRange] at hj'
      rw [hsplit, List.pairwise_append] at hpw
      exact hpass j hj'.1 (hpw.2.2 j hj i List.mem_cons_self)

example : sample.maxEndP ≤ ("ab-cd ef".toList.length : Int) ∧
    (∃ r, (sample.step (.chainAfter 0 "-".toList none (fun _ => true))).2 = .list r ∧
      r.map Match.span = [(0, 2), (3, 5), (4, 7), (6, 8)]) ∧
    ∃ r, (sample.step (.chainAfter 2 "".toList (some 7) (fun _ => true))).2 = .list r ∧ r.map Match.span = [] := by
  refine ⟨by decide, ⟨_, rfl, by decide⟩, ⟨_, rfl, by decide⟩⟩

end Rebulk
