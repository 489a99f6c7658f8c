import Verif.Spec.Handles
import Verif.Props.Container
/-!
# Lists returned by lookups: C98
-/
namespace Rebulk
open Spec Matches

/-- **C98 is false**: `at_index` returns the list of the index itself. Emptying it makes the container wrong: the matches are still there, but `at_index`
does not find them, and removing one of them raises `ValueError`. And removing a match from the container removes it from the list the caller is going
through. -/
theorem C98_refuted :
    (∃ ops later, ((Desk.run ⟨empty false none, []⟩ ops).box.delegate.map Match.span = [(0, 3), (1, 4)]) ∧
      (((Desk.run ⟨empty false none, []⟩ ops).box.step (.atIndex 1)).2 = .list []) ∧
      (((Desk.run ⟨empty false none, []⟩ ops).box.step (.remove later)).2 = .raised .valueError) ∧
      (((empty false none).runOps (callsOf ops)).step (.remove later)).2 = .unit ∧ ¬ BelongToCaller (empty false none) ops) ∧
    (∃ ops, ops.all (fun o => !isChange o) = true ∧ ¬ BelongToCaller (empty false none) ops) := by
  refine ⟨⟨[.call (.extend [mk 0 3, mk 1 4]) none, .call (.atIndex 1) none, .change 0 (fun _ => [])], mk 0 3, by decide, rfl, rfl, rfl, ?_⟩,
    [.call (.extend [mk 0 3, mk 1 4]) none, .call (.atIndex 1) none, .call (.remove (mk 0 3)) none], by decide, ?_⟩
  · intro h
    have := congrArg (fun s : Matches => (s.indexDict.getList 1).length) h.1
    exact absurd this (by decide)
  · intro h
    have := congrArg (fun l : List (List Match) => l.map List.length) h.2
    exact absurd this (by decide)

theorem handleOf_own {op : Op} {predicate : Option (Match → Bool)} (h : isPlainAtIndex (.call op predicate) = false) (l : List Match) :
    handleOf op predicate l = .own (filteredBy predicate l) := by
  cases predicate with
  | some f => rfl
  | none => cases op <;> first | rfl | cases h

theorem heldAfter_own {op : Op} {predicate : Option (Match → Bool)} (h : isPlainAtIndex (.call op predicate) = false) (lists : List (List Match))
    (o : Out) : heldAfter (lists.map .own) op predicate o = (lists ++ given predicate o).map .own := by
  cases o with
  | list l => simp only [heldAfter, handleOf_own h, given, List.map_append, List.map_cons, List.map_nil]
  | _ => simp [heldAfter, given]

theorem desk_own (ops : List HOp) (h : ∀ o ∈ ops, isPlainAtIndex o = false) : ∀ (s : Matches) (lists : List (List Match)),
    Desk.run ⟨s, lists.map .own⟩ ops = ⟨s.runOps (callsOf ops), (ownLists s ops lists).map .own⟩ := by
  induction ops with
  | nil => intro s lists; rfl
  | cons o ops ih =>
    intro s lists
    have hr := ih (fun x hx => h x (List.mem_cons_of_mem _ hx))
    have ho := h o List.mem_cons_self
    cases o with
    | call op predicate =>
      have : Desk.run ⟨s, lists.map .own⟩ (.call op predicate :: ops) = Desk.run ⟨(s.step op).1, heldAfter (lists.map .own) op predicate (s.step op).2⟩ ops := rfl
      rw [this, heldAfter_own ho, hr]
      rfl
    | change k f =>
      have : Desk.run ⟨s, lists.map .own⟩ (.change k f :: ops) = Desk.run (Desk.change ⟨s, lists.map .own⟩ k f) ops := rfl
      have hc : Desk.change ⟨s, lists.map .own⟩ k f = ⟨s, (lists.modify k f).map .own⟩ := by
        unfold Desk.change
        simp only [List.getElem?_map]
        cases hk : lists[k]? with
        | none =>
          have : lists.modify k f = lists := by
            apply List.modify_eq_self
            exact List.getElem?_eq_none_iff.mp hk
          simp [this]
        | some l =>
          simp only [Option.map_some]
          congr 1
          apply List.ext_getElem?
          intro i
          simp only [List.getElem?_set, List.getElem?_map, List.getElem?_modify, List.length_map]
          by_cases hi : k = i
          · subst hi
            have hlt : k < lists.length := by
              rcases Nat.lt_or_ge k lists.length with h | h
              · exact h
              · rw [List.getElem?_eq_none h] at hk; cases hk
            have he : lists[k] = l := by rw [List.getElem?_eq_getElem hlt] at hk; exact Option.some.inj hk
            simp [hlt, he]
          · simp [hi]
      rw [this, hc, hr]
      rfl

/-- **C98, partial**: as long as `at_index` is called with a predicate, lists returned by lookups belong to the caller, whatever it does with them and in
whatever order (missing: `at_index` without predicate, for which it is false). -/
theorem C98_partial (s : Matches) (ops : List HOp) (h : ∀ o ∈ ops, isPlainAtIndex o = false) : BelongToCaller s ops := by
  unfold BelongToCaller
  have := desk_own ops h s []
  simp only [List.map_nil] at this
  rw [this]
  refine ⟨rfl, ?_⟩
  simp only [List.map_map]
  conv => rhs; rw [← List.map_id (ownLists s ops [])]
  apply List.map_congr_left
  intro l _
  rfl

example : ∀ o ∈ ([.call (.extend [mk 0 3, mk 1 4]) none, .call (.atIndex 1) (some (fun m => decide (m.start = 1))), .change 0 (fun _ => []),
    .call (.ending 3) none, .change 1 List.reverse, .call (.remove (mk 0 3)) none] : List HOp), isPlainAtIndex o = false := by decide

/-- **C98**, `at_index`: a caller that does not change its lists does not disturb the container, and what it got from `at_index(pos)` is at any time what
`at_index(pos)` would return, the same list object. -/
theorem C98_live (s : Matches) (ops : List HOp) (h : ∀ o ∈ ops, isChange o = false) :
    (Desk.run ⟨s, []⟩ ops).box = s.runOps (callsOf ops) ∧
    ∀ (k : Nat) (pos : Int), (Desk.run ⟨s, []⟩ ops).held[k]? = some (Handle.live pos) →
      ((Desk.run ⟨s, []⟩ ops).box.step (.atIndex pos)).2 = .list (Handle.read (Desk.run ⟨s, []⟩ ops).box (Handle.live pos)) := by
  constructor
  · suffices H : ∀ held, (Desk.run ⟨s, held⟩ ops).box = s.runOps (callsOf ops) from H []
    induction ops generalizing s with
    | nil => intro held; rfl
    | cons o ops ih =>
      intro held
      have ho := h o List.mem_cons_self
      cases o with
      | change k f => cases ho
      | call op predicate => exact ih (s.step op).1 (fun x hx => h x (List.mem_cons_of_mem _ hx)) _
  · intro k pos _
    rfl

example : (Desk.run ⟨empty false none, []⟩ [.call (.extend [mk 0 3, mk 1 4]) none, .call (.atIndex 1) none, .call (.remove (mk 0 3)) none]).held.map
    (fun x => (Handle.read (Desk.run ⟨empty false none, []⟩ [.call (.extend [mk 0 3, mk 1 4]) none, .call (.atIndex 1) none,
      .call (.remove (mk 0 3)) none]).box x).map Match.span) = [[(1, 4)]] := by decide

theorem append_live {s : Matches} {pos : Int} {m : Match} (hd : s.indexD.isSome = true) (hc : Covers m pos) (hk : m.marker = s.isMarkers) :
    (s.append m).2 = none ∧ (s.append m).1.indexD.isSome = true ∧ (s.append m).1.isMarkers = s.isMarkers ∧
    ∃ n, (s.append m).1.indexDict.getList pos = s.indexDict.getList pos ++ List.replicate (n + 1) m := by
  obtain ⟨d, hd⟩ := Option.isSome_iff_exists.1 hd
  unfold append Matches.insert addMatch
  simp only [hk, beq_self_eq_true, if_true]
  refine ⟨trivial, ?_, rfl, ?_⟩
  · simp only [addMatchBase, addTo, hd, Option.map_some, Option.isSome_some]
  · have hmem : pos ∈ indexKeys m := by
      unfold indexKeys pyRange
      rw [List.mem_map]
      refine ⟨(pos - m.start).toNat, List.mem_range.2 ?_, ?_⟩
      · have := hc.1; have := hc.2; omega
      · have := hc.1; omega
    have hcount : 0 < (indexKeys m).count pos := List.count_pos_iff.2 hmem
    refine ⟨(indexKeys m).count pos - 1, ?_⟩
    rw [show (indexKeys m).count pos - 1 + 1 = (indexKeys m).count pos by omega]
    simp only [indexDict, addMatchBase, addTo, hd, Option.map_some, Option.getD_some]
    exact addKeys_getList m (indexKeys m) d pos

/-- **C98**, what comes of it: adding to a container what its own `at_index` returns never ends, as soon as it returns a match (of the right kind, covering
the position, as the matches returned by `at_index` do). -/
theorem C98_extend_diverges (s : Matches) (pos : Int) (l : List Match) (hl : (s.step (.atIndex pos)).2 = .list l) (hne : l ≠ [])
    (hc : ∀ m ∈ l, Covers m pos ∧ m.marker = s.isMarkers) : ∀ fuel, extendLive pos fuel 0 (s.step (.atIndex pos)).1 = none := by
  have hl' : s.indexDict.getList pos = l := by
    simp only [step, lookIndex, Out.list.injEq] at hl
    exact hl
  suffices H : ∀ fuel (i : Nat) (s : Matches), s.indexD.isSome = true → i < (s.indexDict.getList pos).length →
      (∀ m ∈ s.indexDict.getList pos, Covers m pos ∧ m.marker = s.isMarkers) → extendLive pos fuel i s = none by
    intro fuel
    apply H fuel 0
    · rfl
    · have : (s.step (.atIndex pos)).1.indexDict.getList pos = l := ((lookIndex_sim s pos).index pos).trans hl'
      rw [this]
      exact List.length_pos_iff.2 hne
    · have : (s.step (.atIndex pos)).1.indexDict.getList pos = l := ((lookIndex_sim s pos).index pos).trans hl'
      rw [this]
      exact hc
  intro fuel
  induction fuel with
  | zero => intro i s _ _ _; rfl
  | succ fuel ih =>
    intro i s hd hi hall
    unfold extendLive
    rw [List.getElem?_eq_getElem hi]
    simp only
    have hm := hall _ (List.getElem_mem hi)
    obtain ⟨h1, h2, h3, n, h4⟩ := append_live hd hm.1 hm.2
    cases ha : s.append (s.indexDict.getList pos)[i] with
    | mk s' e =>
      rw [ha] at h1 h2 h3 h4
      simp only at h1 h2 h3 h4
      subst h1
      simp only
      apply ih (i + 1) s' h2
      · rw [h4, List.length_append, List.length_replicate]; omega
      · intro m hm'
        rw [h4] at hm'
        rw [h3]
        rcases List.mem_append.1 hm' with h | h
        · exact hall m h
        · rw [List.eq_of_mem_replicate h]; exact hm

example : let s := (empty false none).runOps [.append (mk 0 3), .append (mk 1 4)]
    (s.step (.atIndex 1)).2 = .list [mk 0 3, mk 1 4] ∧ ∀ m ∈ [mk 0 3, mk 1 4], (m.start ≤ 1 ∧ 1 < m.stop) ∧ m.marker = s.isMarkers := ⟨rfl, by decide⟩

end Rebulk
