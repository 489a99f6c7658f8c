import Verif.Lemmas.Matches
import Verif.Spec.Container
/-!
# Each call preserves the container invariant
-/
namespace Rebulk
namespace Matches
open Spec

theorem inv_empty (b : Bool) (inp : Option Str) : Inv (empty b inp) :=
  ⟨CohO_none _ _, CohO_none _ _, CohO_none _ _, CohO_none _ _, CohO_none _ _, by simp [empty], by simp [empty]⟩

theorem clampIdx_le (n : Nat) (i : Int) : clampIdx n i ≤ n := by unfold clampIdx; split <;> omega

theorem normIdx_lt {n : Nat} {i : Int} {k : Nat} (h : normIdx n i = some k) : k < n := by
  unfold normIdx at h
  split at h
  · split at h
    · cases h; omega
    · cases h
  · split at h
    · cases h; omega
    · cases h

theorem normIdx_nat {n k : Nat} (h : k < n) : normIdx n (k : Int) = some k := by
  unfold normIdx; rw [if_pos (by omega), if_pos (by omega)]; simp

theorem inv_insert {s : Matches} (hi : Inv s) (i : Int) (m : Match) (hm : m.marker = s.isMarkers) :
    (s.insert i m).2 = none ∧ Inv (s.insert i m).1 ∧
      (s.insert i m).1.delegate = s.delegate.insertIdx (clampIdx s.delegate.length i) m := by
  unfold insert addMatch
  simp only [hm, beq_self_eq_true, if_true]
  refine ⟨trivial, ?_, rfl⟩
  apply inv_add (l := s.delegate) m
  · exact ⟨hi.name, hi.tag, hi.start, hi.stop, hi.index, hi.bound, hi.nonneg⟩
  · exact List.perm_insertIdx m s.delegate (clampIdx_le _ _)

theorem clampIdx_length (n : Nat) : clampIdx n (n : Int) = n := by unfold clampIdx; rw [if_neg (by omega)]; omega

theorem inv_append {s : Matches} (hi : Inv s) (m : Match) (hm : m.marker = s.isMarkers) :
    (s.append m).2 = none ∧ Inv (s.append m).1 ∧ (s.append m).1.delegate = s.delegate ++ [m] := by
  have := inv_insert hi s.length m hm
  refine ⟨this.1, this.2.1, ?_⟩
  unfold append
  rw [this.2.2]
  unfold length
  rw [clampIdx_length, List.insertIdx_length_self]

theorem addMatch_static (s : Matches) (m : Match) :
    (s.addMatch m).1.isMarkers = s.isMarkers ∧ (s.addMatch m).1.inputString = s.inputString := by
  unfold addMatch; split <;> exact ⟨rfl, rfl⟩

theorem insert_static (s : Matches) (i : Int) (m : Match) :
    (s.insert i m).1.isMarkers = s.isMarkers ∧ (s.insert i m).1.inputString = s.inputString := addMatch_static _ _

theorem append_static (s : Matches) (m : Match) :
    (s.append m).1.isMarkers = s.isMarkers ∧ (s.append m).1.inputString = s.inputString := addMatch_static _ _

theorem inv_extend {s : Matches} (hi : Inv s) (ms : List Match) (hm : ∀ m ∈ ms, m.marker = s.isMarkers) :
    (s.extend ms).2 = none ∧ Inv (s.extend ms).1 ∧ (s.extend ms).1.delegate = s.delegate ++ ms ∧
      (s.extend ms).1.isMarkers = s.isMarkers := by
  induction ms generalizing s with
  | nil => exact ⟨rfl, hi, by simp [extend], rfl⟩
  | cons m ms ih =>
    have h := inv_append hi m (hm m List.mem_cons_self)
    have hst := append_static s m
    unfold extend
    cases ha : s.append m with
    | mk s' e =>
      rw [ha] at h hst
      obtain rfl : e = none := h.1
      simp only
      have := ih h.2.1 (fun x hx => by rw [hst.1]; exact hm x (List.mem_cons_of_mem _ hx))
      refine ⟨this.1, this.2.1, ?_, this.2.2.2.trans hst.1⟩
      rw [this.2.2.1, h.2.2, List.append_assoc]; rfl

theorem getElem?_eraseIdx_perm {α} {l : List α} {k : Nat} {x : α} (h : l[k]? = some x) : l.Perm (x :: l.eraseIdx k) := by
  induction l generalizing k with
  | nil => simp at h
  | cons a l ih =>
    cases k with
    | zero => simp at h; subst h; simp
    | succ k =>
      simp only [List.getElem?_cons_succ] at h
      simp only [List.eraseIdx_cons_succ]
      exact ((ih h).cons a).trans (List.Perm.swap _ _ _)

theorem inv_delItem {s : Matches} (hi : Inv s) {i : Int} {k : Nat} (hk : normIdx s.delegate.length i = some k) :
    (s.delItem i).2 = none ∧ Inv (s.delItem i).1 ∧ (s.delItem i).1.delegate = s.delegate.eraseIdx k ∧
      (s.delItem i).1.isMarkers = s.isMarkers := by
  have hlt := normIdx_lt hk
  obtain ⟨m, hm⟩ : ∃ m, s.delegate[k]? = some m := ⟨s.delegate[k], List.getElem?_eq_getElem hlt⟩
  unfold delItem
  simp only [hk, hm]
  have := inv_remove (s := { s with delegate := s.delegate.eraseIdx k }) (l := s.delegate) m hi (getElem?_eraseIdx_perm hm)
  exact ⟨this.1, this.2.1, this.2.2, (removeMatch_input _ _).2⟩

theorem delItem_none {s : Matches} {i : Int} (hk : normIdx s.delegate.length i = none) :
    s.delItem i = (s, some .indexError) := by
  unfold delItem; rw [hk]

theorem pyGet_of_norm {α} {l : List α} {i : Int} {k : Nat} (hk : normIdx l.length i = some k) :
    pyGet l i = l[k]? := by unfold pyGet; rw [hk]

theorem inv_pop {s : Matches} (hi : Inv s) {i : Int} {k : Nat} (hk : normIdx s.delegate.length i = some k) :
    (∃ m, s.delegate[k]? = some m ∧ (s.pop i).2 = .ok m) ∧ Inv (s.pop i).1 ∧
      (s.pop i).1.delegate = s.delegate.eraseIdx k ∧ (s.pop i).1.isMarkers = s.isMarkers := by
  have hlt := normIdx_lt hk
  have hm : s.delegate[k]? = some s.delegate[k] := List.getElem?_eq_getElem hlt
  have hd := inv_delItem hi hk
  unfold pop getItem
  rw [pyGet_of_norm hk, hm]
  simp only
  cases hdel : s.delItem i with
  | mk s' e =>
    rw [hdel] at hd
    obtain rfl : e = none := hd.1
    exact ⟨⟨_, rfl, rfl⟩, hd.2⟩

theorem pop_none {s : Matches} {i : Int} (hk : normIdx s.delegate.length i = none) :
    s.pop i = (s, .error .indexError) := by
  unfold pop getItem pyGet; simp [hk]

theorem findIdx?_removeFirst {α} (p : α → Bool) (l : List α) :
    (l.findIdx? p).map (fun k => l.eraseIdx k) = removeFirst p l := by
  induction l with
  | nil => rfl
  | cons x xs ih =>
    simp only [List.findIdx?_cons, removeFirst]
    split
    · simp
    · rw [← ih]; cases List.findIdx? p xs <;> simp

theorem inv_remove_op {s : Matches} (hi : Inv s) (m : Match) {l' : List Match}
    (h : removeFirst (fun x => x.eqv m) s.delegate = some l') :
    (s.remove m).2 = none ∧ Inv (s.remove m).1 ∧ (s.remove m).1.delegate = l' ∧
      (s.remove m).1.isMarkers = s.isMarkers := by
  rw [← findIdx?_removeFirst] at h
  obtain ⟨k, hk, rfl⟩ := Option.map_eq_some_iff.1 h
  unfold remove
  rw [hk]
  simp only
  have hlt : k < s.delegate.length := by
    have := (List.findIdx?_eq_some_iff_findIdx_eq.1 hk); omega
  exact inv_delItem hi (normIdx_nat hlt)

theorem remove_none {s : Matches} (m : Match) (h : removeFirst (fun x => x.eqv m) s.delegate = none) :
    s.remove m = (s, some .valueError) := by
  rw [← findIdx?_removeFirst] at h
  unfold remove
  rw [Option.map_eq_none_iff.1 h]

theorem inv_clearLoop (n : Nat) {s : Matches} (hi : Inv s) (hn : s.delegate.length < n) :
    (clearLoop n s).2 = none ∧ Inv (clearLoop n s).1 ∧ (clearLoop n s).1.delegate = [] ∧
      (clearLoop n s).1.isMarkers = s.isMarkers := by
  induction n generalizing s with
  | zero => omega
  | succ n ih =>
    unfold clearLoop
    by_cases h0 : s.delegate.length = 0
    · have hk : normIdx s.delegate.length (-1) = none := by rw [h0]; rfl
      rw [pop_none hk]
      exact ⟨rfl, hi, List.length_eq_zero_iff.1 h0, rfl⟩
    · have hk : normIdx s.delegate.length (-1) = some (s.delegate.length - 1) := by
        unfold normIdx; rw [if_neg (by omega), if_pos (by omega)]; congr 1; omega
      have hp := inv_pop hi hk
      obtain ⟨⟨m, _, hm⟩, hp⟩ := hp
      cases hpop : s.pop (-1) with
      | mk s' r =>
        rw [hpop] at hm hp
        simp only at hm
        subst hm
        simp only
        have := ih hp.1 (by rw [hp.2.1, List.length_eraseIdx]; split <;> omega)
        exact ⟨this.1, this.2.1, this.2.2.1, this.2.2.2.trans hp.2.2⟩

theorem inv_clear {s : Matches} (hi : Inv s) :
    (s.clear).2 = none ∧ Inv (s.clear).1 ∧ (s.clear).1.delegate = [] ∧ (s.clear).1.isMarkers = s.isMarkers :=
  inv_clearLoop _ hi (Nat.lt_succ_self _)

/-- Lookups do not change anything observable. -/
theorem step_lookup_sim (s : Matches) (op : Op) (h : isLookup op = true) : Sim s (s.step op).1 := by
  cases op with
  | append | insert | extend | remove | pop | delItem | clear | delSlice | setItem | reverse => cases h
  | named ns => exact (named_spec s ns).1
  | tagged t => exact lookTag_sim s t
  | starting i => exact lookStart_sim s i
  | ending i => exact lookEnd_sim s i
  | atIndex i => exact lookIndex_sim s i
  | names => exact names_sim s
  | tags => exact tags_sim s
  | previous m => exact previousLoop_sim _ s
  | next m => exact nextLoop_sim _ s
  | conflicting m => exact conflicting_sim s m
  | atSpan a b => exact atSpan_sim s a b
  | chainBefore p sp st pr => exact chainLoop_sim sp pr _ s []
  | chainAfter p sp st pr => exact chainLoop_sim sp pr _ s []
  | holes a b ig sp => exact holes_sim s a b ig sp

/-- Adding and removing calls keep the invariant and act as on a plain list, exceptions included. -/
theorem step_addRemove {s : Matches} (hi : Inv s) (op : Op) (h : isAddRemove op = true) (hf : Fits s.isMarkers op) :
    Inv (s.step op).1 ∧ (s.step op).1.delegate = (listStep s.delegate op).1 ∧
      raisedBy (s.step op).2 = (listStep s.delegate op).2 ∧ (s.step op).1.isMarkers = s.isMarkers := by
  cases op with
  | delSlice | setItem | reverse | named | tagged | starting | ending | atIndex | names | tags | previous | next
  | conflicting | atSpan | chainBefore | chainAfter | holes => cases h
  | append m =>
    have := inv_append hi m (hf m (by simp [added]))
    simp only [step, listStep, this.1]
    exact ⟨this.2.1, this.2.2, rfl, (append_static s m).1⟩
  | insert i m =>
    have := inv_insert hi i m (hf m (by simp [added]))
    simp only [step, listStep, this.1]
    exact ⟨this.2.1, this.2.2, rfl, (insert_static s i m).1⟩
  | extend ms =>
    have := inv_extend hi ms hf
    simp only [step, listStep, this.1]
    exact ⟨this.2.1, this.2.2.1, rfl, this.2.2.2⟩
  | remove m =>
    simp only [step, listStep]
    cases hr : removeFirst (fun x => x.eqv m) s.delegate with
    | none => rw [remove_none m hr]; exact ⟨hi, rfl, rfl, rfl⟩
    | some l' =>
      have := inv_remove_op hi m hr
      simp only [this.1]
      exact ⟨this.2.1, this.2.2.1, rfl, this.2.2.2⟩
  | pop i =>
    simp only [step, listStep]
    cases hk : normIdx s.delegate.length i with
    | none => rw [pop_none hk]; exact ⟨hi, rfl, rfl, rfl⟩
    | some k =>
      obtain ⟨⟨m, _, hm⟩, hp⟩ := inv_pop hi hk
      simp only [hm]
      exact ⟨hp.1, hp.2.1, rfl, hp.2.2⟩
  | delItem i =>
    simp only [step, listStep]
    cases hk : normIdx s.delegate.length i with
    | none => rw [delItem_none hk]; exact ⟨hi, rfl, rfl, rfl⟩
    | some k =>
      have := inv_delItem hi hk
      simp only [this.1]
      exact ⟨this.2.1, this.2.2.1, rfl, this.2.2.2⟩
  | clear =>
    have := inv_clear hi
    simp only [step, listStep, this.1]
    exact ⟨this.2.1, this.2.2.1, rfl, this.2.2.2⟩

theorem listStep_lookup (l : List Match) (op : Op) (h : isLookup op = true) : listStep l op = (l, none) := by
  cases op <;> first | rfl | cases h

theorem inv_run {s : Matches} (hi : Inv s) (ops : List Op)
    (h : ∀ op ∈ ops, (isAddRemove op || isLookup op) = true ∧ Fits s.isMarkers op) :
    Inv (s.runOps ops) ∧ (s.runOps ops).delegate = listRun s.delegate ops ∧ (s.runOps ops).isMarkers = s.isMarkers := by
  induction ops generalizing s with
  | nil => exact ⟨hi, rfl, rfl⟩
  | cons op ops ih =>
    have hop := h op List.mem_cons_self
    have key : Inv (s.step op).1 ∧ (s.step op).1.delegate = (listStep s.delegate op).1 ∧
        (s.step op).1.isMarkers = s.isMarkers := by
      rcases Bool.or_eq_true _ _ |>.mp hop.1 with ha | hl
      · have := step_addRemove hi op ha hop.2
        exact ⟨this.1, this.2.1, this.2.2.2⟩
      · have hs := step_lookup_sim s op hl
        rw [listStep_lookup _ _ hl]
        exact ⟨hi.sim hs, hs.delegate, hs.markers⟩
    have := ih key.1 (fun o ho => by rw [key.2.2]; exact h o (List.mem_cons_of_mem _ ho))
    refine ⟨this.1, ?_, this.2.2.trans key.2.2⟩
    rw [show s.runOps (op :: ops) = (s.step op).1.runOps ops from rfl, this.2.1, key.2.1]
    rfl

/-! ## From coherence to the user's view -/

theorem countP_eqv (l : List Match) (e : Match) : l.countP (fun x => x.eqv e) = (l.map Match.eqKey).count e.eqKey := by
  rw [List.count, List.countP_map]
  congr 1
  funext x
  simp only [Function.comp, Match.eqv_eq_decide]
  rw [Bool.eq_iff_iff]; simp

theorem sameUpToEq_of_perm {l₁ l₂ : List Match} (h : (l₁.map Match.eqKey).Perm (l₂.map Match.eqKey)) : SameUpToEq l₁ l₂ := by
  intro e; rw [countP_eqv, countP_eqv]; exact h.count_eq _

theorem perm_of_sameUpToEq {l₁ l₂ : List Match} (h : SameUpToEq l₁ l₂) : (l₁.map Match.eqKey).Perm (l₂.map Match.eqKey) := by
  rw [List.perm_iff_count]
  intro c
  by_cases hc : c ∈ l₁.map Match.eqKey
  · obtain ⟨e, _, rfl⟩ := List.mem_map.1 hc
    have := h e; rwa [countP_eqv, countP_eqv] at this
  · by_cases hc2 : c ∈ l₂.map Match.eqKey
    · obtain ⟨e, _, rfl⟩ := List.mem_map.1 hc2
      have := h e; rwa [countP_eqv, countP_eqv] at this
    · rw [List.count_eq_zero_of_not_mem hc, List.count_eq_zero_of_not_mem hc2]

theorem filed_name (l : List Match) {n : String} (hn : n ≠ "") : filed nameKeys l n = Spec.named l n := by
  rw [filed_of_nodup]
  · apply List.filter_congr
    intro m _
    unfold nameKeys Match.nameKey
    cases h : m.name with
    | none => simp
    | some k =>
      simp only
      by_cases hk : k.isEmpty
      · have : k = "" := by simpa using hk
        subst this
        simp [Ne.symm hn]
      · simp [hk, eq_comm]
  · intro m _; unfold nameKeys; cases m.nameKey <;> simp

theorem filed_name_empty (l : List Match) : filed nameKeys l "" = [] := by
  rw [filed_of_nodup]
  · rw [List.filter_eq_nil_iff]
    intro m _
    unfold nameKeys Match.nameKey
    cases h : m.name with
    | none => simp
    | some k =>
      simp only
      by_cases hk : k.isEmpty
      · simp [hk]
      · simp only [hk]
        intro hc
        have : k = "" := by simpa using hc
        subst this
        simp at hk
  · intro m _; unfold nameKeys; cases m.nameKey <;> simp

theorem filed_start (l : List Match) (i : Int) : filed startKeys l i = Spec.starting l i := by
  rw [filed_of_nodup]
  · apply List.filter_congr; intro m _; simp [startKeys, eq_comm]
  · intro m _; simp [startKeys]

theorem filed_end (l : List Match) (i : Int) : filed endKeys l i = Spec.ending l i := by
  rw [filed_of_nodup]
  · apply List.filter_congr; intro m _; simp [endKeys, eq_comm]
  · intro m _; simp [endKeys]

theorem filed_index (l : List Match) (i : Int) : filed indexKeys l i = Spec.covering l i := by
  rw [filed_of_nodup]
  · apply List.filter_congr; intro m _; simp [indexKeys, mem_pyRange]
  · intro m _; exact pyRange_nodup _ _

theorem filed_tag (l : List Match) (t : String) (h : ∀ m ∈ l, m.tags.Nodup) : filed tagKeys l t = Spec.tagged l t :=
  filed_of_nodup _ _ _ h

theorem Inv.seesName {s : Matches} (hi : Inv s) {n : String} (hn : n ≠ "") :
    SameUpToEq (s.nameDict.getList n) (Spec.named s.delegate n) := by
  rw [← filed_name _ hn]; exact sameUpToEq_of_perm (hi.viewName n)
theorem Inv.seesTag {s : Matches} (hi : Inv s) (t : String) :
    SameUpToEq (s.tagDict.getList t) (filed tagKeys s.delegate t) := sameUpToEq_of_perm (hi.viewTag t)
theorem Inv.seesStart {s : Matches} (hi : Inv s) (i : Int) :
    SameUpToEq (s.startDict.getList i) (Spec.starting s.delegate i) := by
  rw [← filed_start]; exact sameUpToEq_of_perm (hi.viewStart i)
theorem Inv.seesEnd {s : Matches} (hi : Inv s) (i : Int) :
    SameUpToEq (s.endDict.getList i) (Spec.ending s.delegate i) := by
  rw [← filed_end]; exact sameUpToEq_of_perm (hi.viewEnd i)
theorem Inv.seesIndex {s : Matches} (hi : Inv s) (i : Int) :
    SameUpToEq (s.indexDict.getList i) (Spec.covering s.delegate i) := by
  rw [← filed_index]; exact sameUpToEq_of_perm (hi.viewIndex i)

end Matches
end Rebulk
