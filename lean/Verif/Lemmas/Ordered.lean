import Verif.Lemmas.Steps
/-!
# Literal coherence of the indexes (order included)
-/
namespace Rebulk
open Spec
variable {κ : Type} [DecidableEq κ]

/-- The index holds literally, in sequence order, the matches filed under every key. -/
def Lit (keysOf : Match → List κ) (d : Index κ) (l : List Match) : Prop := ∀ k, d.getList k = filed keysOf l k
/-- `Lit` for an index that may not be built. -/
def LitO (keysOf : Match → List κ) (d : Option (Index κ)) (l : List Match) : Prop := ∀ d', d = some d' → Lit keysOf d' l

theorem LitO_none (keysOf : Match → List κ) (l : List Match) : LitO keysOf none l := by intro d h; cases h

theorem LitO_append {keysOf : Match → List κ} {d : Option (Index κ)} {l : List Match} (m : Match) (h : LitO keysOf d l) :
    LitO keysOf (Matches.addTo d (keysOf m) m) (l ++ [m]) := by
  intro d' hd k
  obtain ⟨d0, h0, rfl⟩ := Option.map_eq_some_iff.1 hd
  rw [addKeys_getList, h d0 h0 k, filed_append, filed_cons, filed_nil, List.append_nil]

theorem removeFirst_append_of_none {α} (p : α → Bool) (a b : List α) (h : ∀ y ∈ a, p y = false) :
    removeFirst p (a ++ b) = (removeFirst p b).map (a ++ ·) := by
  induction a with
  | nil => simp
  | cons x a ih =>
    simp only [List.cons_append, removeFirst, h x List.mem_cons_self]
    rw [if_neg (by simp), ih (fun y hy => h y (List.mem_cons_of_mem _ hy))]
    simp [Option.map_map, Function.comp_def]

theorem removeKeys_lit (m : Match) (keys : List κ) (d : Index κ) (A B : κ → List Match)
    (hA : ∀ k, ∀ x ∈ A k, x.eqv m = false)
    (h : ∀ k, d.getList k = A k ++ (List.replicate (keys.count k) m ++ B k)) :
    (Matches.removeKeys m keys d).2 = true ∧ ∀ k, (Matches.removeKeys m keys d).1.getList k = A k ++ B k := by
  induction keys generalizing d with
  | nil => exact ⟨rfl, by simpa [Matches.removeKeys] using h⟩
  | cons k0 ks ih =>
    have hk0 := h k0
    rw [List.count_cons_self, List.replicate_succ, List.cons_append] at hk0
    simp only [Matches.removeKeys]
    rw [hk0, removeFirst_append_of_none _ _ _ (hA k0)]
    simp only [removeFirst, Match.eqv_refl, if_true, Option.map_some]
    apply ih
    intro k
    rw [Dict.getList_set]
    by_cases hk : k0 = k
    · subst hk; rw [if_pos rfl]
    · rw [if_neg hk]
      have := h k
      rwa [List.count_cons_of_ne (by simpa using hk)] at this

theorem filed_subset (keysOf : Match → List κ) (l : List Match) (k : κ) {x : Match} (h : x ∈ filed keysOf l k) : x ∈ l := by
  simp only [filed, List.mem_flatMap] at h
  obtain ⟨m, hm, hx⟩ := h
  rw [List.mem_replicate] at hx
  exact hx.2 ▸ hm

theorem LitO_remove {keysOf : Match → List κ} {d : Option (Index κ)} {a b : List Match} (m : Match)
    (hA : ∀ x ∈ a, x.eqv m = false) (h : LitO keysOf d (a ++ m :: b)) :
    LitO keysOf (Matches.removeFrom d (keysOf m) m).1 (a ++ b) := by
  cases d with
  | none => exact LitO_none _ _
  | some d =>
    have := removeKeys_lit m (keysOf m) d (filed keysOf a) (filed keysOf b)
      (fun k x hx => hA x (filed_subset _ _ _ hx)) (by
        intro k; rw [h d rfl k, filed_append, filed_cons])
    intro d' hd' k
    simp only [Matches.removeFrom, Option.some.injEq] at hd'
    subst hd'
    rw [this.2, filed_append]

namespace Matches

/-- The five indexes are literally coherent with the sequence. -/
structure Exact (s : Matches) : Prop where
  name : LitO nameKeys s.nameD s.delegate
  tag : LitO tagKeys s.tagD s.delegate
  start : LitO startKeys s.startD s.delegate
  stop : LitO endKeys s.endD s.delegate
  index : LitO indexKeys s.indexD s.delegate

theorem exact_empty (b : Bool) (inp : Option Str) : Exact (empty b inp) :=
  ⟨LitO_none _ _, LitO_none _ _, LitO_none _ _, LitO_none _ _, LitO_none _ _⟩

theorem litO_of_view {keysOf : Match → List κ} {d d0 : Option (Index κ)} {b : Index κ} {l : List Match}
    (hb : ∀ k, b.getList k = filed keysOf l k) (h0 : LitO keysOf d0 l)
    (he : ∀ k, (d.getD b).getList k = (d0.getD b).getList k) : LitO keysOf d l := by
  intro d' hd k
  subst hd
  rw [show (d'.getList k) = ((some d').getD b).getList k from rfl, he]
  cases d0 with
  | none => simp only [Option.getD_none]; rw [hb]
  | some d0 => exact h0 d0 rfl k

theorem Exact.sim {s s' : Matches} (hi : Exact s) (h : Sim s s') : Exact s' := by
  have hd := h.delegate
  refine ⟨?_, ?_, ?_, ?_, ?_⟩
  · rw [hd]; refine litO_of_view (b := buildName s.delegate) (buildName_getList _) hi.name ?_
    have := h.name; simp only [nameDict, hd] at this; exact this
  · rw [hd]; refine litO_of_view (b := buildTag s.delegate) (buildTag_getList _) hi.tag ?_
    have := h.tag; simp only [tagDict, hd] at this; exact this
  · rw [hd]; refine litO_of_view (b := buildStart s.delegate) (buildStart_getList _) hi.start ?_
    have := h.start; simp only [startDict, hd] at this; exact this
  · rw [hd]; refine litO_of_view (b := buildEnd s.delegate) (buildEnd_getList _) hi.stop ?_
    have := h.stop; simp only [endDict, hd] at this; exact this
  · rw [hd]; refine litO_of_view (b := buildIndex s.delegate) (buildIndex_getList _) hi.index ?_
    have := h.index; simp only [indexDict, hd] at this; exact this

theorem view_lit {keysOf : Match → List κ} {d : Option (Index κ)} {b : Index κ} {l : List Match}
    (hb : ∀ k, b.getList k = filed keysOf l k) (h : LitO keysOf d l) : Lit keysOf (d.getD b) l := by
  cases d with
  | none => intro k; simp only [Option.getD_none]; rw [hb]
  | some d => exact h d rfl

theorem Exact.viewName {s : Matches} (h : Exact s) : Lit nameKeys s.nameDict s.delegate := view_lit (buildName_getList _) h.name
theorem Exact.viewTag {s : Matches} (h : Exact s) : Lit tagKeys s.tagDict s.delegate := view_lit (buildTag_getList _) h.tag
theorem Exact.viewStart {s : Matches} (h : Exact s) : Lit startKeys s.startDict s.delegate := view_lit (buildStart_getList _) h.start
theorem Exact.viewEnd {s : Matches} (h : Exact s) : Lit endKeys s.endDict s.delegate := view_lit (buildEnd_getList _) h.stop
theorem Exact.viewIndex {s : Matches} (h : Exact s) : Lit indexKeys s.indexDict s.delegate := view_lit (buildIndex_getList _) h.index

theorem exact_append {s : Matches} (hi : Exact s) (m : Match) (hm : m.marker = s.isMarkers) : Exact (s.append m).1 := by
  have hd : s.delegate.insertIdx (clampIdx s.delegate.length (s.length : Int)) m = s.delegate ++ [m] := by
    unfold length; rw [clampIdx_length, List.insertIdx_length_self]
  unfold append insert addMatch
  simp only [hm, beq_self_eq_true, if_true, hd]
  exact ⟨LitO_append m hi.name, LitO_append m hi.tag, LitO_append m hi.start, LitO_append m hi.stop, LitO_append m hi.index⟩

theorem exact_extend {s : Matches} (hv : Inv s) (hi : Exact s) (ms : List Match) (hm : ∀ m ∈ ms, m.marker = s.isMarkers) :
    Exact (s.extend ms).1 := by
  induction ms generalizing s with
  | nil => exact hi
  | cons m ms ih =>
    have h := inv_append hv m (hm m List.mem_cons_self)
    have he := exact_append hi m (hm m List.mem_cons_self)
    have hst := append_static s m
    unfold extend
    cases ha : s.append m with
    | mk s' e =>
      rw [ha] at h hst he
      obtain rfl : e = none := h.1
      exact ih h.2.1 he (fun x hx => by rw [hst.1]; exact hm x (List.mem_cons_of_mem _ hx))

theorem exact_shrink {s : Matches} (m : Match) (hi : Exact s) : Exact (s.shrinkMaxEnd m) := by
  have hc : LitO endKeys (some (s.endDict.touch m.stop)) s.delegate := by
    intro d' hd k; cases hd; rw [Dict.getList_touch]; exact hi.viewEnd k
  unfold shrinkMaxEnd
  simp only
  split
  · split
    · exact ⟨hi.name, hi.tag, hi.start, hc, hi.index⟩
    · exact ⟨hi.name, hi.tag, hi.start, hc, hi.index⟩
  · exact hi

/-- Deleting a match that equals none before it. -/
theorem exact_delItem_first {s : Matches} (hv : Inv s) (hi : Exact s) (i : Int)
    (hfirst : ∀ k (hk : normIdx s.delegate.length i = some k), ∀ x ∈ s.delegate.take k, x.eqv (s.delegate[k]'(normIdx_lt hk)) = false) :
    Exact (s.delItem i).1 := by
  cases hk : normIdx s.delegate.length i with
  | none => rw [delItem_none hk]; exact hi
  | some k =>
    have hlt := normIdx_lt hk
    have hm : s.delegate[k]? = some s.delegate[k] := List.getElem?_eq_getElem hlt
    have hsplit : s.delegate = s.delegate.take k ++ s.delegate[k] :: s.delegate.drop (k + 1) := by
      rw [← List.drop_eq_getElem_cons hlt, List.take_append_drop]
    have herase : s.delegate.eraseIdx k = s.delegate.take k ++ s.delegate.drop (k + 1) := List.eraseIdx_eq_take_drop_succ _ _
    have hA : ∀ x ∈ s.delegate.take k, x.eqv s.delegate[k] = false := hfirst k hk
    have hv' := inv_remove (s := { s with delegate := s.delegate.eraseIdx k }) (l := s.delegate) s.delegate[k] hv
      (getElem?_eraseIdx_perm hm)
    unfold delItem
    simp only [hk, hm]
    generalize hmk : s.delegate[k] = m at *
    have h1 : ∀ {κ : Type} [DecidableEq κ] {keysOf : Match → List κ} {d : Option (Index κ)}, LitO keysOf d s.delegate →
        LitO keysOf (removeFrom d (keysOf m) m).1 (s.delegate.eraseIdx k) := by
      intro κ _ keysOf d h
      rw [herase]
      rw [hsplit] at h
      exact LitO_remove m hA h
    have hp := getElem?_eraseIdx_perm hm
    have e1 := (CohO_remove m (CohO_perm hp hv.name)).1
    have e2 := (CohO_remove m (CohO_perm hp hv.tag)).1
    have e3 := (CohO_remove m (CohO_perm hp hv.start)).1
    have e4 := (CohO_remove m (CohO_perm hp hv.stop)).1
    have e5 := (CohO_remove m (CohO_perm hp hv.index)).1
    unfold removeMatch
    simp only [e1, e2, e3, e4, e5, Bool.not_true, Bool.false_eq_true, if_false]
    apply exact_shrink
    exact ⟨h1 hi.name, h1 hi.tag, h1 hi.start, h1 hi.stop, h1 hi.index⟩

theorem exact_delItem {s : Matches} (hv : Inv s) (hi : Exact s) (hno : NoEqual s.delegate) (i : Int) : Exact (s.delItem i).1 := by
  refine exact_delItem_first hv hi i (fun k hk x hx => ?_)
  have hlt := normIdx_lt hk
  have hsplit : s.delegate = s.delegate.take k ++ s.delegate[k] :: s.delegate.drop (k + 1) := by
    rw [← List.drop_eq_getElem_cons hlt, List.take_append_drop]
  unfold NoEqual at hno
  rw [hsplit, List.pairwise_append] at hno
  exact hno.2.2 x hx _ List.mem_cons_self

theorem pop_state (s : Matches) (i : Int) : (s.pop i).1 = (s.delItem i).1 := by
  unfold pop getItem pyGet
  cases hk : normIdx s.delegate.length i with
  | none => simp [delItem, hk]
  | some k =>
    have hm : s.delegate[k]? = some (s.delegate[k]'(normIdx_lt hk)) := List.getElem?_eq_getElem (normIdx_lt hk)
    simp only [hm]
    cases s.delItem i with
    | mk s' e => cases e <;> rfl

theorem noEqual_eraseIdx {l : List Match} (h : NoEqual l) (k : Nat) : NoEqual (l.eraseIdx k) :=
  List.Pairwise.sublist (List.eraseIdx_sublist l k) h

theorem exact_clearLoop (n : Nat) {s : Matches} (hv : Inv s) (hi : Exact s) (hno : NoEqual s.delegate) :
    Exact (clearLoop n s).1 := by
  induction n generalizing s with
  | zero => exact hi
  | succ n ih =>
    unfold clearLoop
    cases hk : normIdx s.delegate.length (-1) with
    | none => rw [pop_none hk]; exact hi
    | some k =>
      obtain ⟨⟨m, _, hm⟩, hp⟩ := inv_pop hv hk
      have he := exact_delItem hv hi hno (-1)
      rw [← pop_state] at he
      cases hpop : s.pop (-1) with
      | mk s' r =>
        rw [hpop] at hm hp he
        simp only at hm
        subst hm
        exact ih hp.1 he (by rw [hp.2.1]; exact noEqual_eraseIdx hno k)

theorem exact_step {s : Matches} (hv : Inv s) (hi : Exact s) (hno : NoEqual s.delegate) (op : Op)
    (h : isAppendRemove op = true) (hf : Fits s.isMarkers op) : Exact (s.step op).1 := by
  cases op with
  | insert | delSlice | setItem | reverse | named | tagged | starting | ending | atIndex | names | tags | previous | next
  | conflicting | atSpan | chainBefore | chainAfter | holes => cases h
  | append m => exact exact_append hi m (hf m (by simp [added]))
  | extend ms => exact exact_extend hv hi ms hf
  | remove m =>
    simp only [step, remove]
    split
    · exact hi
    · exact exact_delItem hv hi hno _
  | pop i => simp only [step]; rw [pop_state]; exact exact_delItem hv hi hno i
  | delItem i => exact exact_delItem hv hi hno i
  | clear => exact exact_clearLoop _ hv hi hno

theorem isAppendRemove_imp (op : Op) (h : isAppendRemove op = true) : isAddRemove op = true := by
  cases op <;> first | rfl | cases h

theorem exact_run {s : Matches} (hv : Inv s) (hi : Exact s) (ops : List Op)
    (h : ∀ op ∈ ops, (isAppendRemove op || isLookup op) = true ∧ Fits s.isMarkers op)
    (hno : ∀ n, NoEqual (s.runOps (ops.take n)).delegate) : Exact (s.runOps ops) := by
  induction ops generalizing s with
  | nil => exact hi
  | cons op ops ih =>
    have hop := h op List.mem_cons_self
    have h0 : NoEqual s.delegate := hno 0
    have key : Inv (s.step op).1 ∧ Exact (s.step op).1 ∧ (s.step op).1.isMarkers = s.isMarkers := by
      rcases Bool.or_eq_true _ _ |>.mp hop.1 with ha | hl
      · have := step_addRemove hv op (isAppendRemove_imp op ha) hop.2
        exact ⟨this.1, exact_step hv hi h0 op ha hop.2, this.2.2.2⟩
      · have hs := step_lookup_sim s op hl
        exact ⟨hv.sim hs, hi.sim hs, hs.markers⟩
    exact ih key.1 key.2.1 (fun o ho => by rw [key.2.2]; exact h o (List.mem_cons_of_mem _ ho))
      (fun n => hno (n + 1))

/-- Removing by value deletes the first equal match: nothing equal comes before it. -/
theorem exact_remove {s : Matches} (hv : Inv s) (hi : Exact s) (m : Match) : Exact (s.remove m).1 := by
  unfold remove
  cases hf : s.delegate.findIdx? (fun x => x.eqv m) with
  | none => exact hi
  | some k =>
    have hlt : k < s.delegate.length := by
      have := (List.findIdx?_eq_some_iff_findIdx_eq.1 hf); omega
    obtain ⟨_, hk, hbefore⟩ := List.findIdx?_eq_some_iff_getElem.1 hf
    refine exact_delItem_first hv hi (k : Int) (fun k' hk' x hx => ?_)
    obtain rfl : k = k' := by rw [normIdx_nat hlt] at hk'; exact Option.some.inj hk'
    obtain ⟨j, hj, rfl⟩ := List.getElem_of_mem hx
    rw [List.length_take] at hj
    rw [List.getElem_take]
    have := hbefore j (by omega)
    cases he : (s.delegate[j]'(by omega)).eqv s.delegate[k] with
    | false => rfl
    | true => exact absurd (Match.eqv_trans he hk) this

theorem litO_of_empty {keysOf : Match → List κ} {d : Option (Index κ)} (h : CohO keysOf d []) : LitO keysOf d [] := by
  intro d' hd k
  have hc := h d' hd k
  rw [filed_nil] at hc ⊢
  cases hl : d'.getList k with
  | nil => rfl
  | cons x l =>
    rw [hl] at hc
    have := hc.length_eq
    simp at this

theorem exact_of_empty {s : Matches} (hv : Inv s) (h : s.delegate = []) : Exact s := by
  refine ⟨?_, ?_, ?_, ?_, ?_⟩ <;> rw [h] <;> apply litO_of_empty
  · have := hv.name; rwa [h] at this
  · have := hv.tag; rwa [h] at this
  · have := hv.start; rwa [h] at this
  · have := hv.stop; rwa [h] at this
  · have := hv.index; rwa [h] at this

theorem exact_byValue_step {s : Matches} (hv : Inv s) (hi : Exact s) (op : Op)
    (h : isByValue op = true) (hf : Fits s.isMarkers op) : Exact (s.step op).1 := by
  cases op with
  | insert | delSlice | setItem | reverse | named | tagged | starting | ending | atIndex | names | tags | previous | next
  | conflicting | atSpan | chainBefore | chainAfter | holes | pop | delItem => cases h
  | append m => exact exact_append hi m (hf m (by simp [added]))
  | extend ms => exact exact_extend hv hi ms hf
  | remove m => exact exact_remove hv hi m
  | clear =>
    obtain ⟨_, h2, h3, _⟩ := inv_clearLoop (s.length + 1) hv (by unfold length; omega)
    exact exact_of_empty h2 h3

theorem isByValue_imp (op : Op) (h : isByValue op = true) : isAddRemove op = true := by
  cases op <;> first | rfl | cases h

theorem exact_byValue_run {s : Matches} (hv : Inv s) (hi : Exact s) (ops : List Op)
    (h : ∀ op ∈ ops, (isByValue op || isLookup op) = true ∧ Fits s.isMarkers op) :
    Inv (s.runOps ops) ∧ Exact (s.runOps ops) ∧ (s.runOps ops).isMarkers = s.isMarkers := by
  induction ops generalizing s with
  | nil => exact ⟨hv, hi, rfl⟩
  | cons op ops ih =>
    have hop := h op List.mem_cons_self
    have key : Inv (s.step op).1 ∧ Exact (s.step op).1 ∧ (s.step op).1.isMarkers = s.isMarkers := by
      rcases Bool.or_eq_true _ _ |>.mp hop.1 with ha | hl
      · have := step_addRemove hv op (isByValue_imp op ha) hop.2
        exact ⟨this.1, exact_byValue_step hv hi op ha hop.2, this.2.2.2⟩
      · have hs := step_lookup_sim s op hl
        exact ⟨hv.sim hs, hi.sim hs, hs.markers⟩
    obtain ⟨h1, h2, h3⟩ := ih key.1 key.2.1 (fun o ho => by rw [key.2.2]; exact h o (List.mem_cons_of_mem _ ho))
    exact ⟨h1, h2, h3.trans key.2.2⟩

end Matches
end Rebulk
