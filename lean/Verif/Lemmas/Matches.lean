import Verif.Lemmas.Index
/-!
# Invariants of the containers
-/
namespace Rebulk
namespace Matches

/-- Every built index is coherent with the sequence, and `_max_end` bounds the ends. -/
structure Inv (s : Matches) : Prop where
  name : CohO nameKeys s.nameD s.delegate
  tag : CohO tagKeys s.tagD s.delegate
  start : CohO startKeys s.startD s.delegate
  stop : CohO endKeys s.endD s.delegate
  index : CohO indexKeys s.indexD s.delegate
  bound : ∀ m ∈ s.delegate, m.stop ≤ s.maxEnd
  nonneg : 0 ≤ s.maxEnd

/-- Two states that no call can tell apart except through the key views and `_max_end` after a removal: same sequence,
same input, same `_max_end`, same lookups. -/
structure Sim (s s' : Matches) : Prop where
  markers : s'.isMarkers = s.isMarkers
  input : s'.inputString = s.inputString
  maxEnd : s'.maxEnd = s.maxEnd
  delegate : s'.delegate = s.delegate
  name : ∀ k, s'.nameDict.getList k = s.nameDict.getList k
  tag : ∀ k, s'.tagDict.getList k = s.tagDict.getList k
  start : ∀ k, s'.startDict.getList k = s.startDict.getList k
  stop : ∀ k, s'.endDict.getList k = s.endDict.getList k
  index : ∀ k, s'.indexDict.getList k = s.indexDict.getList k

theorem Sim.refl (s : Matches) : Sim s s := ⟨rfl, rfl, rfl, rfl, fun _ => rfl, fun _ => rfl, fun _ => rfl, fun _ => rfl, fun _ => rfl⟩

theorem Sim.trans {a b c : Matches} (h : Sim a b) (h' : Sim b c) : Sim a c :=
  ⟨h'.markers.trans h.markers, h'.input.trans h.input, h'.maxEnd.trans h.maxEnd, h'.delegate.trans h.delegate,
   fun k => (h'.name k).trans (h.name k), fun k => (h'.tag k).trans (h.tag k), fun k => (h'.start k).trans (h.start k),
   fun k => (h'.stop k).trans (h.stop k), fun k => (h'.index k).trans (h.index k)⟩

theorem Sim.maxEndP {s s' : Matches} (h : Sim s s') : s'.maxEndP = s.maxEndP := by
  unfold Matches.maxEndP; rw [h.input, h.maxEnd]

theorem Sim.clampEnd {s s' : Matches} (h : Sim s s') (e : Option Int) : s'.clampEnd e = s.clampEnd e := by
  unfold Matches.clampEnd; rw [h.maxEndP]

theorem cohO_of_view {κ} [DecidableEq κ] {keysOf : Match → List κ} {d d0 : Option (Index κ)} {b : Index κ} {l : List Match}
    (hb : ∀ k, b.getList k = filed keysOf l k) (h0 : CohO keysOf d0 l)
    (he : ∀ k, (d.getD b).getList k = (d0.getD b).getList k) : CohO keysOf d l := by
  intro d' hd k
  subst hd
  rw [show (d'.getList k) = ((some d').getD b).getList k from rfl, he]
  cases d0 with
  | none => simp only [Option.getD_none]; rw [hb]
  | some d0 => exact h0 d0 rfl k

theorem Inv.sim {s s' : Matches} (hi : Inv s) (h : Sim s s') : Inv s' := by
  have hd := h.delegate
  refine ⟨?_, ?_, ?_, ?_, ?_, ?_, ?_⟩
  · rw [hd]; refine cohO_of_view (b := buildName s.delegate) (buildName_getList _) hi.name ?_
    have := h.name; simp only [nameDict, hd] at this; exact this
  · rw [hd]; refine cohO_of_view (b := buildTag s.delegate) (buildTag_getList _) hi.tag ?_
    have := h.tag; simp only [tagDict, hd] at this; exact this
  · rw [hd]; refine cohO_of_view (b := buildStart s.delegate) (buildStart_getList _) hi.start ?_
    have := h.start; simp only [startDict, hd] at this; exact this
  · rw [hd]; refine cohO_of_view (b := buildEnd s.delegate) (buildEnd_getList _) hi.stop ?_
    have := h.stop; simp only [endDict, hd] at this; exact this
  · rw [hd]; refine cohO_of_view (b := buildIndex s.delegate) (buildIndex_getList _) hi.index ?_
    have := h.index; simp only [indexDict, hd] at this; exact this
  · rw [hd, h.maxEnd]; exact hi.bound
  · rw [h.maxEnd]; exact hi.nonneg

/-! ## Views -/

theorem view_coh {κ} [DecidableEq κ] {keysOf : Match → List κ} {d : Option (Index κ)} {b : Index κ} {l : List Match}
    (hb : ∀ k, b.getList k = filed keysOf l k) (h : CohO keysOf d l) : Coh keysOf (d.getD b) l := by
  cases d with
  | none => intro k; simp only [Option.getD_none]; rw [hb]
  | some d => exact h d rfl

theorem Inv.viewName {s : Matches} (h : Inv s) : Coh nameKeys s.nameDict s.delegate := view_coh (buildName_getList _) h.name
theorem Inv.viewTag {s : Matches} (h : Inv s) : Coh tagKeys s.tagDict s.delegate := view_coh (buildTag_getList _) h.tag
theorem Inv.viewStart {s : Matches} (h : Inv s) : Coh startKeys s.startDict s.delegate := view_coh (buildStart_getList _) h.start
theorem Inv.viewEnd {s : Matches} (h : Inv s) : Coh endKeys s.endDict s.delegate := view_coh (buildEnd_getList _) h.stop
theorem Inv.viewIndex {s : Matches} (h : Inv s) : Coh indexKeys s.indexDict s.delegate := view_coh (buildIndex_getList _) h.index

/-! ## Lookups do not change the state up to `Sim` -/

theorem lookName_sim (s : Matches) (k : String) : Sim s (s.lookName k).1 :=
  ⟨rfl, rfl, rfl, rfl, fun _ => Dict.getList_touch _ _ _, fun _ => rfl, fun _ => rfl, fun _ => rfl, fun _ => rfl⟩
theorem lookTag_sim (s : Matches) (k : String) : Sim s (s.lookTag k).1 :=
  ⟨rfl, rfl, rfl, rfl, fun _ => rfl, fun _ => Dict.getList_touch _ _ _, fun _ => rfl, fun _ => rfl, fun _ => rfl⟩
theorem lookStart_sim (s : Matches) (k : Int) : Sim s (s.lookStart k).1 :=
  ⟨rfl, rfl, rfl, rfl, fun _ => rfl, fun _ => rfl, fun _ => Dict.getList_touch _ _ _, fun _ => rfl, fun _ => rfl⟩
theorem lookEnd_sim (s : Matches) (k : Int) : Sim s (s.lookEnd k).1 :=
  ⟨rfl, rfl, rfl, rfl, fun _ => rfl, fun _ => rfl, fun _ => rfl, fun _ => Dict.getList_touch _ _ _, fun _ => rfl⟩
theorem lookIndex_sim (s : Matches) (k : Int) : Sim s (s.lookIndex k).1 :=
  ⟨rfl, rfl, rfl, rfl, fun _ => rfl, fun _ => rfl, fun _ => rfl, fun _ => rfl, fun _ => Dict.getList_touch _ _ _⟩
theorem names_sim (s : Matches) : Sim s s.names.1 :=
  ⟨rfl, rfl, rfl, rfl, fun _ => rfl, fun _ => rfl, fun _ => rfl, fun _ => rfl, fun _ => rfl⟩
theorem tags_sim (s : Matches) : Sim s s.tags.1 :=
  ⟨rfl, rfl, rfl, rfl, fun _ => rfl, fun _ => rfl, fun _ => rfl, fun _ => rfl, fun _ => rfl⟩

theorem namedLoop_spec (ns : List String) (s : Matches) (acc : List Match) :
    Sim s (namedLoop ns s acc).1 ∧ (namedLoop ns s acc).2 = acc ++ ns.flatMap (fun n => s.nameDict.getList n) := by
  induction ns generalizing s acc with
  | nil => exact ⟨Sim.refl s, by simp [namedLoop]⟩
  | cons n ns ih =>
    simp only [namedLoop]
    have h := ih (s.lookName n).1 (acc ++ s.nameDict.getList n)
    refine ⟨(lookName_sim s n).trans h.1, ?_⟩
    have h2 := h.2
    simp only [lookName] at h2 ⊢
    rw [h2, List.flatMap_cons, List.append_assoc]
    congr 2
    congr 1; funext x
    exact (lookName_sim s n).name x

theorem named_spec (s : Matches) (ns : List String) :
    Sim s (s.named ns).1 ∧ (s.named ns).2 = (fromKeys ns).flatMap (fun n => s.nameDict.getList n) := by
  have := namedLoop_spec (fromKeys ns) s []
  simpa [named] using this

theorem previousLoop_sim (cs : List Int) (s : Matches) : Sim s (previousLoop cs s).1 := by
  induction cs generalizing s with
  | nil => exact Sim.refl s
  | cons c cs ih =>
    simp only [previousLoop]
    split
    · exact (lookEnd_sim s c).trans (ih _)
    · exact lookEnd_sim s c

theorem nextLoop_sim (cs : List Int) (s : Matches) : Sim s (nextLoop cs s).1 := by
  induction cs generalizing s with
  | nil => exact Sim.refl s
  | cons c cs ih =>
    simp only [nextLoop]
    split
    · exact (lookStart_sim s c).trans (ih _)
    · exact lookStart_sim s c

/-- The first non-empty list of a sequence of candidates. -/
def firstNonEmpty (f : Int → List Match) : List Int → List Match
  | [] => []
  | c :: cs => if (f c).isEmpty then firstNonEmpty f cs else f c

theorem firstNonEmpty_congr {f g : Int → List Match} (cs : List Int) (h : ∀ c, f c = g c) :
    firstNonEmpty f cs = firstNonEmpty g cs := by
  have : f = g := funext h
  rw [this]

theorem previousLoop_eq (cs : List Int) (s : Matches) :
    (previousLoop cs s).2 = firstNonEmpty (fun c => s.endDict.getList c) cs := by
  induction cs generalizing s with
  | nil => rfl
  | cons c cs ih =>
    have hv : (s.lookEnd c).2 = s.endDict.getList c := rfl
    simp only [previousLoop, firstNonEmpty, hv]
    by_cases h : (s.endDict.getList c).isEmpty
    · rw [if_pos h, if_pos h, ih]; exact firstNonEmpty_congr cs (lookEnd_sim s c).stop
    · rw [if_neg h, if_neg h]

theorem nextLoop_eq (cs : List Int) (s : Matches) :
    (nextLoop cs s).2 = firstNonEmpty (fun c => s.startDict.getList c) cs := by
  induction cs generalizing s with
  | nil => rfl
  | cons c cs ih =>
    have hv : (s.lookStart c).2 = s.startDict.getList c := rfl
    simp only [nextLoop, firstNonEmpty, hv]
    by_cases h : (s.startDict.getList c).isEmpty
    · rw [if_pos h, if_pos h, ih]; exact firstNonEmpty_congr cs (lookStart_sim s c).start
    · rw [if_neg h, if_neg h]

theorem conflictLoop_spec (is : List Int) (s : Matches) (acc : List Match) :
    Sim s (conflictLoop is s acc).1 ∧
      (conflictLoop is s acc).2 = addMissing acc (is.flatMap (fun i => s.indexDict.getList i)) := by
  induction is generalizing s acc with
  | nil => exact ⟨Sim.refl s, rfl⟩
  | cons i is ih =>
    simp only [conflictLoop]
    have h := ih (s.lookIndex i).1 (addMissing acc (s.indexDict.getList i))
    refine ⟨(lookIndex_sim s i).trans h.1, ?_⟩
    have h2 := h.2
    simp only [lookIndex] at h2 ⊢
    rw [h2]
    have : (fun j => (s.lookIndex i).1.indexDict.getList j) = fun j => s.indexDict.getList j :=
      funext (lookIndex_sim s i).index
    simp only [lookIndex] at this
    rw [this, List.flatMap_cons]
    simp [addMissing, List.foldl_append]

theorem conflicting_sim (s : Matches) (m : Match) : Sim s (s.conflicting m).1 := by
  have h := (conflictLoop_spec (pyRange m.start m.stop) s []).1
  unfold conflicting
  cases hc : conflictLoop (pyRange m.start m.stop) s [] with
  | mk s' ret =>
    rw [hc] at h
    simp only
    cases removeFirst (fun x => x.eqv m) ret <;> exact h

theorem atSpan_sim (s : Matches) (a b : Int) : Sim s (s.atSpan a b).1 := by
  simp only [atSpan]
  exact (lookIndex_sim s a).trans (lookIndex_sim _ _)

theorem atSpan_eq (s : Matches) (a b : Int) :
    (s.atSpan a b).2 = addMissing (s.indexDict.getList a) (s.indexDict.getList (b - 1)) := by
  simp only [atSpan]
  have := (lookIndex_sim s a).index (b - 1)
  simp only [lookIndex] at this ⊢
  rw [this]

theorem chainLoop_sim (seps : Str) (pred : Match → Bool) (is : List Int) (s : Matches) (acc : List Match) :
    Sim s (chainLoop seps pred is s acc).1 := by
  induction is generalizing s acc with
  | nil => exact Sim.refl s
  | cons i is ih =>
    simp only [chainLoop]
    split
    · split
      · exact lookIndex_sim s i
      · exact lookIndex_sim s i
      · exact (lookIndex_sim s i).trans (ih _ _)
    · exact (lookIndex_sim s i).trans (ih _ _)

theorem holeScan_sim (ignore : Match → Bool) (is : List Int) (s : Matches) : Sim s (holeScan ignore is s).1 := by
  induction is generalizing s with
  | nil => exact Sim.refl s
  | cons i is ih =>
    simp only [holeScan]
    split
    · exact lookStart_sim s i
    · exact (lookStart_sim s i).trans (ih _)

theorem holesLoop_sim (start : Int) (seps : Option Str) (ignore : Match → Bool) (rs : List Int) (s : Matches) (h : HoleSt) :
    Sim s (holesLoop start seps ignore rs s h).1 := by
  induction rs generalizing s h with
  | nil => exact Sim.refl s
  | cons r rs ih =>
    simp only [holesLoop]
    split
    · split
      · exact (lookIndex_sim s r).trans (ih _ _)
      · split
        · exact lookIndex_sim s r
        · exact (lookIndex_sim s r).trans (ih _ _)
    · exact (lookIndex_sim s r).trans (ih _ _)

theorem holes_sim (s : Matches) (a : Int) (b : Option Int) (ig : Match → Bool) (sp : Option Str) :
    Sim s (s.holes a b ig sp).1 := by
  unfold holes
  simp only
  split
  · exact Sim.refl s
  · have h1 : Sim s (s.holeStart a ig).1 := holeScan_sim ig (pyRange 0 a).reverse s
    cases hs : s.holeStart a ig with
    | mk s1 ls =>
      rw [hs] at h1
      simp only
      have h2 := holesLoop_sim a sp ig (pyRange ls (s.clampEnd b)) s1 { rindex := a }
      cases hl : holesLoop a sp ig (pyRange ls (s.clampEnd b)) s1 { rindex := a } with
      | mk s2 r =>
        rw [hl] at h2
        cases r with
        | error e => exact h1.trans h2
        | ok h =>
          simp only
          split
          · exact h1.trans h2
          · exact h1.trans (h2.trans (holeScan_sim ig _ s2))

/-! ## Mutations -/

theorem inv_add {s : Matches} {l : List Match} (m : Match) (hi : Inv { s with delegate := l })
    (hp : s.delegate.Perm (m :: l)) : Inv (s.addMatchBase m) := by
  refine ⟨?_, ?_, ?_, ?_, ?_, ?_, ?_⟩
  · exact CohO_perm hp.symm (CohO_add m hi.name)
  · exact CohO_perm hp.symm (CohO_add m hi.tag)
  · exact CohO_perm hp.symm (CohO_add m hi.start)
  · exact CohO_perm hp.symm (CohO_add m hi.stop)
  · exact CohO_perm hp.symm (CohO_add m hi.index)
  · intro x hx
    simp only [addMatchBase] at hx ⊢
    rcases List.mem_cons.1 (hp.subset hx) with rfl | h
    · omega
    · have := hi.bound x h; simp only at this; omega
  · have := hi.nonneg; simp only [addMatchBase] at this ⊢; omega

theorem foldl_max_ge (ks : List Int) (a : Int) : a ≤ ks.foldl max a ∧ ∀ k ∈ ks, k ≤ ks.foldl max a := by
  induction ks generalizing a with
  | nil => simp
  | cons k ks ih =>
    have := ih (max a k)
    simp only [List.foldl_cons, List.mem_cons]
    refine ⟨by omega, ?_⟩
    rintro x (rfl | hx)
    · omega
    · exact this.2 x hx

theorem le_maxKey {ks : List Int} {k : Int} (h : k ∈ ks) : k ≤ maxKey ks := by
  cases ks with
  | nil => cases h
  | cons a ks =>
    have := foldl_max_ge ks a
    simp only [maxKey]
    rcases List.mem_cons.1 h with rfl | h
    · exact this.1
    · exact this.2 k h

theorem inv_shrink {s : Matches} (m : Match) (hi : Inv s) : Inv (s.shrinkMaxEnd m) := by
  unfold shrinkMaxEnd
  simp only
  have hc : CohO endKeys (some (s.endDict.touch m.stop)) s.delegate := by
    intro d' hd; cases hd; exact Coh_touch _ hi.viewEnd
  split
  · next h1 =>
    split
    · have hm : m.stop ≤ maxKey (s.endDict.touch m.stop).keys := le_maxKey (Dict.mem_keys_touch _ _)
      refine ⟨hi.name, hi.tag, hi.start, hc, hi.index, ?_, ?_⟩
      · intro x hx; have := hi.bound x hx; simp only at hx ⊢; omega
      · have := hi.nonneg; simp only; omega
    · exact ⟨hi.name, hi.tag, hi.start, hc, hi.index, hi.bound, hi.nonneg⟩
  · exact hi

/-- Removing from the indexes a match already taken out of the sequence succeeds and restores the invariant. -/
theorem inv_remove {s : Matches} {l : List Match} (m : Match) (hi : Inv { s with delegate := l })
    (hp : l.Perm (m :: s.delegate)) :
    (s.removeMatch m).2 = none ∧ Inv (s.removeMatch m).1 ∧ (s.removeMatch m).1.delegate = s.delegate := by
  have hn := CohO_remove m (CohO_perm hp hi.name)
  have ht := CohO_remove m (CohO_perm hp hi.tag)
  have hs := CohO_remove m (CohO_perm hp hi.start)
  have he := CohO_remove m (CohO_perm hp hi.stop)
  have hx := CohO_remove m (CohO_perm hp hi.index)
  unfold removeMatch
  simp only [hn.1, ht.1, hs.1, he.1, hx.1, Bool.not_true]
  refine ⟨rfl, ?_, ?_⟩
  · apply inv_shrink
    exact ⟨hn.2, ht.2, hs.2, he.2, hx.2, fun x h => hi.bound x (hp.symm.subset (List.mem_cons_of_mem _ h)), hi.nonneg⟩
  · simp only [Bool.false_eq_true, if_false, shrinkMaxEnd]
    split
    · split <;> rfl
    · rfl

theorem removeMatch_input (s : Matches) (m : Match) :
    (s.removeMatch m).1.inputString = s.inputString ∧ (s.removeMatch m).1.isMarkers = s.isMarkers := by
  unfold removeMatch shrinkMaxEnd
  constructor <;> (simp only; repeat' split) <;> rfl

end Matches
end Rebulk
