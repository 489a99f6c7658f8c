import Verif.Lemmas.History
/-!
# Lookups after item assignments
-/
namespace Rebulk
open Spec Matches

section
variable {κ : Type} [DecidableEq κ] {keysOf : Match → List κ} {build : List Match → Index κ}

/-- An index that is not built and shows `l ++ g`: nothing of `g` has a key. -/
theorem unbuilt_filed (hb : ∀ l k, (build l).getList k = filed keysOf l k) {l g : List Match} (h : Coh keysOf (build l) (l ++ g)) (k : κ) :
    filed keysOf g k = [] := by
  have h1 := (h k).length_eq
  rw [List.length_map, List.length_map, hb, filed_append, List.length_append] at h1
  exact List.eq_nil_of_length_eq_zero (by omega)

theorem unbuilt_coh (hb : ∀ l k, (build l).getList k = filed keysOf l k) {l g : List Match} (h : ∀ k, filed keysOf g k = []) :
    Coh keysOf (build l) (l ++ g) := by
  intro k
  rw [hb, filed_append, h k, List.append_nil]

theorem view_add (hb : ∀ l k, (build l).getList k = filed keysOf l k) {d : Option (Index κ)} {l l' g : List Match} {m : Match}
    (hp : l'.Perm (m :: l)) (h : Coh keysOf (d.getD (build l)) (l ++ g)) :
    Coh keysOf ((addTo d (keysOf m) m).getD (build l')) (l' ++ g) := by
  cases d with
  | none => exact unbuilt_coh hb (unbuilt_filed hb h)
  | some d => exact Coh_perm (hp.symm.append_right g) (Coh_add m h)

theorem view_remove (hb : ∀ l k, (build l).getList k = filed keysOf l k) {d : Option (Index κ)} {l l' g : List Match} {m : Match}
    (hp : l.Perm (m :: l')) (h : Coh keysOf (d.getD (build l)) (l ++ g)) :
    (removeFrom d (keysOf m) m).2 = true ∧ Coh keysOf ((removeFrom d (keysOf m) m).1.getD (build l')) (l' ++ g) := by
  cases d with
  | none => exact ⟨rfl, unbuilt_coh hb (unbuilt_filed hb h)⟩
  | some d =>
    have h' : CohO keysOf (some d) (m :: (l' ++ g)) := by
      intro d' hd; cases hd; exact Coh_perm (hp.append_right g) h
    have := CohO_remove m h'
    exact ⟨this.1, this.2 _ rfl⟩

end

namespace Matches

/-- Matches no longer in the sequence that the five lookups still show. -/
structure Ghosts where
  name : List Match
  tag : List Match
  start : List Match
  stop : List Match
  index : List Match

/-- Each of the five lookups shows the sequence and its ghosts. -/
structure Shows (s : Matches) (g : Ghosts) : Prop where
  name : Coh nameKeys s.nameDict (s.delegate ++ g.name)
  tag : Coh tagKeys s.tagDict (s.delegate ++ g.tag)
  start : Coh startKeys s.startDict (s.delegate ++ g.start)
  stop : Coh endKeys s.endDict (s.delegate ++ g.stop)
  index : Coh indexKeys s.indexDict (s.delegate ++ g.index)

theorem coh_congr {κ : Type} [DecidableEq κ] {keysOf : Match → List κ} {d d' : Index κ} {l : List Match} (h : Coh keysOf d l)
    (he : ∀ k, d'.getList k = d.getList k) : Coh keysOf d' l := fun k => by rw [he]; exact h k

theorem Shows.sim {s s' : Matches} {g : Ghosts} (h : Shows s g) (hs : Sim s s') : Shows s' g := by
  have hd := hs.delegate
  refine ⟨?_, ?_, ?_, ?_, ?_⟩ <;> rw [hd]
  · exact coh_congr h.name hs.name
  · exact coh_congr h.tag hs.tag
  · exact coh_congr h.start hs.start
  · exact coh_congr h.stop hs.stop
  · exact coh_congr h.index hs.index

theorem shows_add {s : Matches} {g : Ghosts} {l : List Match} (m : Match) (h : Shows { s with delegate := l } g) (hp : s.delegate.Perm (m :: l)) :
    Shows (s.addMatchBase m) g :=
  ⟨view_add buildName_getList hp h.name, view_add buildTag_getList hp h.tag, view_add buildStart_getList hp h.start,
    view_add buildEnd_getList hp h.stop, view_add buildIndex_getList hp h.index⟩

theorem shows_shrink {s : Matches} {g : Ghosts} (m : Match) (h : Shows s g) : Shows (s.shrinkMaxEnd m) g := by
  have hc : Coh endKeys (s.endDict.touch m.stop) (s.delegate ++ g.stop) := Coh_touch _ h.stop
  unfold shrinkMaxEnd
  simp only
  split
  · split
    · exact ⟨h.name, h.tag, h.start, hc, h.index⟩
    · exact ⟨h.name, h.tag, h.start, hc, h.index⟩
  · exact h

theorem shrink_delegate (s : Matches) (m : Match) : (s.shrinkMaxEnd m).delegate = s.delegate := by
  simp only [shrinkMaxEnd]
  split
  · split <;> rfl
  · rfl

theorem shows_remove {s : Matches} {g : Ghosts} {l : List Match} (m : Match) (h : Shows { s with delegate := l } g) (hp : l.Perm (m :: s.delegate)) :
    (s.removeMatch m).2 = none ∧ Shows (s.removeMatch m).1 g ∧ (s.removeMatch m).1.delegate = s.delegate := by
  have hn := view_remove buildName_getList hp h.name
  have ht := view_remove buildTag_getList hp h.tag
  have hs := view_remove buildStart_getList hp h.start
  have he := view_remove buildEnd_getList hp h.stop
  have hx := view_remove buildIndex_getList hp h.index
  unfold removeMatch
  simp only [hn.1, ht.1, hs.1, he.1, hx.1, Bool.not_true]
  refine ⟨rfl, ?_, ?_⟩
  · simp only [Bool.false_eq_true, if_false]
    exact shows_shrink m ⟨hn.2, ht.2, hs.2, he.2, hx.2⟩
  · simp only [Bool.false_eq_true, if_false]
    exact shrink_delegate _ _

theorem shows_insert {s : Matches} {g : Ghosts} (h : Shows s g) (i : Int) (m : Match) (hm : m.marker = s.isMarkers) :
    (s.insert i m).2 = none ∧ Shows (s.insert i m).1 g := by
  unfold insert addMatch
  simp only [hm, beq_self_eq_true, if_true]
  exact ⟨trivial, shows_add (l := s.delegate) m ⟨h.name, h.tag, h.start, h.stop, h.index⟩ (List.perm_insertIdx m s.delegate (clampIdx_le _ _))⟩

theorem shows_extend {g : Ghosts} : ∀ (ms : List Match) {s : Matches}, Shows s g → (∀ m ∈ ms, m.marker = s.isMarkers) → Shows (s.extend ms).1 g := by
  intro ms
  induction ms with
  | nil => intro s h _; exact h
  | cons m ms ih =>
    intro s h hm
    have h1 := shows_insert h s.length m (hm m List.mem_cons_self)
    have hst := append_static s m
    unfold append at hst
    rw [extend, append]
    cases hr : s.insert s.length m with
    | mk t o =>
      rw [hr] at h1 hst
      obtain rfl : o = none := h1.1
      exact ih h1.2 (fun x hx => by rw [hst.1]; exact hm x (List.mem_cons_of_mem _ hx))

theorem shows_delItem {s : Matches} {g : Ghosts} (h : Shows s g) (i : Int) : Shows (s.delItem i).1 g := by
  unfold delItem
  cases hk : normIdx s.delegate.length i with
  | none => exact h
  | some k =>
    simp only
    cases hm : s.delegate[k]? with
    | none => exact h
    | some m =>
      exact (shows_remove (s := { s with delegate := s.delegate.eraseIdx k }) (l := s.delegate) m h (getElem?_eraseIdx_perm hm)).2.1

theorem shows_pop {s : Matches} {g : Ghosts} (h : Shows s g) (i : Int) : Shows (s.pop i).1 g := by
  have h1 := shows_delItem h i
  unfold pop
  cases s.getItem i with
  | error e => exact h
  | ok m =>
    simp only
    cases hr : s.delItem i with
    | mk t o =>
      rw [hr] at h1
      cases o <;> exact h1

theorem shows_clearLoop {g : Ghosts} : ∀ (n : Nat) {s : Matches}, Shows s g → Shows (clearLoop n s).1 g := by
  intro n
  induction n with
  | zero => intro s h; exact h
  | succ n ih =>
    intro s h
    have h1 := shows_pop h (-1)
    rw [clearLoop]
    cases hr : s.pop (-1) with
    | mk t o =>
      rw [hr] at h1
      cases o with
      | ok m => exact ih h1
      | error e => cases e <;> exact h1

theorem shows_step {s : Matches} {g : Ghosts} (h : Shows s g) (op : Op) (hop : (isAddRemove op || isLookup op) = true) (hf : Fits s.isMarkers op) :
    Shows (s.step op).1 g := by
  cases hl : isLookup op with
  | true => exact h.sim (step_lookup_sim s op hl)
  | false =>
    cases op with
    | append m => exact (shows_insert h _ m (hf m (by simp [added]))).2
    | insert i m => exact (shows_insert h i m (hf m (by simp [added]))).2
    | extend ms => exact shows_extend ms h hf
    | remove m =>
      simp only [step, remove]
      cases s.delegate.findIdx? (fun x => x.eqv m) with
      | none => exact h
      | some k => exact shows_delItem h k
    | pop i => exact shows_pop h i
    | delItem i => exact shows_delItem h i
    | clear => exact shows_clearLoop _ h
    | delSlice | setItem | reverse => cases hop
    | _ => cases hl

/-! ## Overwriting -/

section
variable {κ : Type} [DecidableEq κ] {keysOf : Match → List κ} {build : List Match → Index κ} {proj : Matches → Option (Index κ)}

/-- One of the five indexes: how it is built and what adding a match does to it. -/
structure IsIndex (keysOf : Match → List κ) (build : List Match → Index κ) (proj : Matches → Option (Index κ)) : Prop where
  built : ∀ l k, (build l).getList k = filed keysOf l k
  add : ∀ (s : Matches) (l : List Match) (m : Match), m.marker = s.isMarkers →
    proj (addMatch { s with delegate := l } m).1 = addTo (proj s) (keysOf m) m

/-- After an overwriting call: a built index also shows what was overwritten, an index not built stays so. -/
def Overwrites (keysOf : Match → List κ) (build : List Match → Index κ) (proj : Matches → Option (Index κ)) (s s' : Matches) (o : List Match) : Prop :=
  (proj s = none → proj s' = none) ∧
  ((proj s).isSome = true → (proj s').isSome = true ∧ ∀ g, Coh keysOf ((proj s).getD (build s.delegate)) (s.delegate ++ g) →
    Coh keysOf ((proj s').getD (build s'.delegate)) (s'.delegate ++ (g ++ o)))

theorem Overwrites.refl (s : Matches) : Overwrites keysOf build proj s s [] :=
  ⟨id, fun h => ⟨h, fun g hg => by rw [List.append_nil]; exact hg⟩⟩

theorem Overwrites.trans {a b c : Matches} {o o' : List Match} (h : Overwrites keysOf build proj a b o) (h' : Overwrites keysOf build proj b c o') :
    Overwrites keysOf build proj a c (o ++ o') :=
  ⟨fun e => h'.1 (h.1 e), fun e => ⟨(h'.2 (h.2 e).1).1, fun g hg => by
    have := (h'.2 (h.2 e).1).2 _ ((h.2 e).2 g hg)
    rw [List.append_assoc] at this
    exact this⟩⟩

theorem set_perm {l : List Match} {k : Nat} {x m : Match} (h : l[k]? = some x) : (x :: l.set k m).Perm (m :: l) := by
  obtain ⟨hk, hx⟩ := List.getElem?_eq_some_iff.1 h
  have h1 : l = l.take k ++ x :: l.drop (k + 1) := by rw [← hx, ← List.drop_eq_getElem_cons hk, List.take_append_drop]
  have h2 : l.set k m = l.take k ++ m :: l.drop (k + 1) := List.set_eq_take_append_cons_drop.trans (if_pos hk)
  rw [h2]
  conv => rhs; rw [h1]
  refine (List.Perm.cons x List.perm_middle).trans (List.Perm.trans (List.Perm.swap _ _ _) (List.Perm.cons m List.perm_middle.symm))

theorem overwrites_setItem (hI : IsIndex keysOf build proj) {s : Matches} (i : Int) {m : Match} (hm : m.marker = s.isMarkers) :
    Overwrites keysOf build proj s (s.setItem i m).1 (pyGet s.delegate i).toList := by
  unfold setItem pyGet
  cases hk : normIdx s.delegate.length i with
  | none => exact .refl s
  | some k =>
    have hlt := normIdx_lt hk
    have hx : s.delegate[k]? = some s.delegate[k] := List.getElem?_eq_getElem hlt
    simp only [hx, Option.toList_some]
    have hp := hI.add s (s.delegate.set k m) m hm
    have hd : (addMatch { s with delegate := s.delegate.set k m } m).1.delegate = s.delegate.set k m := by
      unfold addMatch; split <;> rfl
    unfold Overwrites
    rw [hp, hd]
    cases hs : proj s with
    | none => exact ⟨fun _ => rfl, (fun h => by cases h)⟩
    | some d =>
      refine ⟨(fun h => by cases h), fun _ => ⟨rfl, fun g hg => ?_⟩⟩
      refine Coh_perm ?_ (Coh_add m hg)
      refine (List.Perm.append_right g (set_perm (m := m) hx).symm).trans ?_
      rw [← List.append_assoc]
      exact (List.perm_append_singleton _ _).symm

theorem setItem_ok {s : Matches} {i : Int} {m : Match} (hm : m.marker = s.isMarkers) {k : Nat} (hk : normIdx s.delegate.length i = some k) :
    s.setItem i m = (addMatchBase { s with delegate := s.delegate.set k m } m, none) := by
  unfold setItem
  rw [hk]
  simp only [addMatch, hm, beq_self_eq_true, if_true]

theorem overwrites_swap (hI : IsIndex keysOf build proj) {s : Matches} (h : ∀ x ∈ s.delegate, x.marker = s.isMarkers) {i j : Nat} (hij : i < j)
    (hj : j < s.delegate.length) :
    Overwrites keysOf build proj s (s.swapItems i j).1 (s.delegate[i]?.toList ++ s.delegate[j]?.toList) ∧
      (s.swapItems i j).2 = none ∧ (s.swapItems i j).1.isMarkers = s.isMarkers ∧
      (s.swapItems i j).1.delegate = (s.delegate.set i s.delegate[j]).set j s.delegate[i] := by
  have hi : i < s.delegate.length := by omega
  have hgi : pyGet s.delegate (i : Int) = some s.delegate[i] := by
    unfold pyGet; rw [normIdx_nat hi]; exact List.getElem?_eq_getElem hi
  have hgj : pyGet s.delegate (j : Int) = some s.delegate[j] := by
    unfold pyGet; rw [normIdx_nat hj]; exact List.getElem?_eq_getElem hj
  have hmi := h _ (List.getElem_mem hi)
  have hmj := h _ (List.getElem_mem hj)
  have o1 := overwrites_setItem hI (s := s) (i : Int) hmj
  have e1 := setItem_ok (s := s) (i := (i : Int)) hmj (normIdx_nat hi)
  unfold swapItems getItem
  rw [hgi, hgj]
  simp only
  rw [e1] at o1 ⊢
  simp only
  generalize ht : addMatchBase { s with delegate := s.delegate.set i s.delegate[j] } s.delegate[j] = t at o1
  have td : t.delegate = s.delegate.set i s.delegate[j] := by rw [← ht]; rfl
  have tm : t.isMarkers = s.isMarkers := by rw [← ht]; rfl
  have hjt : j < t.delegate.length := by rw [td, List.length_set]; exact hj
  have o2 := overwrites_setItem hI (s := t) (j : Int) (m := s.delegate[i]) (hmi.trans tm.symm)
  have e2 := setItem_ok (s := t) (i := (j : Int)) (m := s.delegate[i]) (hmi.trans tm.symm) (normIdx_nat hjt)
  have hgt : pyGet t.delegate (j : Int) = some s.delegate[j] := by
    unfold pyGet
    rw [normIdx_nat hjt]
    simp only [td]
    rw [List.getElem?_set_ne (by omega)]
    exact List.getElem?_eq_getElem hj
  rw [e2] at o2 ⊢
  rw [hgt] at o2
  rw [hgi] at o1
  refine ⟨?_, rfl, tm, ?_⟩
  · rw [List.getElem?_eq_getElem hi, List.getElem?_eq_getElem hj]
    exact o1.trans o2
  · show t.delegate.set j s.delegate[i] = _
    rw [td]

theorem overwrites_reverseLoop (hI : IsIndex keysOf build proj) (l : List Match) (b : Bool) : ∀ (r i : Nat) {s : Matches},
    i + r = l.length / 2 → s.isMarkers = b → (∀ x ∈ s.delegate, x.marker = b) → s.delegate.length = l.length →
    (∀ p, i ≤ p → p < l.length - i → s.delegate[p]? = l[p]?) →
    Overwrites keysOf build proj s (reverseLoop l.length (List.range' i r) s).1
      ((List.range' i r).flatMap (fun i => l[i]?.toList ++ l[l.length - 1 - i]?.toList)) := by
  intro r
  induction r with
  | zero => intro i s _ _ _ _ _; exact .refl s
  | succ r ih =>
    intro i s hr hb hm hlen hsame
    have hij : i < l.length - 1 - i := by omega
    have hjl : l.length - 1 - i < s.delegate.length := by omega
    obtain ⟨h1, h2, h3, h4⟩ := overwrites_swap hI (s := s) (by rw [hb]; exact hm) hij hjl
    have hcast : ((l.length : Int) - (i : Int) - 1) = ((l.length - 1 - i : Nat) : Int) := by omega
    rw [List.range'_succ, reverseLoop, hcast, List.flatMap_cons]
    rw [hsame i (Nat.le_refl _) (by omega), hsame (l.length - 1 - i) (by omega) (by omega)] at h1
    cases hs : s.swapItems (i : Int) ((l.length - 1 - i : Nat) : Int) with
    | mk t o =>
      rw [hs] at h1 h2 h3 h4
      simp only at h2 h3 h4
      subst h2
      refine h1.trans (ih (i + 1) (by omega) (h3.trans hb) ?_ ?_ ?_)
      · intro x hx
        rw [h4] at hx
        rcases List.mem_or_eq_of_mem_set hx with hx | hx
        · rcases List.mem_or_eq_of_mem_set hx with hx | hx
          · exact hm x hx
          · rw [hx]; exact hm _ (List.getElem_mem _)
        · rw [hx]; exact hm _ (List.getElem_mem _)
      · rw [h4, List.length_set, List.length_set]; exact hlen
      · intro p hp1 hp2
        rw [h4, List.getElem?_set_ne (by omega), List.getElem?_set_ne (by omega)]
        exact hsame p (by omega) (by omega)

/-- A call that assigns. -/
theorem overwrites_step (hI : IsIndex keysOf build proj) {s : Matches} (hs : ∀ x ∈ s.delegate, x.marker = s.isMarkers) (op : Op)
    (hop : op = .reverse ∨ ∃ i m, op = .setItem i m) (hf : Fits s.isMarkers op) :
    Overwrites keysOf build proj s (s.step op).1 (overwritten s.delegate op) := by
  rcases hop with rfl | ⟨i, m, rfl⟩
  · have := overwrites_reverseLoop hI s.delegate s.isMarkers (s.delegate.length / 2) 0 (s := s) (by omega) rfl hs rfl (fun _ _ _ => rfl)
    rw [← List.range_eq_range'] at this
    exact this
  · exact overwrites_setItem hI i (hf m (by simp [added]))

end

theorem isIndex_name : IsIndex nameKeys buildName Matches.nameD :=
  ⟨buildName_getList, fun s l m h => by simp only [addMatch, h, beq_self_eq_true, if_true]; rfl⟩
theorem isIndex_tag : IsIndex tagKeys buildTag Matches.tagD :=
  ⟨buildTag_getList, fun s l m h => by simp only [addMatch, h, beq_self_eq_true, if_true]; rfl⟩
theorem isIndex_start : IsIndex startKeys buildStart Matches.startD :=
  ⟨buildStart_getList, fun s l m h => by simp only [addMatch, h, beq_self_eq_true, if_true]; rfl⟩
theorem isIndex_end : IsIndex endKeys buildEnd Matches.endD :=
  ⟨buildEnd_getList, fun s l m h => by simp only [addMatch, h, beq_self_eq_true, if_true]; rfl⟩
theorem isIndex_index : IsIndex indexKeys buildIndex Matches.indexD :=
  ⟨buildIndex_getList, fun s l m h => by simp only [addMatch, h, beq_self_eq_true, if_true]; rfl⟩

/-! ## Over a history -/

theorem overwrittenSince_snoc (s : Matches) (ops : List Op) (op : Op) {j : Nat} (h : j ≤ ops.length) :
    overwrittenSince s (ops ++ [op]) j = overwrittenSince s ops j ++ overwritten (s.runOps ops).delegate op := by
  unfold overwrittenSince
  rw [List.length_append, List.length_singleton, List.range_succ, List.drop_append_of_le_length (by rw [List.length_range]; exact h),
    List.flatMap_append]
  congr 1
  · rw [List.flatMap_def, List.flatMap_def]
    refine congrArg List.flatten (List.map_congr_left ?_)
    intro k hk
    have hk' : k < ops.length := List.mem_range.1 (List.mem_of_mem_drop hk)
    rw [List.getElem?_append_left hk', after_snoc s ops op (Nat.le_of_lt hk')]
  · rw [List.flatMap_singleton, List.getElem?_concat_length, Option.toList_some, List.flatMap_singleton, after_snoc s ops op (Nat.le_refl _),
      after_length]

theorem overwrittenSince_end (s : Matches) (ops : List Op) : overwrittenSince s ops ops.length = [] := by
  unfold overwrittenSince
  rw [List.drop_of_length_le (by rw [List.length_range]; exact Nat.le_refl _)]
  rfl

/-- What an index shows: the sequence and everything overwritten since some call. -/
def ShowsSince {κ : Type} [DecidableEq κ] (keysOf : Match → List κ) (view : Index κ) (s : Matches) (ops : List Op) (j : Nat) : Prop :=
  j ≤ ops.length ∧ Coh keysOf view ((s.runOps ops).delegate ++ overwrittenSince s ops j)

section
variable {κ : Type} [DecidableEq κ] {keysOf : Match → List κ} {build : List Match → Index κ} {proj : Matches → Option (Index κ)}

/-- An overwriting call at the end of a history. -/
theorem showsSince_over {s : Matches} {ops : List Op} {op : Op} {j : Nat} (hI : IsIndex keysOf build proj)
    (ho : Overwrites keysOf build proj (s.runOps ops) ((s.runOps ops).step op).1 (overwritten (s.runOps ops).delegate op))
    (h : ShowsSince keysOf ((proj (s.runOps ops)).getD (build (s.runOps ops).delegate)) s ops j) :
    (proj (s.runOps ops) = none → ShowsSince keysOf ((proj (s.runOps (ops ++ [op]))).getD (build (s.runOps (ops ++ [op])).delegate)) s (ops ++ [op])
      (ops.length + 1)) ∧
    (proj (s.runOps ops) ≠ none → ShowsSince keysOf ((proj (s.runOps (ops ++ [op]))).getD (build (s.runOps (ops ++ [op])).delegate)) s (ops ++ [op]) j) := by
  have hlen : (ops ++ [op]).length = ops.length + 1 := by rw [List.length_append, List.length_singleton]
  constructor
  · intro hn
    refine ⟨by omega, ?_⟩
    rw [runOps_snoc, ho.1 hn, ← hlen, overwrittenSince_end, List.append_nil]
    intro k
    rw [Option.getD_none, hI.built]
  · intro hn
    refine ⟨by have := h.1; omega, ?_⟩
    rw [overwrittenSince_snoc s ops op h.1, runOps_snoc]
    exact (ho.2 (Option.isSome_iff_ne_none.2 hn)).2 _ h.2

theorem showsSince_over_exists {s : Matches} {ops : List Op} {op : Op} (hI : IsIndex keysOf build proj)
    (ho : Overwrites keysOf build proj (s.runOps ops) ((s.runOps ops).step op).1 (overwritten (s.runOps ops).delegate op))
    (h : ∃ j, ShowsSince keysOf ((proj (s.runOps ops)).getD (build (s.runOps ops).delegate)) s ops j) :
    ∃ j, ShowsSince keysOf ((proj (s.runOps (ops ++ [op]))).getD (build (s.runOps (ops ++ [op])).delegate)) s (ops ++ [op]) j := by
  obtain ⟨j, h⟩ := h
  have := showsSince_over hI ho h
  by_cases hn : proj (s.runOps ops) = none
  · exact ⟨_, this.1 hn⟩
  · exact ⟨_, this.2 hn⟩

end

/-- The five lookups after a history without slice deletion. -/
structure ShowsAll (s : Matches) (ops : List Op) : Prop where
  name : ∀ j, FirstCall ops LooksAtNames j → ShowsSince nameKeys (s.runOps ops).nameDict s ops j
  tag : ∀ j, FirstCall ops LooksAtTags j → ShowsSince tagKeys (s.runOps ops).tagDict s ops j
  start : ∃ j, ShowsSince startKeys (s.runOps ops).startDict s ops j
  stop : ∃ j, ShowsSince endKeys (s.runOps ops).endDict s ops j
  index : ∃ j, ShowsSince indexKeys (s.runOps ops).indexDict s ops j

theorem showsSince_kept {κ : Type} [DecidableEq κ] {keysOf : Match → List κ} {view : Index κ} {s : Matches} {ops : List Op} {op : Op} {j : Nat} (h : j ≤ ops.length)
    (hov : overwritten (s.runOps ops).delegate op = [])
    (hc : Coh keysOf view (((s.runOps ops).step op).1.delegate ++ overwrittenSince s ops j)) : ShowsSince keysOf view s (ops ++ [op]) j := by
  refine ⟨by rw [List.length_append]; omega, ?_⟩
  rw [overwrittenSince_snoc s ops op h, hov, List.append_nil, runOps_snoc]
  exact hc

theorem firstCall_of_snoc_step {looks : Op → Prop} {ops : List Op} {op : Op} {j : Nat} (hj : FirstCall (ops ++ [op]) looks j) :
    ∃ j', FirstCall ops looks j' ∧ ((j < ops.length ∧ j' = j) ∨ (j' = ops.length ∧ (j = ops.length ∧ looks op ∨ j = ops.length + 1 ∧ ¬ looks op))) := by
  rcases firstCall_snoc hj with ⟨h1, h2⟩ | ⟨h1, h2⟩
  · exact ⟨j, h2, Or.inl ⟨h1, rfl⟩⟩
  · exact ⟨ops.length, h1, Or.inr ⟨rfl, h2⟩⟩

theorem shows_history {s : Matches} (h0 : Fresh s) (hs : ∀ x ∈ s.delegate, x.marker = s.isMarkers) : ∀ (ops : List Op),
    (∀ op ∈ ops, (∀ a b, op ≠ .delSlice a b) ∧ Fits s.isMarkers op) → ShowsAll s ops := by
  have hnone : ∀ {looks : Op → Prop} {j : Nat}, FirstCall [] looks j → j = 0 := fun h => Nat.le_zero.1 h.1
  refine snoc_induction ?_ ?_
  · intro _
    have hn : s.nameD = none := h0.1
    have e : ∀ {κ : Type} [DecidableEq κ] {keysOf : Match → List κ} {build : List Match → Index κ} (d : Option (Index κ)),
        (∀ l k, (build l).getList k = filed keysOf l k) → d = none → ShowsSince keysOf (d.getD (build s.delegate)) s [] 0 := by
      intro κ _ keysOf build d hb hd
      refine ⟨Nat.le_refl _, ?_⟩
      rw [hd]
      intro k
      rw [show overwrittenSince s [] 0 = [] from rfl, List.append_nil, Option.getD_none, hb]
      exact List.Perm.refl _
    obtain ⟨f1, f2, f3, f4, f5⟩ := h0
    exact ⟨fun j hj => hnone hj ▸ e _ buildName_getList f1, fun j hj => hnone hj ▸ e _ buildTag_getList f2, ⟨0, e _ buildStart_getList f3⟩,
      ⟨0, e _ buildEnd_getList f4⟩, ⟨0, e _ buildIndex_getList f5⟩⟩
  · intro ops op ih hf
    have hfo := fun o ho => hf o (List.mem_append_left _ ho)
    obtain ⟨hslice, hfit⟩ := hf op (List.mem_append_right _ (List.mem_singleton_self _))
    have IH := ih hfo
    have kn := keys_history (proj := Matches.nameD) (fun s op hf hs => (keyStep_names op hf hs).1)
      (fun s op (h : LooksAtNames op) => (by cases op with
        | named ns => exact (named_tagD (fromKeys ns) s []).2.1
        | names => rfl
        | _ => cases h)) h0.1 hs ops (fun o ho => (hfo o ho).2)
    have kt := keys_history (proj := Matches.tagD) (fun s op hf hs => keyStep_tags op hf hs)
      (fun s op (h : LooksAtTags op) => (by cases op with
        | tagged t => rfl
        | tags => rfl
        | _ => cases h)) h0.2.1 hs ops (fun o ho => (hfo o ho).2)
    have hmk := kn.2.1
    have hfit' : Fits (s.runOps ops).isMarkers op := by rw [hmk]; exact hfit
    have hso : ∀ x ∈ (s.runOps ops).delegate, x.marker = (s.runOps ops).isMarkers := by rw [hmk]; exact kn.1
    by_cases hop : op = .reverse ∨ ∃ i m, op = .setItem i m
    · have hl : ¬ LooksAtNames op ∧ ¬ LooksAtTags op := by
        rcases hop with rfl | ⟨i, m, rfl⟩ <;> exact ⟨id, id⟩
      refine ⟨fun j hj => ?_, fun j hj => ?_, ?_, ?_, ?_⟩
      · obtain ⟨j', hj', hjj⟩ := firstCall_of_snoc_step hj
        have := showsSince_over isIndex_name (overwrites_step isIndex_name hso op hop hfit') (IH.name j' hj')
        rcases hjj with ⟨hlt, rfl⟩ | ⟨rfl, ⟨_, h⟩ | ⟨rfl, _⟩⟩
        · exact this.2 (by obtain ⟨e, he, _⟩ := (kn.2.2 _ hj').2 hlt; rw [he]; exact fun h => by cases h)
        · exact absurd h hl.1
        · exact this.1 ((kn.2.2 _ hj').1 rfl)
      · obtain ⟨j', hj', hjj⟩ := firstCall_of_snoc_step hj
        have := showsSince_over isIndex_tag (overwrites_step isIndex_tag hso op hop hfit') (IH.tag j' hj')
        rcases hjj with ⟨hlt, rfl⟩ | ⟨rfl, ⟨_, h⟩ | ⟨rfl, _⟩⟩
        · exact this.2 (by obtain ⟨e, he, _⟩ := (kt.2.2 _ hj').2 hlt; rw [he]; exact fun h => by cases h)
        · exact absurd h hl.2
        · exact this.1 ((kt.2.2 _ hj').1 rfl)
      · exact showsSince_over_exists isIndex_start (overwrites_step isIndex_start hso op hop hfit') IH.start
      · exact showsSince_over_exists isIndex_end (overwrites_step isIndex_end hso op hop hfit') IH.stop
      · exact showsSince_over_exists isIndex_index (overwrites_step isIndex_index hso op hop hfit') IH.index
    · have hkind : (isAddRemove op || isLookup op) = true := by
        cases op with
        | delSlice a b => exact absurd rfl (hslice a b)
        | setItem i m => exact absurd (Or.inr ⟨i, m, rfl⟩) hop
        | reverse => exact absurd (Or.inl rfl) hop
        | _ => rfl
      have hov : overwritten (s.runOps ops).delegate op = [] := by
        cases op with
        | setItem i m => exact absurd (Or.inr ⟨i, m, rfl⟩) hop
        | reverse => exact absurd (Or.inl rfl) hop
        | _ => rfl
      obtain ⟨jn, hjn⟩ := firstCall_exists LooksAtNames ops
      obtain ⟨jt, hjt⟩ := firstCall_exists LooksAtTags ops
      obtain ⟨js, hs1⟩ := IH.start
      obtain ⟨je, hs2⟩ := IH.stop
      obtain ⟨ji, hs3⟩ := IH.index
      have all := fun (jn jt : Nat) (hjn : FirstCall ops LooksAtNames jn) (hjt : FirstCall ops LooksAtTags jt) =>
        shows_step (s := s.runOps ops) (g := ⟨overwrittenSince s ops jn, overwrittenSince s ops jt, overwrittenSince s ops js, overwrittenSince s ops je,
          overwrittenSince s ops ji⟩) ⟨(IH.name jn hjn).2, (IH.tag jt hjt).2, hs1.2, hs2.2, hs3.2⟩ op hkind hfit'
      have A := all jn jt hjn hjt
      refine ⟨fun j hj => ?_, fun j hj => ?_, ⟨js, ?_⟩, ⟨je, ?_⟩, ⟨ji, ?_⟩⟩
      · obtain ⟨j', hj', hjj⟩ := firstCall_of_snoc_step hj
        have hk := showsSince_kept (keysOf := nameKeys) (view := ((s.runOps ops).step op).1.nameDict) hj'.1 hov (all j' jt hj' hjt).name
        rw [runOps_snoc]
        rcases hjj with ⟨hlt, rfl⟩ | ⟨rfl, ⟨rfl, _⟩ | ⟨rfl, _⟩⟩
        · exact hk
        · exact hk
        · refine ⟨by rw [List.length_append]; exact Nat.le_refl _, ?_⟩
          have h2 := hk.2
          rw [overwrittenSince_snoc s ops op (Nat.le_refl _), hov, overwrittenSince_end] at h2
          rw [show ops.length + 1 = (ops ++ [op]).length by rw [List.length_append]; rfl, overwrittenSince_end]
          exact h2
      · obtain ⟨j', hj', hjj⟩ := firstCall_of_snoc_step hj
        have hk := showsSince_kept (keysOf := tagKeys) (view := ((s.runOps ops).step op).1.tagDict) hj'.1 hov (all jn j' hjn hj').tag
        rw [runOps_snoc]
        rcases hjj with ⟨hlt, rfl⟩ | ⟨rfl, ⟨rfl, _⟩ | ⟨rfl, _⟩⟩
        · exact hk
        · exact hk
        · refine ⟨by rw [List.length_append]; exact Nat.le_refl _, ?_⟩
          have h2 := hk.2
          rw [overwrittenSince_snoc s ops op (Nat.le_refl _), hov, overwrittenSince_end] at h2
          rw [show ops.length + 1 = (ops ++ [op]).length by rw [List.length_append]; rfl, overwrittenSince_end]
          exact h2
      · rw [runOps_snoc]; exact showsSince_kept hs1.1 hov A.start
      · rw [runOps_snoc]; exact showsSince_kept hs2.1 hov A.stop
      · rw [runOps_snoc]; exact showsSince_kept hs3.1 hov A.index

end Matches
end Rebulk
