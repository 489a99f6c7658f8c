import Verif.Lemmas.Over
import Verif.Props.Container
/-!
# The sequence interface: C99
-/
namespace Rebulk
open Spec Matches

/-- **C99 is false**: a generator assigned to a slice is in the sequence, but no lookup made before ever finds its matches, and removing one of them
raises `ValueError` (after removing it). -/
theorem C99_refuted :
    ∃ ops m, ((empty false none).runS ops).delegate.map Match.span = [(0, 3), (4, 6)] ∧
      (((empty false none).runS ops).sstep (.base (.starting 4))).2 = .base (.list []) ∧
      (((empty false none).runS ops).sstep (.base (.remove m))).2 = .base (.raised .valueError) ∧
      ∃ l, listCall ((empty false none).runS ops).delegate (.base (.remove m)) = (l, some .nothing) :=
  ⟨[.base (.append (mk 0 3)), .base (.starting 0), .setSlice (some 1) none none (.oneShot [mk 4 6])], mk 4 6, by decide, rfl, rfl, _, rfl⟩

theorem delSlice_eq_delStep (s : Matches) (a b : Option Int) : s.delSlice a b = s.delStep a b none := by
  unfold delSlice delStep
  rw [pySlice_eq, delSlice_list]

theorem delStep_spec (s : Matches) (a b k : Option Int) :
    s.delStep a b k = if k.getD 1 = 0 then (s, some .valueError)
      else removeAll { s with delegate := withoutSlice s.delegate a b (k.getD 1) } (elementsAt s.delegate (positions s.delegate.length a b (k.getD 1))) := by
  unfold delStep
  rw [listGetSlice_eq, listDelSlice_eq]
  by_cases h : k.getD 1 = 0
  · simp only [if_pos h]
  · simp only [if_neg h]

theorem delStep_acts (s : Matches) (a b k : Option Int) (h : ¬ SRaised (.base (.ofErr (s.delStep a b k).2))) :
    (s.delStep a b k).1.delegate = (delAnswer s.delegate a b k).1 ∧
    answerOf (.base (.ofErr (s.delStep a b k).2)) = some (delAnswer s.delegate a b k).2 := by
  rw [delStep_spec] at h ⊢
  unfold delAnswer
  split at h
  · exact absurd trivial h
  · rename_i h0
    rw [if_neg h0, if_neg h0]
    refine ⟨removeAll_delegate _ _, ?_⟩
    cases hr : (removeAll { s with delegate := withoutSlice s.delegate a b (k.getD 1) }
      (elementsAt s.delegate (positions s.delegate.length a b (k.getD 1)))).2 with
    | none => rfl
    | some e => rw [hr] at h; exact absurd trivial h

/-- Shape of a call that returns nothing. -/
theorem unit_acts {e : Option PyErr} (h : ¬ SRaised (.base (.ofErr e))) : e = none ∧ answerOf (.base (.ofErr e)) = some .nothing := by
  cases e with
  | none => exact ⟨rfl, rfl⟩
  | some e => exact absurd trivial h

theorem rhsFirst_eq (s : Matches) (rhs : Rhs) : s.rhsFirst rhs = itemsAt s.delegate rhs := by cases rhs <;> rfl

/-- **C99**, whatever happened before (refused matches, exceptions, indexes that are wrong) and whatever is assigned: a call that does not raise has left
in the sequence, and returned, what it would have for a plain list. -/
theorem C99_no_exception (s : Matches) (op : SOp) (h : ¬ SRaised (s.sstep op).2) : ActsAsList s.delegate op (s.sstep op).1 (s.sstep op).2 := by
  cases op with
  | base op =>
    by_cases hl : isLookup op = true
    · have hs := (step_lookup_sim s op hl).delegate
      have hc : listCall s.delegate (.base op) = ((listStep s.delegate op).1, none) := by
        cases op <;> first | rfl | cases hl
      refine ⟨?_, by rw [hc]; intro a ha; cases ha⟩
      rw [hc, listStep_lookup _ _ hl]; exact hs
    · cases op with
      | append m =>
        obtain ⟨_, h2⟩ := unit_acts h
        exact ⟨append_delegate s m, fun a ha => by cases ha; exact h2⟩
      | insert i m =>
        obtain ⟨_, h2⟩ := unit_acts h
        exact ⟨insert_delegate s i m, fun a ha => by cases ha; exact h2⟩
      | extend ms =>
        obtain ⟨h1, h2⟩ := unit_acts h
        exact ⟨extend_delegate ms s h1, fun a ha => by cases ha; exact h2⟩
      | remove m =>
        simp only [ActsAsList, sstep, step, listCall, listStep] at h ⊢
        cases hr : removeFirst (fun x => x.eqv m) s.delegate with
        | none => rw [remove_none m hr] at h; exact absurd trivial h
        | some l' =>
          obtain ⟨_, h2⟩ := unit_acts h
          refine ⟨?_, fun a ha => by cases ha; exact h2⟩
          have hf := findIdx?_removeFirst (fun x : Match => x.eqv m) s.delegate
          rw [hr] at hf
          obtain ⟨k, hk, hkl⟩ := Option.map_eq_some_iff.1 hf
          have hlt : k < s.delegate.length := (List.findIdx?_eq_some_iff_getElem.1 hk).1
          simp only [remove, hk]
          rw [delItem_delegate s (normIdx_nat hlt), hkl]
      | pop i =>
        simp only [ActsAsList, sstep, step, listCall, listStep, itemAnswer] at h ⊢
        cases hk : normIdx s.delegate.length i with
        | none => rw [pop_none hk] at h; exact absurd trivial h
        | some k =>
          obtain ⟨h1, m, hm, h2, h3⟩ := pop_of_norm s hk
          simp only [h1, h2, delItem_delegate s hk]
          refine ⟨trivial, fun a ha => ?_⟩
          cases ha
          rw [h3] at h ⊢
          cases hd : (s.delItem i).2 with
          | none => rfl
          | some e => rw [hd] at h; exact absurd trivial h
      | delItem i =>
        simp only [ActsAsList, sstep, step, listCall, listStep] at h ⊢
        cases hk : normIdx s.delegate.length i with
        | none => rw [delItem_none hk] at h; exact absurd trivial h
        | some k =>
          obtain ⟨_, h2⟩ := unit_acts h
          exact ⟨delItem_delegate s hk, fun a ha => by cases ha; exact h2⟩
      | clear =>
        obtain ⟨h1, h2⟩ := unit_acts h
        exact ⟨clear_delegate s h1, fun a ha => by cases ha; exact h2⟩
      | setItem i m =>
        obtain ⟨h1, h2⟩ := unit_acts h
        refine ⟨setItem_delegate s i m, fun a ha => ?_⟩
        simp only [listCall, listStep, isLookup] at ha
        cases hk : normIdx s.delegate.length i with
        | none =>
          simp only [setItem, hk] at h1
          cases h1
        | some k =>
          rw [hk] at ha
          cases ha; exact h2
      | reverse =>
        obtain ⟨h1, h2⟩ := unit_acts h
        exact ⟨reverse_delegate s h1, fun a ha => by cases ha; exact h2⟩
      | delSlice a b =>
        simp only [ActsAsList, sstep, step, listCall, delSlice_eq_delStep] at h ⊢
        have := delStep_acts s a b none h
        exact ⟨this.1, fun x hx => by cases hx; exact this.2⟩
      | _ => exact absurd rfl hl
  | setSlice a b k rhs =>
    simp only [ActsAsList, sstep, listCall, setSlice, setAnswer] at h ⊢
    rw [listSetSlice_eq, rhsFirst_eq] at h ⊢
    by_cases h0 : k.getD 1 = 0
    · rw [if_pos h0] at h; exact absurd trivial h
    · simp only [if_neg h0] at h ⊢
      by_cases h1 : k.getD 1 = 1
      · simp only [if_pos h1] at h ⊢
        obtain ⟨_, h2⟩ := unit_acts h
        exact ⟨addAll_delegate _ _, fun a ha => by cases ha; exact h2⟩
      · simp only [if_neg h1] at h ⊢
        by_cases h2 : (positions s.delegate.length a b (k.getD 1)).length = (itemsAt s.delegate rhs).length
        · simp only [if_pos h2] at h ⊢
          obtain ⟨_, h3⟩ := unit_acts h
          exact ⟨addAll_delegate _ _, fun a ha => by cases ha; exact h3⟩
        · simp only [if_neg h2] at h; exact absurd trivial h
  | delSlice a b k =>
    have := delStep_acts s a b k h
    exact ⟨this.1, fun x hx => by cases hx; exact this.2⟩
  | getSlice a b k =>
    simp only [ActsAsList, sstep, listCall, getStep] at h ⊢
    refine ⟨trivial, fun x hx => ?_⟩
    cases hx
    rw [listGetSlice_eq] at h ⊢
    by_cases h0 : k.getD 1 = 0
    · rw [if_pos h0] at h; exact absurd trivial h
    · simp only [if_neg h0] at h ⊢
      have he := extend_delegate (elementsAt s.delegate (positions s.delegate.length a b (k.getD 1))) (empty false none)
      cases hx : (empty false none).extend (elementsAt s.delegate (positions s.delegate.length a b (k.getD 1))) with
      | mk s' e =>
        rw [hx] at h he
        cases e with
        | some e => exact absurd trivial h
        | none =>
          simp only [SOut.ofContainer, answerOf]
          rw [he rfl]; rfl
  | getItem i =>
    simp only [ActsAsList, sstep, listCall, itemAnswer, getItem] at h ⊢
    refine ⟨trivial, fun x hx => ?_⟩
    cases hx
    cases pyGet s.delegate i <;> rfl
  | len => exact ⟨rfl, fun a ha => by cases ha; rfl⟩
  | iterate => exact ⟨rfl, fun a ha => by cases ha; simp only [sstep, answerOf, items_eq]⟩
  | reversed => exact ⟨rfl, fun a ha => by cases ha; simp only [sstep, answerOf, itemsReversed_eq]⟩
  | contains m => exact ⟨rfl, fun a ha => by cases ha; simp only [sstep, answerOf, containsMatch, items_eq]⟩
  | count m =>
    refine ⟨rfl, fun a ha => ?_⟩
    cases ha; simp only [sstep, answerOf, countMatch, items_eq, List.countP_eq_length_filter]
  | index m a b =>
    refine ⟨rfl, fun x hx => ?_⟩
    cases hx
    simp only [sstep, indexOf_eq]
    cases firstIndex s.delegate m a b <;> rfl
  | extendSelf =>
    obtain ⟨h1, h2⟩ := unit_acts h
    exact ⟨extend_delegate _ s h1, fun a ha => by cases ha; exact h2⟩

/-! ## Histories -/

theorem setPositions_perm {α} (ps : List Nat) : ∀ (vs l : List α), ∃ r, (vs ++ l).Perm (r ++ setPositions l ps vs) := by
  induction ps with
  | nil => intro vs l; exact ⟨vs, by simp [setPositions]⟩
  | cons p ps ih =>
    intro vs l
    cases vs with
    | nil => exact ⟨[], by simp [setPositions]⟩
    | cons v vs =>
      have hstep : setPositions l (p :: ps) (v :: vs) = setPositions (l.set p v) ps vs := rfl
      obtain ⟨r, hr⟩ := ih vs (l.set p v)
      have hx : ∃ x, (v :: l).Perm (x :: l.set p v) := by
        by_cases hp : p < l.length
        · exact ⟨l[p], set_perm (List.getElem?_eq_getElem hp) v⟩
        · exact ⟨v, by rw [List.set_eq_of_length_le (by omega)]⟩
      obtain ⟨x, hx⟩ := hx
      refine ⟨x :: r, ?_⟩
      rw [hstep]
      have h1 : (v :: vs ++ l).Perm (vs ++ v :: l) := List.perm_middle.symm
      have h2 : (vs ++ v :: l).Perm (vs ++ x :: l.set p v) := hx.append_left vs
      have h3 : (vs ++ x :: l.set p v).Perm (x :: (vs ++ l.set p v)) := List.perm_middle
      exact h1.trans (h2.trans (h3.trans (hr.cons x)))

theorem splice_perm {α} (l vs : List α) {i j : Nat} (h : i ≤ j) : ∃ r, (vs ++ l).Perm (r ++ (l.take i ++ vs ++ l.drop j)) := by
  refine ⟨(l.drop i).take (j - i), ?_⟩
  have hl : l = l.take i ++ ((l.drop i).take (j - i) ++ l.drop j) := by
    conv => lhs; rw [← List.take_append_drop i l, ← List.take_append_drop (j - i) (l.drop i)]
    rw [List.drop_drop, show i + (j - i) = j by omega]
  have h1 : (vs ++ l).Perm (vs ++ (l.take i ++ ((l.drop i).take (j - i) ++ l.drop j))) := by rw [← hl]
  refine h1.trans ?_
  generalize l.take i = A
  generalize (l.drop i).take (j - i) = M
  generalize l.drop j = B
  have e1 : (vs ++ (A ++ (M ++ B))).Perm ((vs ++ A) ++ (M ++ B)) := by rw [List.append_assoc]
  have e2 : ((vs ++ A) ++ (M ++ B)).Perm ((A ++ vs) ++ (M ++ B)) := List.perm_append_comm.append_right _
  have e3 : ((A ++ vs) ++ (M ++ B)).Perm (M ++ ((A ++ vs) ++ B)) := by
    have : ((A ++ vs) ++ M ++ B).Perm (M ++ (A ++ vs) ++ B) := List.perm_append_comm.append_right B
    simpa [List.append_assoc] using this
  exact e1.trans (e2.trans e3)

theorem listSetSlice_perm {α} {l : List α} {a b k : Option Int} {vs l' : List α} (h : listSetSlice l a b k vs = .ok l') :
    ∃ r, (vs ++ l).Perm (r ++ l') := by
  unfold listSetSlice at h
  split at h
  · cases h
  · split at h
    · cases h
      exact splice_perm l vs (by omega)
    · split at h
      · cases h; exact setPositions_perm _ vs l
      · cases h

theorem filterMap_perm {α β} (f : α → Option β) {l₁ l₂ : List α} (h : l₁.Perm l₂) : (l₁.filterMap f).Perm (l₂.filterMap f) := h.filterMap f

theorem elementsAt_all {α} (l : List α) : elementsAt l (List.range l.length) = l := by
  rw [List.range_eq_range', elementsAt_range']; simp

theorem delSlice_perm {α} (l : List α) (a b : Option Int) (k : Int) :
    l.Perm (elementsAt l (positions l.length a b k) ++ withoutSlice l a b k) := by
  have h1 : (positions l.length a b k).Perm ((List.range l.length).filter (fun x => decide (Chosen l.length a b k x))) := by
    unfold positions
    split
    · exact List.Perm.refl _
    · exact List.reverse_perm _
  have h2 : (List.range l.length).Perm ((List.range l.length).filter (fun x => decide (Chosen l.length a b k x)) ++
      (List.range l.length).filter (fun x => !decide (Chosen l.length a b k x))) := (List.filter_append_perm _ _).symm
  have h3 := filterMap_perm (fun i => l[i]?) (h2.trans (h1.symm.append_right _))
  rw [List.filterMap_append] at h3
  have h4 := elementsAt_all l
  unfold elementsAt at h4
  rw [h4] at h3
  exact h3

theorem elementsAt_length_le {α} (l : List α) (ps : List Nat) : (elementsAt l ps).length ≤ ps.length := List.length_filterMap_le _ _

theorem kept_delStep {b : Bool} {s : Matches} (hg : GoodSeq b s) (a c k : Option Int)
    (hd : 2 ≤ (positions s.delegate.length a c (k.getD 1)).length → s.endD.isSome = true) :
    KeptSeq b s (s.delStep a c k).1 ∧ (¬ SRaised (.base (.ofErr (s.delStep a c k).2)) ∨
      ((s.delStep a c k).1 = s ∧ (s.delStep a c k).2 = some .valueError ∧ delAnswer s.delegate a c k = (s.delegate, .raised .valueError))) := by
  rw [delStep_spec]
  by_cases h0 : k.getD 1 = 0
  · rw [if_pos h0]
    exact ⟨KeptSeq.refl hg, Or.inr ⟨rfl, rfl, by unfold delAnswer; rw [if_pos h0]⟩⟩
  · rw [if_neg h0]
    have hle := elementsAt_length_le s.delegate (positions s.delegate.length a c (k.getD 1))
    have := kept_removeAll hg (delSlice_perm s.delegate a c (k.getD 1)) (by
      by_cases h2 : 2 ≤ (positions s.delegate.length a c (k.getD 1)).length
      · exact Or.inl (hd h2)
      · exact Or.inr (by omega))
    refine ⟨this.2, Or.inl ?_⟩
    rw [this.1]
    exact fun h => h

/-- One call on a good container. -/
theorem good_sstep {b : Bool} {s : Matches} (hg : GoodSeq b s) (op : SOp) (hp : PlainCall b s.delegate op)
    (hd : deletesMany s.delegate op = true → s.endD.isSome = true) :
    KeptSeq b s (s.sstep op).1 ∧ ActsAsList s.delegate op (s.sstep op).1 (s.sstep op).2 := by
  suffices H : KeptSeq b s (s.sstep op).1 ∧ (¬ SRaised (s.sstep op).2 ∨ ActsAsList s.delegate op (s.sstep op).1 (s.sstep op).2) by
    refine ⟨H.1, ?_⟩
    rcases H.2 with h | h
    · exact C99_no_exception s op h
    · exact h
  have quiet : ∀ {e : Option PyErr}, e = none → ¬ SRaised (.base (.ofErr e)) := by rintro e rfl h; exact h
  cases op with
  | base op =>
    by_cases hl : isLookup op = true
    · refine ⟨kept_lookup hg op hl, Or.inr ?_⟩
      have hs := (step_lookup_sim s op hl).delegate
      have hc : listCall s.delegate (.base op) = ((listStep s.delegate op).1, none) := by
        cases op <;> first | rfl | cases hl
      refine ⟨?_, by rw [hc]; intro a ha; cases ha⟩
      rw [hc, listStep_lookup _ _ hl]; exact hs
    · cases op with
      | append m =>
        have := kept_insert hg s.length (hp m (by simp [added]))
        exact ⟨this.2, Or.inl (quiet this.1)⟩
      | insert i m =>
        have := kept_insert hg i (hp m (by simp [added]))
        exact ⟨this.2, Or.inl (quiet this.1)⟩
      | extend ms =>
        have := kept_extend ms hg hp
        exact ⟨this.2, Or.inl (quiet this.1)⟩
      | remove m =>
        simp only [ActsAsList, sstep, step, listCall, listStep]
        cases hr : removeFirst (fun x => x.eqv m) s.delegate with
        | none =>
          rw [remove_none m hr]
          exact ⟨KeptSeq.refl hg, Or.inr ⟨rfl, fun a ha => by cases ha; rfl⟩⟩
        | some l' =>
          have hf := findIdx?_removeFirst (fun x : Match => x.eqv m) s.delegate
          rw [hr] at hf
          obtain ⟨k, hk, hkl⟩ := Option.map_eq_some_iff.1 hf
          have hlt : k < s.delegate.length := (List.findIdx?_eq_some_iff_getElem.1 hk).1
          have := kept_delItem hg (normIdx_nat hlt)
          simp only [remove, hk]
          exact ⟨this.2, Or.inl (quiet this.1)⟩
      | pop i =>
        simp only [ActsAsList, sstep, step, listCall, listStep, itemAnswer]
        cases hk : normIdx s.delegate.length i with
        | none =>
          rw [pop_none hk]
          have hg' : pyGet s.delegate i = none := by unfold pyGet; rw [hk]
          exact ⟨KeptSeq.refl hg, Or.inr ⟨rfl, fun a ha => by rw [hg'] at ha; cases ha; rfl⟩⟩
        | some k =>
          obtain ⟨⟨m, _, h2⟩, h3, _⟩ := kept_pop hg hk
          exact ⟨h3, Or.inl (by rw [h2]; exact fun h => h)⟩
      | delItem i =>
        simp only [ActsAsList, sstep, step, listCall, listStep]
        cases hk : normIdx s.delegate.length i with
        | none =>
          rw [delItem_none hk]
          exact ⟨KeptSeq.refl hg, Or.inr ⟨rfl, fun a ha => by cases ha; rfl⟩⟩
        | some k =>
          have := kept_delItem hg hk
          exact ⟨this.2, Or.inl (quiet this.1)⟩
      | clear =>
        have := kept_clearLoop (s.length + 1) hg (Nat.lt_succ_self _)
        exact ⟨this.2, Or.inl (quiet this.1)⟩
      | setItem i m =>
        simp only [ActsAsList, sstep, step, listCall, listStep]
        cases hk : normIdx s.delegate.length i with
        | none =>
          have : s.setItem i m = (s, some .indexError) := by unfold setItem; rw [hk]
          rw [this]
          exact ⟨KeptSeq.refl hg, Or.inr ⟨rfl, fun a ha => by cases ha; rfl⟩⟩
        | some k =>
          have := kept_setItem hg (hp m (by simp [added])) hk
          exact ⟨this.2, Or.inl (quiet this.1)⟩
      | reverse =>
        have := kept_reverseLoop s.length (List.range (s.length / 2)) (fun i hi => by have := List.mem_range.1 hi; omega) hg rfl
        exact ⟨this.2, Or.inl (quiet this.1)⟩
      | delSlice a c =>
        simp only [ActsAsList, sstep, step, listCall, delSlice_eq_delStep]
        have := kept_delStep hg a c none (fun h => hd (by simpa [deletesMany] using h))
        refine ⟨this.1, ?_⟩
        rcases this.2 with h | ⟨h1, h2, h3⟩
        · exact Or.inl h
        · exact Or.inr ⟨by rw [h1, h3], fun x hx => by rw [h3] at hx; cases hx; rw [h2]; rfl⟩
      | _ => exact absurd rfl hl
  | setSlice a c k rhs =>
    simp only [ActsAsList, sstep, listCall, setSlice]
    cases hs : listSetSlice s.delegate a c k (s.rhsFirst rhs) with
    | error e =>
      refine ⟨KeptSeq.refl hg, Or.inr ?_⟩
      rw [listSetSlice_eq, rhsFirst_eq] at hs
      unfold setAnswer
      by_cases h0 : k.getD 1 = 0
      · rw [if_pos h0] at hs ⊢
        cases hs
        exact ⟨rfl, fun x hx => by cases hx; rfl⟩
      · rw [if_neg h0] at hs ⊢
        by_cases h1 : k.getD 1 = 1
        · rw [if_pos h1] at hs; cases hs
        · rw [if_neg h1] at hs ⊢
          by_cases h2 : (positions s.delegate.length a c (k.getD 1)).length = (itemsAt s.delegate rhs).length
          · rw [if_pos h2] at hs; cases hs
          · rw [if_neg h2] at hs ⊢
            cases hs
            exact ⟨rfl, fun x hx => by cases hx; rfl⟩
    | ok l' =>
      simp only
      obtain ⟨r, hr⟩ := listSetSlice_perm hs
      have hvals : ∀ m ∈ s.rhsFirst rhs, m.marker = b := by
        rw [rhsFirst_eq]
        cases rhs with
        | oneShot ms => exact absurd hp (fun h => h)
        | list ms => exact hp
        | self => exact hp
      have hl' : ∀ m ∈ l', m.marker = b := by
        intro m hm
        have := hr.symm.subset (List.mem_append_right r hm)
        rcases List.mem_append.1 this with h | h
        · exact hvals m h
        · exact hg.kinds m h
      have : (addAll { s with delegate := l' } (rhsSecond { s with delegate := l' } rhs)).2 = none ∧
          KeptSeq b s (addAll { s with delegate := l' } (rhsSecond { s with delegate := l' } rhs)).1 := by
        cases rhs with
        | oneShot ms => exact absurd hp (fun h => h)
        | list ms => exact kept_addAll hg hvals hr hl'
        | self => exact kept_addAll hg (vs := l') (r := s.delegate) hl' List.perm_append_comm hl'
      exact ⟨this.2, Or.inl (quiet this.1)⟩
  | delSlice a c k =>
    simp only [ActsAsList, sstep, listCall]
    have := kept_delStep hg a c k (fun h => hd (by simpa [deletesMany] using h))
    refine ⟨this.1, ?_⟩
    rcases this.2 with h | ⟨h1, h2, h3⟩
    · exact Or.inl h
    · exact Or.inr ⟨by rw [h1, h3], fun x hx => by rw [h3] at hx; cases hx; rw [h2]; rfl⟩
  | getSlice a c k =>
    refine ⟨KeptSeq.refl hg, ?_⟩
    simp only [ActsAsList, sstep, listCall, getStep]
    rw [listGetSlice_eq]
    by_cases h0 : k.getD 1 = 0
    · simp only [if_pos h0]
      exact Or.inr ⟨trivial, fun x hx => by cases hx; rfl⟩
    · simp only [if_neg h0]
      have hm : ∀ m ∈ elementsAt s.delegate (positions s.delegate.length a c (k.getD 1)), m.marker = (empty false none).isMarkers := by
        intro m hm
        obtain ⟨i, _, hi⟩ := List.mem_filterMap.1 hm
        have hb : b = false := hp
        rw [hg.kinds m (List.mem_of_getElem? hi), hb]; rfl
      have := inv_extend (inv_empty false none) _ hm
      cases hx : (empty false none).extend (elementsAt s.delegate (positions s.delegate.length a c (k.getD 1))) with
      | mk s' e =>
        rw [hx] at this
        obtain rfl : e = none := this.1
        exact Or.inl (fun h => h)
  | getItem i =>
    refine ⟨KeptSeq.refl hg, Or.inr ⟨rfl, fun x hx => ?_⟩⟩
    simp only [listCall, itemAnswer, Option.some.injEq] at hx
    subst hx
    simp only [sstep, getItem]
    cases pyGet s.delegate i <;> rfl
  | len => exact ⟨KeptSeq.refl hg, Or.inl (fun h => h)⟩
  | iterate => exact ⟨KeptSeq.refl hg, Or.inl (fun h => h)⟩
  | reversed => exact ⟨KeptSeq.refl hg, Or.inl (fun h => h)⟩
  | contains m => exact ⟨KeptSeq.refl hg, Or.inl (fun h => h)⟩
  | count m => exact ⟨KeptSeq.refl hg, Or.inl (fun h => h)⟩
  | index m a c =>
    refine ⟨KeptSeq.refl hg, Or.inr ⟨rfl, fun x hx => ?_⟩⟩
    simp only [listCall, Option.some.injEq] at hx
    subst hx
    simp only [sstep, indexOf_eq]
    cases firstIndex s.delegate m a c <;> rfl
  | extendSelf =>
    have := kept_extend s.delegate hg hg.kinds
    exact ⟨this.2, Or.inl (quiet this.1)⟩

/-- **C99, partial**: for every history of sequence calls and lookups with matches of the right kind, without iterators or generators assigned to slices,
and in which slices of two matches and more are deleted only after an `ending` lookup, each call does to the sequence, returns and raises what it does for
a plain list (missing: iterators assigned to slices, false by `C99_refuted`; deletions of slices without `ending` lookup, false by `C20_del_slice_refuted`;
slices of markers, false by `C19_slice_refuted`). -/
theorem C99_partial (isMarkers : Bool) (input : Option Str) (ops : List SOp)
    (hp : ∀ pre op post, ops = pre ++ op :: post → PlainCall isMarkers (listCalls [] pre) op ∧
      (deletesMany (listCalls [] pre) op = true → ∃ i, SOp.base (.ending i) ∈ pre)) :
    ((empty isMarkers input).runS ops).delegate = listCalls [] ops ∧
    ∀ pre op post, ops = pre ++ op :: post → ActsAsList (listCalls [] pre) op (((empty isMarkers input).runS pre).sstep op).1
      (((empty isMarkers input).runS pre).sstep op).2 := by
  have main : ∀ n, n ≤ ops.length →
      GoodSeq isMarkers ((empty isMarkers input).runS (ops.take n)) ∧ ((empty isMarkers input).runS (ops.take n)).delegate = listCalls [] (ops.take n) ∧
      ((∃ i, SOp.base (.ending i) ∈ ops.take n) → ((empty isMarkers input).runS (ops.take n)).endD.isSome = true) := by
    intro n
    induction n with
    | zero =>
      intro _
      refine ⟨⟨⟨⟨[], CohO_none _ _⟩, ⟨[], CohO_none _ _⟩, ⟨[], CohO_none _ _⟩, ⟨[], CohO_none _ _⟩, ⟨[], CohO_none _ _⟩⟩, rfl, ?_⟩, rfl, ?_⟩
      · intro m hm; cases hm
      · rintro ⟨i, hi⟩; simp at hi
    | succ n ih =>
      intro hn
      obtain ⟨hg, hl, he⟩ := ih (by omega)
      have hlt : n < ops.length := by omega
      have htake : ops.take (n + 1) = ops.take n ++ [ops[n]] := by rw [List.take_succ_eq_append_getElem hlt]
      have hops : ops = ops.take n ++ ops[n] :: ops.drop (n + 1) := by
        conv => lhs; rw [← List.take_append_drop n ops, List.drop_eq_getElem_cons hlt]
      obtain ⟨h1, h2⟩ := hp _ _ _ hops
      rw [← hl] at h1 h2
      have hstep := good_sstep hg ops[n] h1 (fun h => he (h2 h))
      have hrun : (empty isMarkers input).runS (ops.take (n + 1)) = (((empty isMarkers input).runS (ops.take n)).sstep ops[n]).1 := by
        rw [htake]; simp only [runS, List.foldl_append, List.foldl_cons, List.foldl_nil]
      have hlist : listCalls [] (ops.take (n + 1)) = (listCall (listCalls [] (ops.take n)) ops[n]).1 := by
        rw [htake]; simp only [listCalls, List.foldl_append, List.foldl_cons, List.foldl_nil]
      refine ⟨by rw [hrun]; exact hstep.1.good, by rw [hrun, hlist, ← hl]; exact hstep.2.1, ?_⟩
      rw [hrun]
      rintro ⟨i, hi⟩
      rw [htake] at hi
      rcases List.mem_append.1 hi with h | h
      · exact hstep.1.ending (he ⟨i, h⟩)
      · rw [← List.mem_singleton.1 h]; rfl
  constructor
  · have := (main ops.length (Nat.le_refl _)).2.1
    rwa [List.take_length] at this
  · intro pre op post ho
    have hlen : pre.length ≤ ops.length := by rw [ho]; simp
    have htake : ops.take pre.length = pre := by rw [ho]; simp
    have h := main pre.length hlen
    rw [htake] at h
    obtain ⟨hg, hl, he⟩ := h
    obtain ⟨h1, h2⟩ := hp _ _ _ ho
    rw [← hl] at h1 h2
    have := good_sstep hg op h1 (fun h => he (h2 h))
    rw [hl] at this
    exact this.2

/-- A history with lookups before assignments, slices with steps, and deletions. -/
def exSequence : List SOp :=
  [.base (.extend [mk 0 3, mk 4 6, mk 7 9]), .base (.ending 3), .base (.setItem (-1) (mk 7 8)), .setSlice none none (some (-2)) (.list [mk 1 2, mk 3 4]),
   .setSlice (some 1) (some 1) none .self, .base .reverse, .delSlice none none (some 2), .index (mk 4 6) 0 none]

example : (listCalls [] exSequence).map Match.span = [(4, 6), (4, 6), (3, 4)] := by decide

instance (b : Bool) (l : List Match) (op : SOp) : Decidable (PlainCall b l op) := by
  cases op with
  | base op => unfold PlainCall Fits; exact inferInstance
  | setSlice a b k rhs => cases rhs <;> (unfold PlainCall; exact inferInstance)
  | _ => unfold PlainCall; exact inferInstance

/-- The hypothesis of `C99_partial` for the part of a history after the lookups and calls `pre`. -/
def checkSequence (b : Bool) (pre : List SOp) : List SOp → Bool
  | [] => true
  | op :: r => decide (PlainCall b (listCalls [] pre) op) &&
      (!deletesMany (listCalls [] pre) op || pre.any (fun o => match o with | .base (.ending _) => true | _ => false)) && checkSequence b (pre ++ [op]) r

theorem checkSequence_ok (b : Bool) (ops : List SOp) : ∀ pre, checkSequence b pre ops = true → ∀ p op post, ops = p ++ op :: post →
    PlainCall b (listCalls [] (pre ++ p)) op ∧ (deletesMany (listCalls [] (pre ++ p)) op = true → ∃ i, SOp.base (.ending i) ∈ pre ++ p) := by
  induction ops with
  | nil => intro pre _ p op post h; cases p <;> cases h
  | cons o ops ih =>
    intro pre hc p op post h
    simp only [checkSequence, Bool.and_eq_true, decide_eq_true_eq, Bool.or_eq_true, Bool.not_eq_true'] at hc
    cases p with
    | nil =>
      simp only [List.nil_append, List.cons.injEq] at h
      obtain ⟨rfl, rfl⟩ := h
      rw [List.append_nil]
      refine ⟨hc.1.1, fun hd => ?_⟩
      rcases hc.1.2 with h | h
      · rw [hd] at h; cases h
      · obtain ⟨x, hx, hxe⟩ := List.any_eq_true.1 h
        split at hxe
        · exact ⟨_, hx⟩
        · cases hxe
    | cons q p =>
      simp only [List.cons_append, List.cons.injEq] at h
      obtain ⟨rfl, rfl⟩ := h
      have := ih (pre ++ [o]) hc.2 p op post rfl
      simpa [List.append_assoc] using this

example : ∀ pre op post, exSequence = pre ++ op :: post → PlainCall false (listCalls [] pre) op ∧
    (deletesMany (listCalls [] pre) op = true → ∃ i, SOp.base (.ending i) ∈ pre) := by
  have := checkSequence_ok false exSequence [] (by decide)
  simpa using this

end Rebulk
