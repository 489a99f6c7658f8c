import Verif.Lemmas.Sequence
/-!
# Indexes that hold at least the sequence

Item and slice assignments leave the replaced matches in the indexes. What remains true: every built index holds the matches of the sequence and
possibly some more, so that taking matches of the sequence out of the indexes does not fail.
-/
namespace Rebulk
open Spec Matches

variable {κ : Type} [DecidableEq κ]

/-- The index holds `l` and some more. -/
def OverO (keysOf : Match → List κ) (d : Option (Index κ)) (l : List Match) : Prop := ∃ g, CohO keysOf d (l ++ g)

theorem overO_perm {keysOf : Match → List κ} {d : Option (Index κ)} {l l' : List Match} (h : l.Perm l') (ho : OverO keysOf d l) :
    OverO keysOf d l' := by
  obtain ⟨g, hg⟩ := ho
  exact ⟨g, CohO_perm (h.append_right g) hg⟩

theorem overO_weaken {keysOf : Match → List κ} {d : Option (Index κ)} {l r : List Match} (ho : OverO keysOf d (r ++ l)) :
    OverO keysOf d l := by
  obtain ⟨g, hg⟩ := ho
  refine ⟨r ++ g, CohO_perm ?_ hg⟩
  have : (r ++ l ++ g).Perm (l ++ r ++ g) := List.perm_append_comm.append_right g
  rwa [List.append_assoc l] at this

theorem overO_add {keysOf : Match → List κ} {d : Option (Index κ)} {l : List Match} (m : Match) (ho : OverO keysOf d l) :
    OverO keysOf (addTo d (keysOf m) m) (m :: l) := by
  obtain ⟨g, hg⟩ := ho
  exact ⟨g, CohO_add m hg⟩

theorem overO_remove {keysOf : Match → List κ} {d : Option (Index κ)} {l : List Match} (m : Match) (ho : OverO keysOf d (m :: l)) :
    (removeFrom d (keysOf m) m).2 = true ∧ OverO keysOf (removeFrom d (keysOf m) m).1 l := by
  obtain ⟨g, hg⟩ := ho
  have := CohO_remove m hg
  exact ⟨this.1, g, this.2⟩

theorem overO_of_view {keysOf : Match → List κ} {d d0 : Option (Index κ)} {b : Index κ} {l : List Match}
    (hb : ∀ k, b.getList k = filed keysOf l k) (h0 : OverO keysOf d0 l)
    (he : ∀ k, (d.getD b).getList k = (d0.getD b).getList k) : OverO keysOf d l := by
  cases d with
  | none => exact ⟨[], CohO_none _ _⟩
  | some d =>
    cases d0 with
    | none =>
      refine ⟨[], ?_⟩
      intro d' hd k
      cases hd
      have := he k
      simp only [Option.getD_some, Option.getD_none] at this
      rw [this, hb, List.append_nil]
    | some d0 =>
      obtain ⟨g, hg⟩ := h0
      refine ⟨g, ?_⟩
      intro d' hd k
      cases hd
      have := he k
      simp only [Option.getD_some] at this
      rw [this]
      exact hg d0 rfl k

/-- Every built index holds `l` and some more. -/
structure Over (s : Matches) (l : List Match) : Prop where
  name : OverO nameKeys s.nameD l
  tag : OverO tagKeys s.tagD l
  start : OverO startKeys s.startD l
  stop : OverO endKeys s.endD l
  index : OverO indexKeys s.indexD l

theorem Over.perm {s : Matches} {l l' : List Match} (h : l.Perm l') (ho : Over s l) : Over s l' :=
  ⟨overO_perm h ho.name, overO_perm h ho.tag, overO_perm h ho.start, overO_perm h ho.stop, overO_perm h ho.index⟩

theorem Over.weaken {s : Matches} {l r : List Match} (ho : Over s (r ++ l)) : Over s l :=
  ⟨overO_weaken ho.name, overO_weaken ho.tag, overO_weaken ho.start, overO_weaken ho.stop, overO_weaken ho.index⟩

theorem Over.delegate {s : Matches} {l l' : List Match} (ho : Over s l) : Over { s with delegate := l' } l :=
  ⟨ho.name, ho.tag, ho.start, ho.stop, ho.index⟩

theorem over_addMatch {s : Matches} {l : List Match} {m : Match} (ho : Over s l) (hm : m.marker = s.isMarkers) :
    (s.addMatch m).2 = none ∧ Over (s.addMatch m).1 (m :: l) ∧ (s.addMatch m).1.isMarkers = s.isMarkers := by
  unfold addMatch
  rw [hm]
  simp only [beq_self_eq_true, if_true]
  exact ⟨trivial, ⟨overO_add m ho.name, overO_add m ho.tag, overO_add m ho.start, overO_add m ho.stop, overO_add m ho.index⟩, rfl⟩

theorem over_addAll (ms : List Match) {s : Matches} {l : List Match} (ho : Over s l) (hm : ∀ m ∈ ms, m.marker = s.isMarkers) :
    (s.addAll ms).2 = none ∧ Over (s.addAll ms).1 (ms ++ l) ∧ (s.addAll ms).1.isMarkers = s.isMarkers := by
  induction ms generalizing s l with
  | nil => exact ⟨rfl, ho, rfl⟩
  | cons m ms ih =>
    have h := over_addMatch ho (hm m List.mem_cons_self)
    unfold addAll
    cases ha : s.addMatch m with
    | mk s' e =>
      rw [ha] at h
      obtain ⟨h1, h2, h3⟩ := h
      simp only at h1 h2 h3
      subst h1
      simp only
      have := ih h2 (fun x hx => by rw [h3]; exact hm x (List.mem_cons_of_mem _ hx))
      refine ⟨this.1, this.2.1.perm ?_, this.2.2.trans h3⟩
      exact List.perm_middle

theorem overO_touched {s : Matches} {l : List Match} (hd : s.delegate = l) (ho : OverO endKeys s.endD l) (k : Int) :
    OverO endKeys (some (s.endDict.touch k)) l := by
  refine overO_of_view (b := buildEnd l) (buildEnd_getList _) ho ?_
  intro k'
  simp only [Option.getD_some]
  rw [Dict.getList_touch]
  unfold endDict
  rw [hd]

theorem over_shrink {s : Matches} {l : List Match} (ho : Over s l) (hs : s.delegate = l ∨ s.endD.isSome = true) (m : Match) :
    Over (s.shrinkMaxEnd m) l := by
  have ht : OverO endKeys (some (s.endDict.touch m.stop)) l := by
    rcases hs with hd | he
    · exact overO_touched hd ho.stop m.stop
    · obtain ⟨d, hd⟩ := Option.isSome_iff_exists.1 he
      obtain ⟨g, hg⟩ := ho.stop
      refine ⟨g, ?_⟩
      intro d' hd'
      cases hd'
      have : s.endDict = d := by unfold endDict; rw [hd]; rfl
      rw [this]
      exact Coh_touch _ (hg d hd)
  unfold shrinkMaxEnd
  simp only
  split
  · split
    · exact ⟨ho.name, ho.tag, ho.start, ht, ho.index⟩
    · exact ⟨ho.name, ho.tag, ho.start, ht, ho.index⟩
  · exact ho

theorem over_removeMatch {s : Matches} {l : List Match} {m : Match} (ho : Over s (m :: l)) (hs : s.delegate = l ∨ s.endD.isSome = true) :
    (s.removeMatch m).2 = none ∧ Over (s.removeMatch m).1 l := by
  have hn := overO_remove m ho.name
  have ht := overO_remove m ho.tag
  have hb := overO_remove m ho.start
  have he := overO_remove m ho.stop
  have hx := overO_remove m ho.index
  unfold removeMatch
  simp only [hn.1, ht.1, hb.1, he.1, hx.1, Bool.not_true, Bool.false_eq_true, if_false]
  refine ⟨trivial, ?_⟩
  apply over_shrink ⟨hn.2, ht.2, hb.2, he.2, hx.2⟩
  rcases hs with hd | hsome
  · exact Or.inl hd
  · right
    obtain ⟨d, hd⟩ := Option.isSome_iff_exists.1 hsome
    simp only [hd, removeFrom, Option.isSome_some]

/-! ## The end index stays built -/

theorem shrink_end {s : Matches} (h : s.endD.isSome = true) (m : Match) : (s.shrinkMaxEnd m).endD.isSome = true := by
  unfold shrinkMaxEnd; simp only; split
  · split <;> rfl
  · exact h

theorem removeFrom_some {d : Option (Index κ)} (h : d.isSome = true) (ks : List κ) (m : Match) : (removeFrom d ks m).1.isSome = true := by
  obtain ⟨d, rfl⟩ := Option.isSome_iff_exists.1 h
  rfl

theorem removeMatch_end {s : Matches} (h : s.endD.isSome = true) (m : Match) : (s.removeMatch m).1.endD.isSome = true := by
  unfold removeMatch
  simp only
  split
  · exact h
  · split
    · exact h
    · split
      · exact h
      · split
        · exact removeFrom_some h _ _
        · split
          · exact removeFrom_some h _ _
          · exact shrink_end (removeFrom_some h _ _) m

theorem addMatch_end {s : Matches} (h : s.endD.isSome = true) (m : Match) : (s.addMatch m).1.endD.isSome = true := by
  unfold addMatch
  split
  · simp only [addMatchBase, addTo, Option.isSome_map]; exact h
  · exact h

theorem over_removeAll (ms : List Match) {s : Matches} {l : List Match} (ho : Over s (ms ++ l))
    (hs : s.endD.isSome = true ∨ (s.delegate = l ∧ ms.length ≤ 1)) : (s.removeAll ms).2 = none ∧ Over (s.removeAll ms).1 l := by
  induction ms generalizing s with
  | nil => exact ⟨rfl, ho⟩
  | cons m ms ih =>
    have hs' : s.delegate = ms ++ l ∨ s.endD.isSome = true := by
      rcases hs with h | ⟨h, hl⟩
      · exact Or.inr h
      · left
        have : ms = [] := by
          cases ms with
          | nil => rfl
          | cons _ _ => simp at hl
        rw [this, h]; rfl
    have h := over_removeMatch (m := m) (l := ms ++ l) ho hs'
    unfold removeAll
    have hend : s.endD.isSome = true → (s.removeMatch m).1.endD.isSome = true := fun h => removeMatch_end h m
    have hdel := removeMatch_delegate s m
    cases hr : s.removeMatch m with
    | mk s' e =>
      rw [hr] at h hend hdel
      simp only at h hend hdel
      obtain ⟨h1, h2⟩ := h
      subst h1
      simp only
      apply ih h2
      rcases hs with h | ⟨h, hl⟩
      · exact Or.inl (hend h)
      · right
        simp only [List.length_cons] at hl
        exact ⟨hdel.trans h, by omega⟩

theorem lookups_end {s : Matches} (h : s.endD.isSome = true) :
    (∀ k, (s.lookName k).1.endD.isSome = true) ∧ (∀ k, (s.lookTag k).1.endD.isSome = true) ∧ (∀ k, (s.lookStart k).1.endD.isSome = true) ∧
    (∀ k, (s.lookEnd k).1.endD.isSome = true) ∧ (∀ k, (s.lookIndex k).1.endD.isSome = true) :=
  ⟨fun _ => h, fun _ => h, fun _ => h, fun _ => rfl, fun _ => h⟩

theorem namedLoop_end (ns : List String) (s : Matches) (acc : List Match) (h : s.endD.isSome = true) : (namedLoop ns s acc).1.endD.isSome = true := by
  induction ns generalizing s acc with
  | nil => exact h
  | cons n ns ih => exact ih (s.lookName n).1 _ h

theorem previousLoop_end (cs : List Int) (s : Matches) (h : s.endD.isSome = true) : (previousLoop cs s).1.endD.isSome = true := by
  induction cs generalizing s with
  | nil => exact h
  | cons c cs ih =>
    simp only [previousLoop]
    split
    · exact ih _ rfl
    · rfl

theorem nextLoop_end (cs : List Int) (s : Matches) (h : s.endD.isSome = true) : (nextLoop cs s).1.endD.isSome = true := by
  induction cs generalizing s with
  | nil => exact h
  | cons c cs ih =>
    simp only [nextLoop]
    split
    · exact ih _ h
    · exact h

theorem conflictLoop_end (cs : List Int) (s : Matches) (acc : List Match) (h : s.endD.isSome = true) :
    (conflictLoop cs s acc).1.endD.isSome = true := by
  induction cs generalizing s acc with
  | nil => exact h
  | cons c cs ih => exact ih (s.lookIndex c).1 _ h

theorem chainLoop_end (seps : Str) (pred : Match → Bool) (is : List Int) (s : Matches) (acc : List Match) (h : s.endD.isSome = true) :
    (chainLoop seps pred is s acc).1.endD.isSome = true := by
  induction is generalizing s acc with
  | nil => exact h
  | cons i is ih =>
    simp only [chainLoop]
    split
    · split
      · exact h
      · exact h
      · exact ih _ _ h
    · exact ih _ _ h

theorem holeScan_end (ignore : Match → Bool) (is : List Int) (s : Matches) (h : s.endD.isSome = true) :
    (holeScan ignore is s).1.endD.isSome = true := by
  induction is generalizing s with
  | nil => exact h
  | cons i is ih =>
    simp only [holeScan]
    split
    · exact h
    · exact ih _ h

theorem holesLoop_end (start : Int) (seps : Option Str) (ignore : Match → Bool) (rs : List Int) (s : Matches) (hs : HoleSt)
    (h : s.endD.isSome = true) : (holesLoop start seps ignore rs s hs).1.endD.isSome = true := by
  induction rs generalizing s hs with
  | nil => exact h
  | cons r rs ih =>
    simp only [holesLoop]
    split
    · split
      · exact ih _ _ h
      · split
        · exact h
        · exact ih _ _ h
    · exact ih _ _ h

theorem holes_end (s : Matches) (a : Int) (b : Option Int) (ig : Match → Bool) (sp : Option Str) (h : s.endD.isSome = true) :
    (s.holes a b ig sp).1.endD.isSome = true := by
  unfold holes
  simp only
  split
  · exact h
  · have h1 : (s.holeStart a ig).1.endD.isSome = true := holeScan_end ig (pyRange 0 a).reverse s h
    cases hs : s.holeStart a ig with
    | mk s1 ls =>
      rw [hs] at h1
      simp only
      have h2 := holesLoop_end a sp ig (pyRange ls (s.clampEnd b)) s1 { rindex := a } h1
      cases hl : holesLoop a sp ig (pyRange ls (s.clampEnd b)) s1 { rindex := a } with
      | mk s2 r =>
        rw [hl] at h2
        cases r with
        | error e => exact h2
        | ok hh =>
          simp only
          split
          · exact h2
          · exact holeScan_end ig _ s2 h2

theorem step_lookup_end (s : Matches) (op : Op) (hl : isLookup op = true) (h : s.endD.isSome = true) : (s.step op).1.endD.isSome = true := by
  cases op with
  | append | insert | extend | remove | pop | delItem | clear | delSlice | setItem | reverse => cases hl
  | named ns => exact namedLoop_end _ s [] h
  | tagged t => exact h
  | starting i => exact h
  | ending i => rfl
  | atIndex i => exact h
  | names => exact h
  | tags => exact h
  | previous m => exact previousLoop_end _ s h
  | next m => exact nextLoop_end _ s h
  | conflicting m =>
    have := conflictLoop_end (pyRange m.start m.stop) s [] h
    simp only [step, conflicting]
    cases hc : conflictLoop (pyRange m.start m.stop) s [] with
    | mk s' ret =>
      rw [hc] at this
      simp only
      cases removeFirst (fun x => x.eqv m) ret <;> exact this
  | atSpan a b => exact h
  | chainBefore p sp st pr => exact chainLoop_end sp pr _ s [] h
  | chainAfter p sp st pr => exact chainLoop_end sp pr _ s [] h
  | holes a b ig sp => exact holes_end s a b ig sp h

/-! ## Containers whose indexes hold at least the sequence -/

theorem Over.sim {s s' : Matches} (ho : Over s s.delegate) (h : Sim s s') : Over s' s'.delegate := by
  have hd := h.delegate
  rw [hd]
  refine ⟨?_, ?_, ?_, ?_, ?_⟩
  · refine overO_of_view (b := buildName s.delegate) (buildName_getList _) ho.name ?_
    have := h.name; simp only [nameDict, hd] at this; exact this
  · refine overO_of_view (b := buildTag s.delegate) (buildTag_getList _) ho.tag ?_
    have := h.tag; simp only [tagDict, hd] at this; exact this
  · refine overO_of_view (b := buildStart s.delegate) (buildStart_getList _) ho.start ?_
    have := h.start; simp only [startDict, hd] at this; exact this
  · refine overO_of_view (b := buildEnd s.delegate) (buildEnd_getList _) ho.stop ?_
    have := h.stop; simp only [endDict, hd] at this; exact this
  · refine overO_of_view (b := buildIndex s.delegate) (buildIndex_getList _) ho.index ?_
    have := h.index; simp only [indexDict, hd] at this; exact this

/-- A container of kind `b`, holding matches of this kind only, whose indexes hold at least the sequence. -/
structure GoodSeq (b : Bool) (s : Matches) : Prop where
  over : Over s s.delegate
  kind : s.isMarkers = b
  kinds : ∀ m ∈ s.delegate, m.marker = b

/-- After a call: still good, and the end index is still there if it was. -/
structure KeptSeq (b : Bool) (s s' : Matches) : Prop where
  good : GoodSeq b s'
  ending : s.endD.isSome = true → s'.endD.isSome = true

theorem KeptSeq.refl {b : Bool} {s : Matches} (h : GoodSeq b s) : KeptSeq b s s := ⟨h, id⟩
theorem KeptSeq.trans {b : Bool} {s s' s'' : Matches} (h : KeptSeq b s s') (h' : KeptSeq b s' s'') : KeptSeq b s s'' :=
  ⟨h'.good, fun e => h'.ending (h.ending e)⟩

theorem kept_addAll {b : Bool} {s : Matches} (hg : GoodSeq b s) {l r vs : List Match} (hk : ∀ m ∈ vs, m.marker = b)
    (hp : (vs ++ s.delegate).Perm (r ++ l)) (hl : ∀ m ∈ l, m.marker = b) :
    (addAll { s with delegate := l } vs).2 = none ∧ KeptSeq b s (addAll { s with delegate := l } vs).1 := by
  have h := over_addAll vs (s := { s with delegate := l }) (l := s.delegate) hg.over.delegate (fun m hm => (hk m hm).trans hg.kind.symm)
  have hd : (addAll { s with delegate := l } vs).1.delegate = l := addAll_delegate _ _
  refine ⟨h.1, ⟨?_, h.2.2.trans hg.kind, by rw [hd]; exact hl⟩, ?_⟩
  · rw [hd]; exact (h.2.1.perm hp).weaken
  · intro he
    have : ∀ (ms : List Match) (s : Matches), s.endD.isSome = true → (s.addAll ms).1.endD.isSome = true := by
      intro ms
      induction ms with
      | nil => intro s h; exact h
      | cons m ms ih =>
        intro s h
        unfold addAll
        have := addMatch_end h m
        cases ha : s.addMatch m with
        | mk s' e =>
          rw [ha] at this
          cases e with
          | none => exact ih s' this
          | some e => exact this
    exact this vs _ he

theorem addAll_one (s : Matches) (m : Match) : s.addAll [m] = s.addMatch m := by
  unfold addAll
  cases h : s.addMatch m with
  | mk s' e => cases e <;> rfl

theorem kept_addMatch {b : Bool} {s : Matches} (hg : GoodSeq b s) {l r : List Match} {m : Match} (hk : m.marker = b)
    (hp : (m :: s.delegate).Perm (r ++ l)) (hl : ∀ x ∈ l, x.marker = b) :
    (addMatch { s with delegate := l } m).2 = none ∧ KeptSeq b s (addMatch { s with delegate := l } m).1 := by
  have := kept_addAll hg (vs := [m]) (r := r) (l := l) (fun x hx => by rw [List.mem_singleton.1 hx]; exact hk) hp hl
  rwa [addAll_one] at this

theorem kept_insert {b : Bool} {s : Matches} (hg : GoodSeq b s) (i : Int) {m : Match} (hk : m.marker = b) :
    (s.insert i m).2 = none ∧ KeptSeq b s (s.insert i m).1 := by
  have hp := List.perm_insertIdx m s.delegate (clampIdx_le s.delegate.length i)
  refine kept_addMatch hg (r := []) hk hp.symm ?_
  intro x hx
  rcases List.mem_cons.1 (hp.subset hx) with rfl | h
  · exact hk
  · exact hg.kinds x h

theorem kept_extend {b : Bool} (ms : List Match) {s : Matches} (hg : GoodSeq b s) (hk : ∀ m ∈ ms, m.marker = b) :
    (s.extend ms).2 = none ∧ KeptSeq b s (s.extend ms).1 := by
  induction ms generalizing s with
  | nil => exact ⟨rfl, KeptSeq.refl hg⟩
  | cons m ms ih =>
    have h := kept_insert hg s.length (hk m List.mem_cons_self)
    unfold extend
    cases ha : s.append m with
    | mk s' e =>
      unfold append at ha
      rw [ha] at h
      obtain rfl : e = none := h.1
      simp only
      have := ih h.2.good (fun x hx => hk x (List.mem_cons_of_mem _ hx))
      exact ⟨this.1, h.2.trans this.2⟩

theorem set_perm {α} {l : List α} {k : Nat} {x : α} (hk : l[k]? = some x) (m : α) : (m :: l).Perm (x :: l.set k m) := by
  induction l generalizing k with
  | nil => simp at hk
  | cons a l ih =>
    cases k with
    | zero =>
      simp only [List.getElem?_cons_zero, Option.some.injEq] at hk
      subst hk
      exact List.Perm.swap _ _ _
    | succ k =>
      simp only [List.getElem?_cons_succ] at hk
      rw [List.set_cons_succ]
      exact (List.Perm.swap a m l).trans (((ih hk).cons a).trans (List.Perm.swap _ _ _))

theorem mem_set_or {α} {l : List α} {k : Nat} {m x : α} (h : x ∈ l.set k m) : x = m ∨ x ∈ l := by
  rcases List.mem_or_eq_of_mem_set h with h | h
  · exact Or.inr h
  · exact Or.inl h

theorem kept_setItem {b : Bool} {s : Matches} (hg : GoodSeq b s) {i : Int} {k : Nat} {m : Match} (hk : m.marker = b)
    (hn : normIdx s.delegate.length i = some k) : (s.setItem i m).2 = none ∧ KeptSeq b s (s.setItem i m).1 := by
  have hlt := normIdx_lt hn
  unfold setItem
  rw [hn]
  refine kept_addMatch hg (r := [s.delegate[k]]) hk (set_perm (List.getElem?_eq_getElem hlt) m) ?_
  intro x hx
  rcases mem_set_or hx with rfl | h
  · exact hk
  · exact hg.kinds x h

theorem kept_removeAll {b : Bool} {s : Matches} (hg : GoodSeq b s) {ms l : List Match} (hp : s.delegate.Perm (ms ++ l))
    (hs : s.endD.isSome = true ∨ ms.length ≤ 1) :
    (removeAll { s with delegate := l } ms).2 = none ∧ KeptSeq b s (removeAll { s with delegate := l } ms).1 := by
  have h := over_removeAll ms (s := { s with delegate := l }) (l := l) (hg.over.perm hp).delegate
    (by rcases hs with h | h
        · exact Or.inl h
        · exact Or.inr ⟨rfl, h⟩)
  have hd : (removeAll { s with delegate := l } ms).1.delegate = l := removeAll_delegate _ _
  have hm : ∀ (ms : List Match) (s : Matches), (s.removeAll ms).1.isMarkers = s.isMarkers ∧
      (s.endD.isSome = true → (s.removeAll ms).1.endD.isSome = true) := by
    intro ms
    induction ms with
    | nil => intro s; exact ⟨rfl, id⟩
    | cons m ms ih =>
      intro s
      unfold removeAll
      have h1 := (removeMatch_input s m).2
      have h2 : s.endD.isSome = true → (s.removeMatch m).1.endD.isSome = true := fun h => removeMatch_end h m
      cases ha : s.removeMatch m with
      | mk s' e =>
        rw [ha] at h1 h2
        cases e with
        | none => exact ⟨(ih s').1.trans h1, fun h => (ih s').2 (h2 h)⟩
        | some e => exact ⟨h1, h2⟩
  refine ⟨h.1, ⟨by rw [hd]; exact h.2, (hm ms _).1.trans hg.kind, ?_⟩, fun he => (hm ms { s with delegate := l }).2 he⟩
  rw [hd]
  intro x hx
  exact hg.kinds x (hp.symm.subset (List.mem_append_right _ hx))

theorem removeAll_one (s : Matches) (m : Match) : s.removeAll [m] = s.removeMatch m := by
  unfold removeAll
  cases h : s.removeMatch m with
  | mk s' e => cases e <;> rfl

theorem kept_delItem {b : Bool} {s : Matches} (hg : GoodSeq b s) {i : Int} {k : Nat} (hn : normIdx s.delegate.length i = some k) :
    (s.delItem i).2 = none ∧ KeptSeq b s (s.delItem i).1 := by
  have hlt := normIdx_lt hn
  have hm : s.delegate[k]? = some s.delegate[k] := List.getElem?_eq_getElem hlt
  have := kept_removeAll hg (ms := [s.delegate[k]]) (l := s.delegate.eraseIdx k) (getElem?_eraseIdx_perm hm) (Or.inr (by simp))
  rw [removeAll_one] at this
  unfold delItem
  simp only [hn, hm]
  exact this

theorem kept_pop {b : Bool} {s : Matches} (hg : GoodSeq b s) {i : Int} {k : Nat} (hn : normIdx s.delegate.length i = some k) :
    (∃ m, pyGet s.delegate i = some m ∧ (s.pop i).2 = .ok m) ∧ KeptSeq b s (s.pop i).1 ∧ (s.pop i).1.delegate = s.delegate.eraseIdx k := by
  have h := kept_delItem hg hn
  obtain ⟨h1, m, _, h2, h3⟩ := pop_of_norm s hn
  rw [h.1] at h3
  exact ⟨⟨m, h2, h3⟩, by rw [h1]; exact h.2, by rw [h1]; exact delItem_delegate s hn⟩

theorem kept_clearLoop {b : Bool} (n : Nat) {s : Matches} (hg : GoodSeq b s) (hn : s.delegate.length < n) :
    (clearLoop n s).2 = none ∧ KeptSeq b s (clearLoop n s).1 := by
  induction n generalizing s with
  | zero => omega
  | succ n ih =>
    unfold clearLoop
    by_cases h0 : s.delegate.length = 0
    · have hk : normIdx s.delegate.length (-1) = none := by rw [h0]; rfl
      rw [pop_none hk]
      exact ⟨rfl, KeptSeq.refl hg⟩
    · have hk : normIdx s.delegate.length (-1) = some (s.delegate.length - 1) := by
        unfold normIdx; rw [if_neg (by omega), if_pos (by omega)]; congr 1; omega
      obtain ⟨⟨m, _, hm⟩, hp, hd⟩ := kept_pop hg hk
      cases hpop : s.pop (-1) with
      | mk s' r =>
        rw [hpop] at hm hp hd
        simp only at hm hp hd
        subst hm
        simp only
        have := ih hp.good (by rw [hd, List.length_eraseIdx]; split <;> omega)
        exact ⟨this.1, hp.trans this.2⟩

theorem kept_swap {b : Bool} {s : Matches} (hg : GoodSeq b s) {i j : Nat} (hi : i < s.delegate.length) (hj : j < s.delegate.length) :
    (s.swapItems i j).2 = none ∧ KeptSeq b s (s.swapItems i j).1 := by
  unfold swapItems
  have gi : s.getItem (i : Int) = .ok s.delegate[i] := by
    unfold getItem; rw [pyGet_of_norm (normIdx_nat hi), List.getElem?_eq_getElem hi]
  have gj : s.getItem (j : Int) = .ok s.delegate[j] := by
    unfold getItem; rw [pyGet_of_norm (normIdx_nat hj), List.getElem?_eq_getElem hj]
  rw [gi, gj]
  simp only
  have h1 := kept_setItem hg (i := (i : Int)) (k := i) (m := s.delegate[j]) (hg.kinds _ (List.getElem_mem hj)) (normIdx_nat hi)
  have hd := setItem_nat_delegate s hi s.delegate[j]
  cases hs : s.setItem (i : Int) s.delegate[j] with
  | mk s' e =>
    rw [hs] at h1 hd
    simp only at hd
    obtain rfl : e = none := h1.1
    simp only
    have h2 := kept_setItem h1.2.good (i := (j : Int)) (k := j) (m := s.delegate[i]) (hg.kinds _ (List.getElem_mem hi))
      (normIdx_nat (by rw [hd, List.length_set]; exact hj))
    exact ⟨h2.1, h1.2.trans h2.2⟩

theorem kept_reverseLoop {b : Bool} (n : Nat) (is : List Nat) (his : ∀ i ∈ is, i < n) {s : Matches} (hg : GoodSeq b s) (hn : s.delegate.length = n) :
    (reverseLoop n is s).2 = none ∧ KeptSeq b s (reverseLoop n is s).1 := by
  induction is generalizing s with
  | nil => exact ⟨rfl, KeptSeq.refl hg⟩
  | cons i is ih =>
    have hi : i < n := his i List.mem_cons_self
    have hj : (n : Int) - i - 1 = ((n - i - 1 : Nat) : Int) := by omega
    unfold reverseLoop
    rw [hj]
    have hk := kept_swap hg (i := i) (j := n - i - 1) (by omega) (by omega)
    have hd := swapItems_delegate s (i := i) (j := n - i - 1) (by omega) (by omega) hk.1
    cases hs : s.swapItems (i : Int) ((n - i - 1 : Nat) : Int) with
    | mk s' e =>
      rw [hs] at hk hd
      obtain rfl : e = none := hk.1
      simp only at hd ⊢
      have := ih (fun x hx => his x (List.mem_cons_of_mem _ hx)) hk.2.good (by rw [hd, swapL_length]; exact hn)
      exact ⟨this.1, hk.2.trans this.2⟩

theorem kept_lookup {b : Bool} {s : Matches} (hg : GoodSeq b s) (op : Op) (hl : isLookup op = true) : KeptSeq b s (s.step op).1 := by
  have hs := step_lookup_sim s op hl
  refine ⟨⟨hg.over.sim hs, hs.markers.trans hg.kind, by rw [hs.delegate]; exact hg.kinds⟩, step_lookup_end s op hl⟩

end Rebulk
