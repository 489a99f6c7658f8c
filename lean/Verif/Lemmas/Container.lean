import Verif.Lemmas.Ordered
import Verif.Lemmas.Sort
/-!
# Helper lemmas for `Props/Container.lean`
-/
namespace Rebulk
open Matches Spec

/-- No index is built. -/
def Fresh (s : Matches) : Prop :=
  s.nameD = none ∧ s.tagD = none ∧ s.startD = none ∧ s.endD = none ∧ s.indexD = none

theorem fresh_add {s : Matches} {m : Match} {l : List Match} (h : Fresh s) (hb : ∀ x ∈ l, x.stop ≤ s.maxEnd ∨ x = m)
    (hn : 0 ≤ s.maxEnd) :
    let s' := (addMatch { s with delegate := l } m)
    (s'.2 = none → Fresh s'.1 ∧ (∀ x ∈ s'.1.delegate, x.stop ≤ s'.1.maxEnd) ∧ 0 ≤ s'.1.maxEnd ∧ s'.1.isMarkers = s.isMarkers)
      ∧ (m.marker = s.isMarkers → s'.2 = none) := by
  obtain ⟨h1, h2, h3, h4, h5⟩ := h
  simp only [addMatch]
  split
  · refine ⟨fun _ => ⟨?_, ?_, ?_, rfl⟩, fun _ => rfl⟩
    · simp [Fresh, addMatchBase, addTo, h1, h2, h3, h4, h5]
    · intro x hx
      simp only [addMatchBase] at hx ⊢
      rcases hb x hx with h | rfl <;> omega
    · simp only [addMatchBase]; omega
  · next hne =>
    constructor
    · intro h; cases h
    · intro h; simp [h] at hne

/-- The part of the invariant that matters while no index is built. -/
structure FreshInv (b : Bool) (s : Matches) : Prop where
  fresh : Fresh s
  bound : ∀ x ∈ s.delegate, x.stop ≤ s.maxEnd
  nonneg : 0 ≤ s.maxEnd
  kind : s.isMarkers = b
  kinds : ∀ x ∈ s.delegate, x.marker = b

theorem freshInv_addMatch {b : Bool} {s : Matches} (h : FreshInv b s) {m : Match} (hm : m.marker = b) {l : List Match}
    (hl : ∀ x ∈ l, x ∈ s.delegate ∨ x = m) :
    (addMatch { s with delegate := l } m).2 = none ∧ FreshInv b (addMatch { s with delegate := l } m).1 := by
  have := fresh_add (l := l) (m := m) h.fresh (fun x hx => (hl x hx).imp (h.bound x) id) h.nonneg
  have h0 := this.2 (hm.trans h.kind.symm)
  have h1 := this.1 h0
  refine ⟨h0, ⟨h1.1, h1.2.1, h1.2.2.1, h1.2.2.2.trans h.kind, ?_⟩⟩
  have hd : (addMatch { s with delegate := l } m).1.delegate = l := by
    unfold addMatch; split <;> rfl
  rw [hd]
  intro x hx
  rcases hl x hx with h' | rfl
  · exact h.kinds x h'
  · exact hm

theorem freshInv_insert {b : Bool} {s : Matches} (h : FreshInv b s) {m : Match} (hm : m.marker = b) (i : Int) :
    (s.insert i m).2 = none ∧ FreshInv b (s.insert i m).1 := by
  apply freshInv_addMatch h hm
  intro x hx
  have := (List.perm_insertIdx m s.delegate (clampIdx_le s.delegate.length i)).subset hx
  rcases List.mem_cons.1 this with rfl | h'
  · exact Or.inr rfl
  · exact Or.inl h'

theorem freshInv_setItem {b : Bool} {s : Matches} (h : FreshInv b s) {m : Match} (hm : m.marker = b) (i : Int) :
    FreshInv b (s.setItem i m).1 := by
  unfold setItem
  split
  · exact h
  · refine (freshInv_addMatch h hm ?_).2
    intro x hx
    rcases List.mem_or_eq_of_mem_set hx with h' | rfl
    · exact Or.inl h'
    · exact Or.inr rfl

theorem mem_of_pyGet {α} {l : List α} {i : Int} {x : α} (h : pyGet l i = some x) : x ∈ l := by
  unfold pyGet at h
  split at h
  · exact List.mem_of_getElem? h
  · cases h

theorem freshInv_swap {b : Bool} {s : Matches} (h : FreshInv b s) (i j : Int) : FreshInv b (s.swapItems i j).1 := by
  unfold swapItems getItem
  cases hj : pyGet s.delegate j with
  | none => exact h
  | some mj =>
    cases hi : pyGet s.delegate i with
    | none => exact h
    | some mi =>
      simp only
      have h1 := freshInv_setItem h (h.kinds mj (mem_of_pyGet hj)) i
      cases hs : s.setItem i mj with
      | mk s' e =>
        rw [hs] at h1
        cases e with
        | none => exact freshInv_setItem h1 (h.kinds mi (mem_of_pyGet hi)) j
        | some e => exact h1

theorem freshInv_reverse {b : Bool} {s : Matches} (h : FreshInv b s) : FreshInv b s.reverse.1 := by
  unfold Matches.reverse
  generalize s.length = n
  generalize List.range (n / 2) = is
  induction is generalizing s with
  | nil => exact h
  | cons i is ih =>
    unfold reverseLoop
    have hsw := freshInv_swap h (i : Int) ((n : Int) - i - 1)
    cases hs : s.swapItems (i : Int) ((n : Int) - i - 1) with
    | mk s' e =>
      rw [hs] at hsw
      cases e with
      | none => exact ih hsw
      | some e => exact hsw

theorem freshInv_extend {b : Bool} {s : Matches} (h : FreshInv b s) (ms : List Match) (hm : ∀ m ∈ ms, m.marker = b) :
    FreshInv b (s.extend ms).1 := by
  induction ms generalizing s with
  | nil => exact h
  | cons m ms ih =>
    have := freshInv_insert h (hm m List.mem_cons_self) s.length
    unfold extend append
    cases ha : s.insert (s.length : Int) m with
    | mk s' e =>
      rw [ha] at this
      obtain rfl : e = none := this.1
      exact ih this.2 (fun x hx => hm x (List.mem_cons_of_mem _ hx))

theorem freshInv_step {b : Bool} {s : Matches} (h : FreshInv b s) (op : Op) (hop : Spec.isBlind op = true) (hf : Fits b op) :
    FreshInv b (s.step op).1 := by
  cases op with
  | append m => exact (freshInv_insert h (hf m (by simp [added])) _).2
  | insert i m => exact (freshInv_insert h (hf m (by simp [added])) i).2
  | extend ms => exact freshInv_extend h ms hf
  | setItem i m => exact freshInv_setItem h (hf m (by simp [added])) i
  | reverse => exact freshInv_reverse h
  | remove | pop | delItem | clear | delSlice | named | tagged | starting | ending | atIndex | names | tags | previous | next
  | conflicting | atSpan | chainBefore | chainAfter | holes => cases hop

theorem freshInv_run {b : Bool} {s : Matches} (h : FreshInv b s) (ops : List Op)
    (hops : ∀ op ∈ ops, Spec.isBlind op = true ∧ Fits b op) : FreshInv b (s.runOps ops) := by
  induction ops generalizing s with
  | nil => exact h
  | cons op ops ih =>
    have := hops op List.mem_cons_self
    exact ih (freshInv_step h op this.1 this.2) (fun o ho => hops o (List.mem_cons_of_mem _ ho))

theorem mem_keys_of_getList_ne {κ α} [DecidableEq κ] (d : Dict κ (List α)) (k : κ) (h : d.getList k ≠ []) : k ∈ d.keys := by
  rw [← Dict.get?_isSome_iff]
  unfold Dict.getList at h
  cases hg : d.get? k with
  | none => rw [hg] at h; exact absurd rfl h
  | some v => rfl

theorem mem_names_build (l : List Match) (n : String) : n ∈ (buildName l).keys ↔ n ≠ "" ∧ ∃ m ∈ l, m.name = some n := by
  have aux : ∀ (g : List (String × List Match)) (d : Index String),
      n ∈ Dict.keys (g.foldl (fun d kv => d.extend kv.1 kv.2) d) ↔ n ∈ d.keys ∨ n ∈ g.map Prod.fst := by
    intro g
    induction g with
    | nil => simp
    | cons kv g ih =>
      intro d
      rw [List.foldl_cons, ih, Dict.mem_keys_extend, List.map_cons, List.mem_cons]
      constructor
      · rintro ((h | h) | h)
        · exact Or.inr (Or.inl h)
        · exact Or.inl h
        · exact Or.inr (Or.inr h)
      · rintro (h | h | h)
        · exact Or.inl (Or.inr h)
        · exact Or.inl (Or.inl h)
        · exact Or.inr h
  have gk : ∀ (l : List Match), n ∈ (groupBy (fun m : Match => m.name.getD "") l).map Prod.fst ↔ n ∈ l.map (fun m => m.name.getD "") := by
    intro l
    induction l with
    | nil => simp [groupBy]
    | cons x xs ih =>
      rw [groupBy, List.map_cons, List.mem_cons, ← ih]
      cases groupBy (fun m : Match => m.name.getD "") xs with
      | nil => simp [groupCons]
      | cons kg r =>
        obtain ⟨k0, g⟩ := kg
        simp only [groupCons, beq_iff_eq]
        by_cases hx : x.name.getD "" = k0
        · subst hx; simp
        · simp [hx]
  unfold buildName buildGroups
  rw [aux, gk]
  simp only [Dict.keys, List.map_nil, List.not_mem_nil, false_or, List.mem_map, List.mem_filter]
  constructor
  · rintro ⟨m, ⟨hm, hs⟩, rfl⟩
    unfold Match.nameKey at hs
    cases hn : m.name with
    | none => rw [hn] at hs; cases hs
    | some k =>
      rw [hn] at hs
      simp only at hs
      refine ⟨?_, m, hm, by simp [hn]⟩
      intro hc
      simp only [Option.getD_some] at hc
      subst hc
      simp at hs
  · rintro ⟨h0, m, hm, hn⟩
    refine ⟨m, ⟨hm, ?_⟩, by simp [hn]⟩
    simp [Match.nameKey, hn, h0]

/-- `_max_end` is 0 or the end of a contained match. -/
def Tight (s : Matches) : Prop := s.maxEnd = 0 ∨ ∃ m ∈ s.delegate, m.stop = s.maxEnd

theorem tight_insert {s : Matches} (h : Tight s) (hn : 0 ≤ s.maxEnd) (i : Int) (m : Match) (hm : m.marker = s.isMarkers) :
    Tight (s.insert i m).1 ∧ 0 ≤ (s.insert i m).1.maxEnd := by
  have hp := List.perm_insertIdx m s.delegate (clampIdx_le s.delegate.length i)
  unfold Matches.insert addMatch Tight
  simp only [hm, beq_self_eq_true, if_true, addMatchBase]
  refine ⟨?_, by omega⟩
  by_cases hc : s.maxEnd ≤ m.stop
  · right
    exact ⟨m, hp.symm.subset List.mem_cons_self, by omega⟩
  · rcases h with h | ⟨x, hx, hx'⟩
    · left; omega
    · right
      exact ⟨x, hp.symm.subset (List.mem_cons_of_mem _ hx), by omega⟩

theorem tight_extend {s : Matches} (h : Tight s) (hn : 0 ≤ s.maxEnd) (ms : List Match) (hm : ∀ m ∈ ms, m.marker = s.isMarkers) :
    Tight (s.extend ms).1 ∧ 0 ≤ (s.extend ms).1.maxEnd := by
  induction ms generalizing s with
  | nil => exact ⟨h, hn⟩
  | cons m ms ih =>
    have h1 := tight_insert h hn s.length m (hm m List.mem_cons_self)
    have hst := insert_static s s.length m
    unfold extend append
    cases ha : s.insert (s.length : Int) m with
    | mk s' e =>
      rw [ha] at h1 hst
      cases e with
      | none => exact ih h1.1 h1.2 (fun x hx => by rw [hst.1]; exact hm x (List.mem_cons_of_mem _ hx))
      | some e => exact h1

theorem inv_removePending {s : Matches} {l r : List Match} (m : Match) (hi : Inv { s with delegate := l })
    (hp : l.Perm (m :: r)) (he : s.endD.isSome = true) :
    (s.removeMatch m).2 = none ∧ Inv { (s.removeMatch m).1 with delegate := r } ∧ (s.removeMatch m).1.delegate = s.delegate ∧
      (s.removeMatch m).1.endD.isSome = true := by
  have hn := CohO_remove m (CohO_perm hp hi.name)
  have ht := CohO_remove m (CohO_perm hp hi.tag)
  have hs := CohO_remove m (CohO_perm hp hi.start)
  have he' := CohO_remove m (CohO_perm hp hi.stop)
  have hx := CohO_remove m (CohO_perm hp hi.index)
  simp only at hn ht hs he' hx
  obtain ⟨d0, hd0⟩ := Option.isSome_iff_exists.1 he
  have hsome : ∃ d1, (removeFrom s.endD (endKeys m) m).1 = some d1 := by rw [hd0]; exact ⟨_, rfl⟩
  obtain ⟨d1, hd1⟩ := hsome
  have hcoh1 : Coh endKeys d1 r := he'.2 d1 hd1
  have hb : ∀ x ∈ r, x.stop ≤ s.maxEnd := fun x h => hi.bound x (hp.symm.subset (List.mem_cons_of_mem _ h))
  have hnn : 0 ≤ s.maxEnd := hi.nonneg
  unfold removeMatch
  simp only [hn.1, ht.1, hs.1, he'.1, hx.1, Bool.not_true, Bool.false_eq_true, if_false]
  refine ⟨trivial, ?_, ?_, ?_⟩
  · unfold shrinkMaxEnd
    simp only [endDict, hd1, Option.getD_some]
    have hc : CohO endKeys (some (d1.touch m.stop)) r := by intro d' hd; cases hd; exact Coh_touch _ hcoh1
    split
    · split
      · have hm : m.stop ≤ maxKey (d1.touch m.stop).keys := le_maxKey (Dict.mem_keys_touch _ _)
        refine ⟨hn.2, ht.2, hs.2, hc, hx.2, ?_, ?_⟩
        · intro x hx; have := hb x hx; simp only; omega
        · simp only; omega
      · exact ⟨hn.2, ht.2, hs.2, hc, hx.2, hb, hnn⟩
    · refine ⟨hn.2, ht.2, hs.2, ?_, hx.2, hb, hnn⟩
      simp only
      intro d' hd; cases hd; exact hcoh1
  · unfold shrinkMaxEnd; simp only; split
    · split <;> rfl
    · rfl
  · unfold shrinkMaxEnd; simp only; split
    · split <;> rfl
    · simp only [hd1, Option.isSome_some]

theorem inv_removeAll (ms : List Match) {s : Matches} {l : List Match} (hi : Inv { s with delegate := l })
    (hp : l.Perm (ms ++ s.delegate)) (he : s.endD.isSome = true) :
    (s.removeAll ms).2 = none ∧ Inv (s.removeAll ms).1 ∧ (s.removeAll ms).1.delegate = s.delegate := by
  induction ms generalizing s l with
  | nil =>
    refine ⟨rfl, ?_, rfl⟩
    have hp' : l.Perm s.delegate := by simpa using hp
    refine ⟨CohO_perm hp' hi.name, CohO_perm hp' hi.tag, CohO_perm hp' hi.start, CohO_perm hp' hi.stop, CohO_perm hp' hi.index, ?_,
      hi.nonneg⟩
    intro x hx; exact hi.bound x (hp'.symm.subset hx)
  | cons m ms ih =>
    have h := inv_removePending m hi hp he
    unfold removeAll
    cases hr : s.removeMatch m with
    | mk s' e =>
      rw [hr] at h
      obtain rfl : e = none := h.1
      simp only
      have := ih (s := s') (l := ms ++ s.delegate) h.2.1 (by rw [h.2.2.1]) h.2.2.2
      exact ⟨this.1, this.2.1, this.2.2.trans h.2.2.1⟩

end Rebulk
