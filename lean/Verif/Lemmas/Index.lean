import Verif.Lemmas.Py
import Verif.Model.Matches
/-!
# Lemmas on the index dictionaries
-/
namespace Rebulk
open Matches

variable {κ : Type} [DecidableEq κ]

/-- What an index should hold under `k`: every match, in order, as many times as `k` is one of its keys. -/
def filed (keysOf : Match → List κ) (l : List Match) (k : κ) : List Match :=
  l.flatMap (fun m => List.replicate ((keysOf m).count k) m)

theorem filed_nil (keysOf : Match → List κ) (k : κ) : filed keysOf [] k = [] := rfl

theorem filed_cons (keysOf : Match → List κ) (m : Match) (l : List Match) (k : κ) :
    filed keysOf (m :: l) k = List.replicate ((keysOf m).count k) m ++ filed keysOf l k := by simp [filed]

theorem filed_append (keysOf : Match → List κ) (l1 l2 : List Match) (k : κ) :
    filed keysOf (l1 ++ l2) k = filed keysOf l1 k ++ filed keysOf l2 k := by simp [filed]

theorem filed_of_nodup (keysOf : Match → List κ) (l : List Match) (k : κ) (h : ∀ m ∈ l, (keysOf m).Nodup) :
    filed keysOf l k = l.filter (fun m => decide (k ∈ keysOf m)) := by
  induction l with
  | nil => rfl
  | cons m l ih =>
    rw [filed_cons, ih (fun x hx => h x (List.mem_cons_of_mem _ hx)), List.filter_cons]
    have hn := h m List.mem_cons_self
    by_cases hk : k ∈ keysOf m
    · simp [hk, hn.count]
    · simp [hk, List.count_eq_zero_of_not_mem hk]

/-! ## Construction -/

theorem addKeys_getList (m : Match) (keys : List κ) (d : Index κ) (k : κ) :
    Dict.getList (keys.foldl (fun d k => d.append k m) d) k = d.getList k ++ List.replicate (keys.count k) m := by
  induction keys generalizing d with
  | nil => simp
  | cons k0 ks ih =>
    rw [List.foldl_cons, ih, Dict.getList_append, List.count_cons]
    by_cases h : k0 = k
    · subst h
      simp [List.replicate_succ, List.append_assoc]
    · simp [h]

theorem foldl_addKeys_getList (keysOf : Match → List κ) (l : List Match) (d : Index κ) (k : κ) :
    Dict.getList (l.foldl (fun d m => (keysOf m).foldl (fun d k => d.append k m) d) d) k =
      d.getList k ++ filed keysOf l k := by
  induction l generalizing d with
  | nil => simp [filed]
  | cons m l ih => rw [List.foldl_cons, ih, addKeys_getList, filed_cons, List.append_assoc]

theorem buildEach_getList (keysOf : Match → List κ) (l : List Match) (k : κ) :
    (buildEach keysOf l).getList k = filed keysOf l k := by
  unfold buildEach
  rw [foldl_addKeys_getList]
  simp [Dict.getList, Dict.get?]

theorem foldl_extend_getList (g : List (κ × List Match)) (d : Index κ) (k : κ) :
    Dict.getList (g.foldl (fun d kv => d.extend kv.1 kv.2) d) k =
      d.getList k ++ (g.filter (fun kv => decide (kv.1 = k))).flatMap Prod.snd := by
  induction g generalizing d with
  | nil => simp
  | cons kv g ih =>
    rw [List.foldl_cons, ih, Dict.getList_extend, List.filter_cons]
    by_cases h : kv.1 = k
    · simp [h]
    · simp [h]

theorem groupBy_filter {α} (key : α → κ) (l : List α) (k : κ) :
    ((groupBy key l).filter (fun kv => decide (kv.1 = k))).flatMap Prod.snd = l.filter (fun x => decide (key x = k)) := by
  induction l with
  | nil => rfl
  | cons x xs ih =>
    rw [groupBy, List.filter_cons, ← ih]
    generalize groupBy key xs = g
    cases g with
    | nil => by_cases h : key x = k <;> simp [groupCons, h]
    | cons kg r =>
      obtain ⟨k0, g⟩ := kg
      simp only [groupCons, beq_iff_eq]
      by_cases h : key x = k0
      · subst h
        by_cases h' : key x = k <;> simp [h']
      · simp only [h, if_false]
        by_cases h' : key x = k
        · subst h'
          have : ¬ k0 = key x := fun e => h e.symm
          simp [this]
        · by_cases h2 : k0 = k <;> simp [h', h2]

theorem buildGroups_getList (key : Match → κ) (l : List Match) (k : κ) :
    (buildGroups key l).getList k = l.filter (fun x => decide (key x = k)) := by
  unfold buildGroups
  rw [foldl_extend_getList, groupBy_filter]
  simp [Dict.getList, Dict.get?]

theorem nameKeys_eq (m : Match) : nameKeys m = if m.nameKey.isSome then [m.name.getD ""] else [] := by
  unfold nameKeys Match.nameKey
  cases m.name with
  | none => rfl
  | some n => simp only; split <;> simp

theorem buildName_getList (l : List Match) (k : String) : (buildName l).getList k = filed nameKeys l k := by
  rw [buildName, buildGroups_getList, filed_of_nodup]
  · rw [List.filter_filter]
    apply List.filter_congr
    intro m _
    rw [nameKeys_eq]
    cases m.nameKey.isSome <;> simp [eq_comm]
  · intro m _; unfold nameKeys; cases m.nameKey <;> simp

theorem buildStart_getList (l : List Match) (k : Int) : (buildStart l).getList k = filed startKeys l k := by
  rw [buildStart, buildGroups_getList, filed_of_nodup]
  · apply List.filter_congr; intro m _; simp [startKeys, eq_comm]
  · intro m _; simp [startKeys]

theorem buildEnd_getList (l : List Match) (k : Int) : (buildEnd l).getList k = filed endKeys l k := by
  rw [buildEnd, buildGroups_getList, filed_of_nodup]
  · apply List.filter_congr; intro m _; simp [endKeys, eq_comm]
  · intro m _; simp [endKeys]

theorem buildTag_getList (l : List Match) (k : String) : (buildTag l).getList k = filed tagKeys l k :=
  buildEach_getList _ _ _

theorem buildIndex_getList (l : List Match) (k : Int) : (buildIndex l).getList k = filed indexKeys l k :=
  buildEach_getList _ _ _

/-! ## Coherence up to `==` -/

/-- The index holds, under every key, the matches of `l` having this key, up to `==` and order. -/
def Coh (keysOf : Match → List κ) (d : Index κ) (l : List Match) : Prop :=
  ∀ k, ((d.getList k).map Match.eqKey).Perm ((filed keysOf l k).map Match.eqKey)

/-- Coherence of an index that may not be built. -/
def CohO (keysOf : Match → List κ) (d : Option (Index κ)) (l : List Match) : Prop :=
  ∀ d', d = some d' → Coh keysOf d' l

theorem CohO_none (keysOf : Match → List κ) (l : List Match) : CohO keysOf none l := by intro d h; cases h

theorem Coh_touch {keysOf : Match → List κ} {d : Index κ} {l : List Match} (k : κ) (h : Coh keysOf d l) :
    Coh keysOf (d.touch k) l := by intro k'; rw [Dict.getList_touch]; exact h k'

theorem filed_perm (keysOf : Match → List κ) {l l' : List Match} (h : l.Perm l') (k : κ) :
    (filed keysOf l k).Perm (filed keysOf l' k) := List.Perm.flatMap_right _ h

theorem Coh_perm {keysOf : Match → List κ} {d : Index κ} {l l' : List Match} (h : l.Perm l') (hc : Coh keysOf d l) :
    Coh keysOf d l' := fun k => (hc k).trans ((filed_perm keysOf h k).map _)

theorem Coh_add {keysOf : Match → List κ} {d : Index κ} {l : List Match} (m : Match) (h : Coh keysOf d l) :
    Coh keysOf ((keysOf m).foldl (fun d k => d.append k m) d) (m :: l) := by
  intro k
  rw [addKeys_getList, filed_cons, List.map_append, List.map_append]
  exact List.perm_append_comm.trans (List.Perm.append_left _ (h k))

theorem CohO_add {keysOf : Match → List κ} {d : Option (Index κ)} {l : List Match} (m : Match) (h : CohO keysOf d l) :
    CohO keysOf (addTo d (keysOf m) m) (m :: l) := by
  intro d' hd
  obtain ⟨d0, h0, rfl⟩ := Option.map_eq_some_iff.1 hd
  exact Coh_add m (h d0 h0)

theorem CohO_perm {keysOf : Match → List κ} {d : Option (Index κ)} {l l' : List Match} (h : l.Perm l')
    (hc : CohO keysOf d l) : CohO keysOf d l' := fun d' hd => Coh_perm h (hc d' hd)

theorem removeKeys_coh (m : Match) (keys : List κ) (d : Index κ) (R : κ → List Match.EqKey)
    (h : ∀ k, ((d.getList k).map Match.eqKey).Perm (List.replicate (keys.count k) m.eqKey ++ R k)) :
    (removeKeys m keys d).2 = true ∧ ∀ k, (((removeKeys m keys d).1.getList k).map Match.eqKey).Perm (R k) := by
  induction keys generalizing d with
  | nil => exact ⟨rfl, by simpa [removeKeys] using h⟩
  | cons k0 ks ih =>
    simp only [removeKeys]
    have hfun : (fun x : Match => x.eqv m) = fun x => decide (x.eqKey = m.eqKey) := by
      funext x; exact Match.eqv_eq_decide x m
    have hmap := removeFirst_map Match.eqKey m.eqKey (d.getList k0)
    rw [← hfun] at hmap
    have hk0 := h k0
    rw [List.count_cons_self, List.replicate_succ, List.cons_append] at hk0
    have hmem : m.eqKey ∈ (d.getList k0).map Match.eqKey := hk0.symm.subset List.mem_cons_self
    rw [if_pos hmem] at hmap
    obtain ⟨l', hl', hl'm⟩ := Option.map_eq_some_iff.1 hmap
    rw [hl']
    simp only
    apply ih
    intro k
    rw [Dict.getList_set]
    by_cases hk : k0 = k
    · subst hk
      rw [if_pos rfl, hl'm]
      have := hk0.erase m.eqKey
      rwa [List.erase_cons_head] at this
    · rw [if_neg hk]
      have := h k
      rwa [List.count_cons_of_ne (by simpa using hk)] at this

theorem CohO_remove {keysOf : Match → List κ} {d : Option (Index κ)} {l : List Match} (m : Match)
    (h : CohO keysOf d (m :: l)) :
    (removeFrom d (keysOf m) m).2 = true ∧ CohO keysOf (removeFrom d (keysOf m) m).1 l := by
  cases d with
  | none => exact ⟨rfl, CohO_none _ _⟩
  | some d =>
    have hd := h d rfl
    have := removeKeys_coh m (keysOf m) d (fun k => (filed keysOf l k).map Match.eqKey) (by
      intro k
      have := hd k
      rwa [filed_cons, List.map_append, List.map_replicate] at this)
    refine ⟨this.1, ?_⟩
    intro d' hd'
    simp only [removeFrom, Option.some.injEq] at hd'
    subst hd'
    exact this.2

end Rebulk
