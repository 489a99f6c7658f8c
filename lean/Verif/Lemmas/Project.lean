import Verif.Lemmas.Py
import Verif.Lemmas.Sort
import Verif.Lemmas.Container
import Verif.Spec.Project
namespace Rebulk
open Spec

theorem distinctFrom_snoc {α : Type} (eq : α → α → Bool) (seen l : List α) (x : α) :
    distinctFrom eq seen (l ++ [x]) =
      distinctFrom eq seen l ++ (if (seen ++ distinctFrom eq seen l).any (fun y => eq y x) then [] else [x]) := by
  induction l generalizing seen with
  | nil => simp [distinctFrom]
  | cons a l ih =>
    by_cases h : seen.any (fun y => eq y a) = true
    · simp only [List.cons_append, distinctFrom, if_pos h, ih]
    · simp only [List.cons_append, distinctFrom, if_neg h, ih]
      simp [Bool.or_assoc]

theorem distinct_snoc {α : Type} (eq : α → α → Bool) (l : List α) (x : α) :
    distinct eq (l ++ [x]) = distinct eq l ++ (if (distinct eq l).any (fun y => eq y x) then [] else [x]) := by
  unfold distinct
  rw [distinctFrom_snoc]
  simp

theorem mem_distinctFrom {α : Type} [DecidableEq α] (seen l : List α) (x : α) :
    (x ∈ distinctFrom (fun a b => decide (a = b)) seen l ↔ x ∈ l ∧ x ∉ seen) := by
  induction l generalizing seen with
  | nil => simp [distinctFrom]
  | cons a l ih =>
    simp only [distinctFrom]
    by_cases h : a ∈ seen
    · rw [if_pos (by simpa using h), ih]
      constructor
      · rintro ⟨h1, h2⟩; exact ⟨List.mem_cons_of_mem _ h1, h2⟩
      · rintro ⟨h1, h2⟩
        rcases List.mem_cons.1 h1 with rfl | h1
        · exact absurd h h2
        · exact ⟨h1, h2⟩
    · rw [if_neg (by simpa using h), List.mem_cons, ih]
      simp only [List.mem_append, List.mem_singleton, not_or, List.mem_cons]
      by_cases hx : x = a
      · subst hx; simp [h]
      · simp [hx]

theorem mem_namesIn (l : List Match) (n : Option String) : n ∈ namesIn l ↔ ∃ m ∈ l, m.name = n := by
  unfold namesIn distinct
  rw [mem_distinctFrom]
  simp

theorem namesIn_snoc (l : List Match) (m : Match) :
    namesIn (l ++ [m]) = namesIn l ++ (if m.name ∈ namesIn l then [] else [m.name]) := by
  unfold namesIn
  rw [List.map_append, List.map_singleton, distinct_snoc]
  congr 1
  simp

theorem withName_snoc (l : List Match) (m : Match) (n : Option String) :
    withName (l ++ [m]) n = withName l n ++ (if m.name = n then [m] else []) := by
  unfold withName
  rw [List.filter_append]
  congr 1
  by_cases h : m.name = n <;> simp [h]

theorem shownFor_snoc (d : Bool) (l : List Match) (m : Match) (n : Option String) :
    shownFor d (l ++ [m]) n = shownFor d l n ++
      (if m.name = n ∧ (shownFor d l n).any (fun y => shownEq y (shown d m)) = false then [shown d m] else []) := by
  unfold shownFor
  rw [withName_snoc]
  by_cases h : m.name = n
  · simp only [h, if_true, List.map_append, List.map_singleton, distinct_snoc, true_and]
    congr 1
    by_cases h2 : (distinct shownEq ((withName l n).map (shown d))).any (fun y => shownEq y (shown d m)) = true
    · rw [if_pos h2, if_neg (by simp [h2])]
    · rw [if_neg h2, if_pos (by simpa using h2)]
  · simp [h]

theorem distinctFrom_subset {α : Type} (eq : α → α → Bool) (seen l : List α) (x : α) (h : x ∈ distinctFrom eq seen l) : x ∈ l := by
  induction l generalizing seen with
  | nil => simp [distinctFrom] at h
  | cons a l ih =>
    simp only [distinctFrom] at h
    split at h
    · exact List.mem_cons_of_mem _ (ih _ h)
    · rcases List.mem_cons.1 h with rfl | h
      · exact List.mem_cons_self
      · exact List.mem_cons_of_mem _ (ih _ h)

theorem shownFor_form (d : Bool) (l : List Match) (n : Option String) (x : DV) (h : x ∈ shownFor d l n) :
    ∃ m ∈ l, m.name = n ∧ x = shown d m := by
  have := distinctFrom_subset _ _ _ _ h
  rw [List.mem_map] at this
  obtain ⟨m, hm, rfl⟩ := this
  unfold withName at hm
  rw [List.mem_filter] at hm
  exact ⟨m, hm.1, by simpa using hm.2, rfl⟩

theorem eqIn_shown (h : ListHeap) (d d' : Bool) (a b : Match) : DV.eqIn h (shown d a) (shown d' b) = shownEq (shown d a) (shown d' b) := by
  cases d <;> cases d' <;> rfl

theorem elem_shownFor (h : ListHeap) (d : Bool) (l : List Match) (n : Option String) (m : Match) :
    DV.elem h (shown d m) (shownFor d l n) = (shownFor d l n).any (fun y => shownEq y (shown d m)) := by
  unfold DV.elem
  rw [Bool.eq_iff_iff, List.any_eq_true, List.any_eq_true]
  constructor
  all_goals
    rintro ⟨x, hx, he⟩
    obtain ⟨m', _, _, rfl⟩ := shownFor_form d l n x hx
    refine ⟨_, hx, ?_⟩
    first | rwa [← eqIn_shown h] | rwa [eqIn_shown h]

theorem shownFor_eq_nil (d : Bool) (l : List Match) (n : Option String) : shownFor d l n = [] ↔ n ∉ namesIn l := by
  rw [mem_namesIn]
  constructor
  · intro h ⟨m, hm, hn⟩
    have : withName l n ≠ [] := by
      intro hc
      have : m ∈ withName l n := by unfold withName; rw [List.mem_filter]; exact ⟨hm, by simpa using hn⟩
      rw [hc] at this
      cases this
    unfold shownFor distinct at h
    cases hw : withName l n with
    | nil => exact this hw
    | cons a t => rw [hw] at h; simp [distinctFrom] at h
  · intro h
    cases hs : shownFor d l n with
    | nil => rfl
    | cons x t =>
      obtain ⟨m, h1, h2, _⟩ := shownFor_form d l n x (by rw [hs]; exact List.mem_cons_self)
      exact absurd ⟨m, h1, h2⟩ h

/-- The values shown are no lists. -/
def PlainValues (addr : Match → Option Nat) (details : Bool) (l : List Match) : Prop :=
  details = true ∨ ∀ m ∈ l, addr m = none ∧ m.value.isList = false

structure DictInv (h : ListHeap) (details firstValue enforceList : Bool) (p : List Match) (s : MDict) : Prop where
  heap : s.heap = h
  keys : s.ret.keys = namesIn p
  ret : ∀ n, s.ret.get? n = expectedEntry firstValue enforceList (shownFor details p n)
  mkeys : s.matchesD.keys = namesIn p
  mat : ∀ n, s.matchesD.getList n = withName p n
  vkeys : s.valuesList.keys = if enforceList then [] else namesIn p
  vals : ∀ n, s.valuesList.getList n = if enforceList then [] else shownFor details p n

theorem dictInv_step {h : ListHeap} {addr : Match → Option Nat} {d fv el : Bool} {p : List Match} {s : MDict} (m : Match)
    (hm : d = true ∨ (addr m = none ∧ m.value.isList = false))
    (hi : DictInv h d fv el p s) : DictInv h d fv el (p ++ [m]) (toDictStep addr d fv el s m) := by
  have hd : (if d then DV.mtch m else m.valueIn s.heap addr) = shown d m := by
    rcases hm with rfl | ⟨h1, _⟩
    · rfl
    · simp [shown, Match.valueIn, h1]
  have hmk : ∀ el, mkEntry el (shown d m) = if el then .own [shown d m] else .one (shown d m) := by
    intro el
    rcases hm with rfl | ⟨_, h2⟩
    · rfl
    · cases d
      · simp only [shown, Bool.false_eq_true, if_false]
        cases hv : m.value <;> simp_all [mkEntry, Val.isList]
      · rfl
  unfold toDictStep
  simp only [hd]
  -- the intermediate state after `.matches` and `.values_list`
  have h1 : DictInv h d fv el p s := hi
  generalize hs1 : ({ s with matchesD := s.matchesD.append m.name m } : MDict) = s1
  have hs1r : s1.ret = s.ret := by rw [← hs1]
  have hs1h : s1.heap = s.heap := by rw [← hs1]
  have hs1v : s1.valuesList = s.valuesList := by rw [← hs1]
  have hs1m : s1.matchesD = s.matchesD.append m.name m := by rw [← hs1]
  generalize hs2 : addValuesList el s1 m.name (shown d m) = s2
  have hs2r : s2.ret = s.ret := by rw [← hs2, ← hs1r]; unfold addValuesList; split <;> (try simp only) <;> (try split) <;> rfl
  have hs2h : s2.heap = s.heap := by rw [← hs2, ← hs1h]; unfold addValuesList; split <;> (try simp only) <;> (try split) <;> rfl
  have hs2m : s2.matchesD = s.matchesD.append m.name m := by
    rw [← hs2, ← hs1m]; unfold addValuesList; split <;> (try simp only) <;> (try split) <;> rfl
  have hs2v : (s2.valuesList.keys = if el then [] else namesIn (p ++ [m])) ∧
      ∀ n, s2.valuesList.getList n = if el then [] else shownFor d (p ++ [m]) n := by
    rw [← hs2]
    unfold addValuesList
    cases el with
    | true =>
      simp only [if_true]
      rw [hs1v]
      exact ⟨by simpa using hi.vkeys, fun n => by simpa using hi.vals n⟩
    | false =>
      simp only [Bool.false_eq_true, if_false]
      have hvk : s.valuesList.keys = namesIn p := by simpa using hi.vkeys
      have hvl : ∀ n, s.valuesList.getList n = shownFor d p n := fun n => by simpa using hi.vals n
      have hvt : ∀ n, (s1.valuesList.touch m.name).getList n = shownFor d p n := by
        intro n; rw [Dict.getList_touch, hs1v, hvl]
      have hkt : (s1.valuesList.touch m.name).keys = namesIn (p ++ [m]) := by
        rw [hs1v, namesIn_snoc]
        unfold Dict.touch
        by_cases hc : m.name ∈ namesIn p
        · rw [if_pos (by rw [Dict.contains_iff, hvk]; exact hc), if_pos hc, hvk]; simp
        · rw [if_neg (by rw [Dict.contains_iff, hvk]; exact hc), if_neg hc, Dict.keys_set, if_neg (by rw [hvk]; exact hc), hvk]
      have hin : m.name ∈ namesIn (p ++ [m]) := by rw [mem_namesIn]; exact ⟨m, by simp, rfl⟩
      rw [hvt, hs1h, elem_shownFor]
      by_cases hc : (shownFor d p m.name).any (fun y => shownEq y (shown d m)) = true
      · rw [if_pos hc]
        refine ⟨hkt, ?_⟩
        intro n
        simp only
        rw [hvt, shownFor_snoc, if_neg]
        · simp
        · rintro ⟨rfl, h2⟩; rw [hc] at h2; cases h2
      · rw [if_neg hc]
        refine ⟨?_, ?_⟩
        · simp only [Dict.append]
          rw [Dict.keys_set, if_pos (by rw [hkt]; exact hin), hkt]
        · intro n
          simp only
          rw [Dict.getList_append, hvt, shownFor_snoc]
          by_cases hn : m.name = n
          · subst hn
            simp [hc]
          · simp [hn]
  have hmm : s2.matchesD.keys = namesIn (p ++ [m]) ∧ ∀ n, s2.matchesD.getList n = withName (p ++ [m]) n := by
    rw [hs2m]
    refine ⟨?_, ?_⟩
    · unfold Dict.append
      rw [Dict.keys_set, hi.mkeys, namesIn_snoc]
      by_cases hc : m.name ∈ namesIn p
      · rw [if_pos hc, if_pos hc]; simp
      · rw [if_neg hc, if_neg hc]
    · intro n
      rw [Dict.getList_append, withName_snoc, hi.mat]
      by_cases hn : m.name = n
      · subst hn; simp
      · simp [hn]
  -- the entry
  have hother : ∀ n, m.name ≠ n → shownFor d (p ++ [m]) n = shownFor d p n := by
    intro n hn; rw [shownFor_snoc, if_neg (fun h => hn h.1)]; simp
  unfold addEntry
  rw [hs2r, hi.ret]
  cases hds : shownFor d p m.name with
  | nil =>
    have hnin : m.name ∉ namesIn p := (shownFor_eq_nil d p m.name).1 hds
    have hnew : shownFor d (p ++ [m]) m.name = [shown d m] := by rw [shownFor_snoc, hds]; simp
    simp only [expectedEntry]
    refine ⟨by rw [← hi.heap, ← hs2h], ?_, ?_, hmm.1, hmm.2, hs2v.1, hs2v.2⟩
    · rw [Dict.keys_set, hi.keys, if_neg hnin, namesIn_snoc, if_neg hnin]
    · intro n
      rw [Dict.get?_set, hi.ret]
      by_cases hn : m.name = n
      · subst hn
        rw [hnew]
        simp only [expectedEntry, hmk, beq_self_eq_true, if_true, List.isEmpty_nil]
        cases fv <;> cases el <;> rfl
      · rw [hother n hn]; simp [hn]
  | cons x rest =>
    have hin : m.name ∈ namesIn p := by
      by_cases hc : m.name ∈ namesIn p
      · exact hc
      · have := (shownFor_eq_nil d p m.name).2 hc
        rw [hds] at this; cases this
    have hkeys : namesIn (p ++ [m]) = namesIn p := by rw [namesIn_snoc, if_pos hin]; simp
    have hel : DV.elem s2.heap (shown d m) (x :: rest) = (x :: rest).any (fun y => shownEq y (shown d m)) := by
      rw [← hds]; exact elem_shownFor _ _ _ _ _
    have hnew := shownFor_snoc d p m m.name
    rw [hds] at hnew
    simp only [true_and] at hnew
    -- unchanged / changed entry
    have same : (x :: rest).any (fun y => shownEq y (shown d m)) = true ∨ fv = true →
        DictInv h d fv el (p ++ [m]) s2 := by
      intro hor
      refine ⟨by rw [← hi.heap, ← hs2h], by rw [hs2r, hi.keys, hkeys], ?_, hmm.1, hmm.2, hs2v.1, hs2v.2⟩
      intro n
      rw [hs2r, hi.ret]
      by_cases hn : m.name = n
      · subst hn
        rcases hor with hor | hor
        · rw [hnew, if_neg (by rw [hor]; simp), hds]; simp
        · rw [hnew, hds]
          subst hor
          split <;> simp [expectedEntry]
      · rw [hother n hn]
    have chg : ∀ ret', (∀ n, Dict.get? ret' n = if m.name = n then some (Entry.own (x :: rest ++ [shown d m])) else Dict.get? s.ret n) →
        Dict.keys ret' = namesIn p →
        (x :: rest).any (fun y => shownEq y (shown d m)) = false → fv = false →
        DictInv h d fv el (p ++ [m]) { s2 with ret := ret' } := by
      intro ret' hg hk hno hfv
      refine ⟨by rw [← hi.heap, ← hs2h], by rw [hkeys]; exact hk, ?_, hmm.1, hmm.2, hs2v.1, hs2v.2⟩
      intro n
      show Dict.get? ret' n = _
      rw [hg]
      by_cases hn : m.name = n
      · subst hn
        rw [hnew, if_pos hno]
        subst hfv
        cases el <;> simp [expectedEntry]
      · rw [hother n hn, hi.ret]; simp [hn]
    cases fv with
    | true =>
      simp only [expectedEntry, if_true]
      exact same (Or.inr rfl)
    | false =>
      simp only [expectedEntry, Bool.false_eq_true, if_false]
      cases el with
      | true =>
        simp only [if_true]
        rw [hel]
        by_cases hc : (x :: rest).any (fun y => shownEq y (shown d m)) = true
        · rw [if_pos hc]; exact same (Or.inl hc)
        · rw [if_neg hc]
          apply chg _ _ _ (by simpa using hc) rfl
          · intro n; rw [Dict.get?_set]
          · rw [Dict.keys_set, hi.keys, if_pos hin]
      | false =>
        simp only [Bool.false_eq_true, if_false]
        cases hr : rest with
        | nil =>
          subst hr
          simp only [List.isEmpty_nil, if_true]
          have he : DV.eqIn s2.heap x (shown d m) = [x].any (fun y => shownEq y (shown d m)) := by
            rw [← hel]; simp [DV.elem]
          rw [he]
          by_cases hc : [x].any (fun y => shownEq y (shown d m)) = true
          · rw [if_pos hc]; exact same (Or.inl hc)
          · rw [if_neg hc]
            apply chg _ _ _ (by simpa using hc) rfl
            · intro n; rw [Dict.get?_set]; rfl
            · rw [Dict.keys_set, hi.keys, if_pos hin]
        | cons y t =>
          subst hr
          simp only [List.isEmpty_cons, Bool.false_eq_true, if_false]
          rw [hel]
          by_cases hc : (x :: y :: t).any (fun z => shownEq z (shown d m)) = true
          · rw [if_pos hc]; exact same (Or.inl hc)
          · rw [if_neg hc]
            apply chg _ _ _ (by simpa using hc) rfl
            · intro n; rw [Dict.get?_set]
            · rw [Dict.keys_set, hi.keys, if_pos hin]

theorem dictInv_foldl {h : ListHeap} {addr : Match → Option Nat} {d fv el : Bool} (q : List Match) :
    ∀ {p : List Match} {s : MDict}, (d = true ∨ ∀ m ∈ q, addr m = none ∧ m.value.isList = false) →
      DictInv h d fv el p s → DictInv h d fv el (p ++ q) (q.foldl (toDictStep addr d fv el) s) := by
  induction q with
  | nil => intro p s _ hi; simpa using hi
  | cons m q ih =>
    intro p s hm hi
    have := ih (p := p ++ [m]) (s := toDictStep addr d fv el s m) (hm.imp id (fun h x hx => h x (List.mem_cons_of_mem _ hx)))
      (dictInv_step m (hm.imp id (fun h => h m List.mem_cons_self)) hi)
    simpa using this

theorem dictInv_init (h : ListHeap) (d fv el : Bool) : DictInv h d fv el [] { heap := h } := by
  refine ⟨rfl, rfl, fun n => rfl, rfl, fun n => rfl, ?_, fun n => ?_⟩
  · cases el <;> rfl
  · cases el <;> rfl

end Rebulk
namespace Rebulk
open Spec Matches

/-! ## Mutation of list values -/

structure HeapInv (h : ListHeap) (fv : Bool) (q : List Match) (s : MDict) : Prop where
  heap : s.heap = h
  free : fv = true ∨ ∀ n a, s.ret.get? n = some (.alias a) → ∀ m ∈ q, m.name ≠ n

theorem addValuesList_fields (el : Bool) (s : MDict) (n : Option String) (d : DV) :
    (addValuesList el s n d).ret = s.ret ∧ (addValuesList el s n d).heap = s.heap := by
  unfold addValuesList
  constructor
  all_goals split <;> (try simp only) <;> (try split) <;> rfl

theorem heapInv_step {h : ListHeap} {addr : Match → Option Nat} {d fv el : Bool} {q : List Match} {s : MDict} (m : Match)
    (hm : d = true ∨ fv = true ∨ addr m = none ∨ s.ret.get? m.name ≠ none ∨ ∀ m' ∈ q, m'.name ≠ m.name)
    (hi : HeapInv h fv (m :: q) s) :
    HeapInv h fv q (toDictStep addr d fv el s m) ∧
      (∀ n, s.ret.get? n ≠ none → (toDictStep addr d fv el s m).ret.get? n ≠ none) ∧
      (toDictStep addr d fv el s m).ret.get? m.name ≠ none := by
  unfold toDictStep
  simp only
  generalize hdd : (if d = true then DV.mtch m else m.valueIn s.heap addr) = dd
  have hs2 := addValuesList_fields el { s with matchesD := s.matchesD.append m.name m } m.name dd
  generalize addValuesList el { s with matchesD := s.matchesD.append m.name m } m.name dd = s2 at hs2
  simp only at hs2
  obtain ⟨hr, hh⟩ := hs2
  unfold addEntry
  rw [hr]
  have hmono : ∀ (e : Entry) (n : Option String), s.ret.get? n ≠ none → (s.ret.set m.name e).get? n ≠ none := by
    intro e n hn; rw [Dict.get?_set]; split <;> simp [hn]
  have hset : ∀ (e : Entry), (s.ret.set m.name e).get? m.name ≠ none := by
    intro e; rw [Dict.get?_set]; simp
  have hfree : ∀ (e : Entry), (∀ a, e = .alias a → fv = true ∨ ∀ m' ∈ q, m'.name ≠ m.name) →
      (fv = true ∨ ∀ n a, (s.ret.set m.name e).get? n = some (.alias a) → ∀ m' ∈ q, m'.name ≠ n) := by
    intro e he
    by_cases hfv : fv = true
    · exact Or.inl hfv
    · refine Or.inr ?_
      intro n a hn m' hm'
      rw [Dict.get?_set] at hn
      split at hn
      · next heq =>
        subst heq
        simp only [Option.some.injEq] at hn
        exact ((he a hn).resolve_left hfv) m' hm'
      · exact (hi.free.resolve_left hfv) n a hn m' (List.mem_cons_of_mem _ hm')
  have hfree0 : fv = true ∨ ∀ n a, s.ret.get? n = some (.alias a) → ∀ m' ∈ q, m'.name ≠ n :=
    hi.free.imp id (fun h n a hn m' hm' => h n a hn m' (List.mem_cons_of_mem _ hm'))
  cases hg : s.ret.get? m.name with
  | some e =>
    have keep : HeapInv h fv q s2 ∧ (∀ n, s.ret.get? n ≠ none → s2.ret.get? n ≠ none) ∧ s2.ret.get? m.name ≠ none := by
      refine ⟨⟨by rw [hh, hi.heap], by rw [hr]; exact hfree0⟩, ?_, ?_⟩
      · intro n hn; rw [hr]; exact hn
      · rw [hr, hg]; simp
    simp only
    by_cases hfv : fv = true
    · rw [if_pos hfv]; exact keep
    · rw [if_neg hfv]
      cases e with
      | one x =>
        simp only
        split
        · exact keep
        · refine ⟨⟨by simp only [hh, hi.heap], hfree _ (by intro a ha; cases ha)⟩, hmono _, hset _⟩
      | own l =>
        simp only
        split
        · exact keep
        · refine ⟨⟨by simp only [hh, hi.heap], hfree _ (by intro a ha; cases ha)⟩, hmono _, hset _⟩
      | «alias» a => exact absurd rfl ((hi.free.resolve_left hfv) _ a hg m List.mem_cons_self)
  | none =>
    simp only
    refine ⟨⟨by simp only [hh, hi.heap], hfree _ ?_⟩, hmono _, hset _⟩
    intro a ha
    rcases hm with hm | hm | hm | hm | hm
    · subst hm
      simp only [if_true] at hdd
      subst hdd
      unfold mkEntry at ha
      simp only at ha
      split at ha <;> cases ha
    · exact Or.inl hm
    · exfalso
      cases d with
      | true =>
        simp only [if_true] at hdd
        subst hdd
        unfold mkEntry at ha
        simp only at ha
        split at ha <;> cases ha
      | false =>
        simp only [Bool.false_eq_true, if_false, Match.valueIn, hm] at hdd
        subst hdd
        unfold mkEntry at ha
        cases hv : m.value <;> rw [hv] at ha <;> simp only at ha
        all_goals first | cases ha | (split at ha <;> cases ha)
    · exact absurd hg hm
    · exact Or.inr hm

theorem heapInv_foldl {h : ListHeap} {addr : Match → Option Nat} {d fv el : Bool} (q : List Match) :
    ∀ {s : MDict} (p : List Match),
      (d = true ∨ fv = true ∨ ∀ p' m q', q = p' ++ m :: q' → addr m = none ∨ (∃ m' ∈ p ++ p', m'.name = m.name) ∨
        ∀ m' ∈ q', m'.name ≠ m.name) →
      (∀ m ∈ p, s.ret.get? m.name ≠ none) → HeapInv h fv q s →
      (q.foldl (toDictStep addr d fv el) s).heap = h := by
  induction q with
  | nil => intro s p _ _ hi; exact hi.heap
  | cons m q ih =>
    intro s p hq hp hi
    have := heapInv_step (addr := addr) (d := d) (el := el) m (by
      rcases hq with hq | hq | hq
      · exact Or.inl hq
      · exact Or.inr (Or.inl hq)
      · rcases hq [] m q rfl with h1 | h1 | h1
        · exact Or.inr (Or.inr (Or.inl h1))
        · obtain ⟨m', hm', hn⟩ := h1
          have := hp m' (by simpa using hm')
          rw [hn] at this
          exact Or.inr (Or.inr (Or.inr (Or.inl this)))
        · exact Or.inr (Or.inr (Or.inr (Or.inr h1)))) hi
    obtain ⟨h1, h2, h3⟩ := this
    apply ih (p ++ [m]) _ _ h1
    · refine hq.imp id (Or.imp id (fun hq p' m' q' he => ?_))
      have := hq (m :: p') m' q' (by rw [he]; rfl)
      simpa using this
    · intro m' hm'
      rcases List.mem_append.1 hm' with hm' | hm'
      · exact h2 _ (hp m' hm')
      · simp only [List.mem_singleton] at hm'; subst hm'; exact h3

/-! ## Hints -/

theorem isNoneType_iff (env : ClassEnv) (h : Hint) : h.isNoneType env = true ↔ h = .cls env.noneType := by
  cases h <;> simp [Hint.isNoneType]

mutual
theorem elementType_sound (env : ClassEnv) : ∀ (h : Hint) (c : Nat), elementType env h = some c → Pins env h c
  | .any, c, h => by simp [elementType] at h
  | .list none, c, h => by simp [elementType] at h
  | .list (some x), c, h => by
    simp only [elementType] at h
    exact .list (elementType_sound env x c h)
  | .union args, c, h => by
    simp only [elementType] at h
    split at h
    · next r hr =>
      subst h
      obtain ⟨pre, x, post, h1, h2, h3, h4⟩ := elementTypes_sound env args (some c) hr
      subst h1
      exact .union h2 h3 (h4 c rfl)
    · cases h
  | .cls c', c, h => by
    simp only [elementType] at h
    split at h
    · cases h
    · next hc =>
      simp only [Option.some.injEq] at h
      subst h
      exact .cls (by simpa using hc)
  | .other, c, h => by simp [elementType] at h
theorem elementTypes_sound (env : ClassEnv) : ∀ (hs : List Hint) (r : Option Nat), elementTypes env hs = [r] →
    ∃ pre x post, hs = pre ++ x :: post ∧ (∀ y ∈ pre ++ post, y = .cls env.noneType) ∧ x ≠ .cls env.noneType ∧
      ∀ c, r = some c → Pins env x c
  | [], r, h => by simp [elementTypes] at h
  | x :: xs, r, h => by
    simp only [elementTypes] at h
    by_cases hx : x.isNoneType env = true
    · rw [if_pos hx] at h
      obtain ⟨pre, y, post, h1, h2, h3, h4⟩ := elementTypes_sound env xs r h
      refine ⟨x :: pre, y, post, by rw [h1]; rfl, ?_, h3, h4⟩
      intro z hz
      rcases List.mem_cons.1 (show z ∈ x :: (pre ++ post) by simpa using hz) with rfl | hz
      · exact (isNoneType_iff env _).1 hx
      · exact h2 z (by simpa using hz)
    · rw [if_neg hx] at h
      simp only [List.cons.injEq] at h
      refine ⟨[], x, xs, rfl, ?_, fun hc => hx ((isNoneType_iff env x).2 hc), ?_⟩
      · intro y hy
        exact (isNoneType_iff env y).1 (elementTypes_nil env xs h.2 y (by simpa using hy))
      · intro c hc
        exact elementType_sound env x c (h.1.trans hc)
theorem elementTypes_nil (env : ClassEnv) : ∀ (hs : List Hint), elementTypes env hs = [] → ∀ y ∈ hs, y.isNoneType env = true
  | [], _, y, hy => by cases hy
  | x :: xs, h, y, hy => by
    simp only [elementTypes] at h
    by_cases hx : x.isNoneType env = true
    · rw [if_pos hx] at h
      rcases List.mem_cons.1 hy with rfl | hy
      · exact hx
      · exact elementTypes_nil env xs h y hy
    · rw [if_neg hx] at h; cases h
end

theorem elementTypes_none (env : ClassEnv) (hs : List Hint) (h : ∀ y ∈ hs, y = .cls env.noneType) : elementTypes env hs = [] := by
  induction hs with
  | nil => rfl
  | cons x xs ih =>
    simp only [elementTypes]
    rw [if_pos ((isNoneType_iff env x).2 (h x List.mem_cons_self)), ih (fun y hy => h y (List.mem_cons_of_mem _ hy))]

theorem elementTypes_single (env : ClassEnv) (pre : List Hint) (x : Hint) (post : List Hint)
    (h : ∀ y ∈ pre ++ post, y = .cls env.noneType) (hx : x ≠ .cls env.noneType) :
    elementTypes env (pre ++ x :: post) = [elementType env x] := by
  induction pre with
  | nil =>
    simp only [List.nil_append, elementTypes]
    rw [if_neg (fun hc => hx ((isNoneType_iff env x).1 hc)), elementTypes_none env post (by simpa using h)]
  | cons y ys ih =>
    simp only [List.cons_append, elementTypes]
    rw [if_pos ((isNoneType_iff env y).2 (h y (by simp))), ih (fun z hz => h z (by
      simp only [List.cons_append, List.mem_cons]; exact Or.inr hz))]

theorem elementType_complete (env : ClassEnv) (h : Hint) (c : Nat) (hp : Pins env h c) : elementType env h = some c := by
  induction hp with
  | cls hc => simp [elementType, hc]
  | list _ ih => simpa [elementType] using ih
  | union h1 h2 _ ih => simp only [elementType, elementTypes_single env _ _ _ h1 h2, ih]

theorem elementType_iff (env : ClassEnv) (h : Hint) (c : Nat) : elementType env h = some c ↔ Pins env h c :=
  ⟨elementType_sound env h c, elementType_complete env h c⟩

theorem incompatible_iff (env : ClassEnv) (declared : Dict String Key) (f : Field) :
    fieldContradicts env declared f = true ↔ Incompatible env declared f := by
  unfold Incompatible fieldContradicts
  cases hk : declared.get? f.name with
  | none => simp
  | some k =>
    simp only [Option.some.injEq]
    unfold contradicts
    cases he : elementType env f.hint with
    | none =>
      simp only [Bool.false_eq_true, false_iff]
      rintro ⟨_, c, rfl, hp, _⟩
      rw [← elementType_iff] at hp
      rw [he] at hp
      cases hp
    | some e =>
      simp only [Bool.not_eq_true', Bool.or_eq_false_iff]
      constructor
      · intro h; exact ⟨k, e, rfl, (elementType_iff env _ _).1 he, h.1, h.2⟩
      · rintro ⟨_, c, rfl, hp, h1, h2⟩
        rw [← elementType_iff] at hp
        rw [he] at hp
        cases hp
        exact ⟨h1, h2⟩

/-! ## `to` -/

theorem dict_set_new {ν : Type} (d : Dict String ν) (k : String) (v : ν) (h : k ∉ d.keys) : d.set k v = d ++ [(k, v)] := by
  induction d with
  | nil => rfl
  | cons kv r ih =>
    obtain ⟨k0, v0⟩ := kv
    simp only [Dict.keys, List.map_cons, List.mem_cons, not_or] at h
    simp only [Dict.set, List.cons_append]
    rw [if_neg (by simpa using fun e => h.1 e.symm), ih (by simpa [Dict.keys] using h.2)]

theorem toLoop_error (env : ClassEnv) (declared : Dict String Key) : ∀ (fs : List Field) (s : Matches) (kw : Dict String FieldVal),
    (∃ f ∈ fs, Incompatible env declared f) → toLoop env declared fs s kw = .error .typeError
  | [], s, kw, h => by obtain ⟨f, hf, _⟩ := h; cases hf
  | f :: fs, s, kw, h => by
    unfold toLoop
    by_cases hf : Incompatible env declared f
    · rw [if_pos ((incompatible_iff env declared f).2 hf)]
    · rw [if_neg (fun hc => hf ((incompatible_iff env declared f).1 hc))]
      have : ∃ f ∈ fs, Incompatible env declared f := by
        obtain ⟨g, hg, hi⟩ := h
        rcases List.mem_cons.1 hg with rfl | hg
        · exact absurd hi hf
        · exact ⟨g, hg, hi⟩
      simp only
      split
      · exact toLoop_error env declared fs _ _ this
      · split <;> exact toLoop_error env declared fs _ _ this

/-- The keyword arguments a list of fields gives. -/
def kwOf (l : List Match) (fs : List Field) : List (String × FieldVal) :=
  fs.filterMap (fun f => (fieldValue l f).map (fun v => (f.name, v)))

theorem toLoop_ok (env : ClassEnv) (declared : Dict String Key) (l : List Match) : ∀ (fs : List Field) (s : Matches) (kw : Dict String FieldVal),
    Exact s → s.delegate = l → (∀ f ∈ fs, ¬ Incompatible env declared f) → (∀ f ∈ fs, f.name ≠ "") →
    (fs.map Field.name).Nodup → (∀ f ∈ fs, f.name ∉ kw.keys) →
    ∃ s', toLoop env declared fs s kw = .ok (s', kw ++ kwOf l fs)
  | [], s, kw, _, _, _, _, _, _ => ⟨s, by simp [toLoop, kwOf]⟩
  | f :: fs, s, kw, he, hl, hc, hne, hnd, hk => by
    unfold toLoop
    rw [if_neg (fun h => hc f List.mem_cons_self ((incompatible_iff env declared f).1 h))]
    have hn := hne f List.mem_cons_self
    have hvals : (s.lookName f.name).2 = Spec.named l f.name := by
      unfold lookName
      simp only
      rw [he.viewName, filed_name _ hn, hl]
    simp only [List.map_cons, List.nodup_cons] at hnd
    have step : ∀ v, fieldValue l f = some v → ∃ s', toLoop env declared fs (s.lookName f.name).1 (kw.set f.name v) =
        .ok (s', kw ++ kwOf l (f :: fs)) := by
      intro v hv
      have hset := dict_set_new kw f.name v (hk f List.mem_cons_self)
      obtain ⟨s', hs'⟩ := toLoop_ok env declared l fs (s.lookName f.name).1 (kw.set f.name v) (he.sim (lookName_sim s f.name))
        ((lookName_sim s f.name).delegate.trans hl) (fun g hg => hc g (List.mem_cons_of_mem _ hg))
        (fun g hg => hne g (List.mem_cons_of_mem _ hg)) hnd.2 (by
          intro g hg
          rw [Dict.keys_set, if_neg (hk f List.mem_cons_self), List.mem_append, not_or]
          refine ⟨hk g (List.mem_cons_of_mem _ hg), ?_⟩
          simp only [List.mem_singleton]
          intro e
          exact hnd.1 (List.mem_map.2 ⟨g, hg, e⟩))
      refine ⟨s', ?_⟩
      rw [hs', hset]
      simp [kwOf, hv]
    by_cases hlist : f.hint.isListHint = true
    · simp only [hlist, if_true]
      apply step
      rw [hvals]
      unfold fieldValue valuesOf
      cases hh : f.hint <;> simp [hh, Hint.isListHint] at hlist ⊢
    · simp only [hlist, Bool.false_eq_true, if_false]
      have hfv : fieldValue l f = (valuesOf l f.name).head?.map .one := by
        unfold fieldValue
        cases hh : f.hint <;> simp [hh, Hint.isListHint] at hlist ⊢
      rw [hvals]
      rw [show (Spec.named l f.name).map Match.value = valuesOf l f.name from rfl]
      cases hv : valuesOf l f.name with
      | cons v vs =>
        simp only
        exact step _ (by rw [hfv, hv]; rfl)
      | nil =>
        simp only
        obtain ⟨s', hs'⟩ := toLoop_ok env declared l fs (s.lookName f.name).1 kw (he.sim (lookName_sim s f.name))
          ((lookName_sim s f.name).delegate.trans hl) (fun g hg => hc g (List.mem_cons_of_mem _ hg))
          (fun g hg => hne g (List.mem_cons_of_mem _ hg)) hnd.2 (fun g hg => hk g (List.mem_cons_of_mem _ hg))
        refine ⟨s', ?_⟩
        rw [hs']
        simp [kwOf, hfv, hv]

theorem get?_kwOf (l : List Match) (fs : List Field) (hnd : (fs.map Field.name).Nodup) (f : Field) (hf : f ∈ fs) :
    Dict.get? (kwOf l fs) f.name = fieldValue l f := by
  induction fs with
  | nil => cases hf
  | cons g gs ih =>
    simp only [List.map_cons, List.nodup_cons] at hnd
    unfold kwOf
    rw [List.filterMap_cons]
    rcases List.mem_cons.1 hf with rfl | hf'
    · cases hv : fieldValue l f with
      | some v => simp [Dict.get?]
      | none =>
        simp only [Option.map_none]
        rw [Dict.get?_eq_none_iff]
        intro hc
        simp only [Dict.keys, List.mem_map, List.mem_filterMap] at hc
        obtain ⟨⟨a, b⟩, ⟨g, hg, hg'⟩, hab⟩ := hc
        cases hgv : fieldValue l g with
        | none => rw [hgv] at hg'; cases hg'
        | some w =>
          rw [hgv] at hg'
          simp only [Option.map_some, Option.some.injEq, Prod.mk.injEq] at hg'
          exact hnd.1 (List.mem_map.2 ⟨g, hg, hg'.1.trans hab⟩)
    · have hne : g.name ≠ f.name := fun e => hnd.1 (List.mem_map.2 ⟨f, hf', e.symm⟩)
      cases hv : fieldValue l g with
      | some v =>
        simp only [Option.map_some, Dict.get?]
        rw [if_neg (by simpa using hne)]
        exact ih hnd.2 hf'
      | none => simp only [Option.map_none]; exact ih hnd.2 hf'

theorem construct_spec (l : List Match) (kw : Dict String FieldVal) : ∀ (fs : List Field),
    (∀ f ∈ fs, kw.get? f.name = fieldValue l f) →
    construct kw fs =
      if (∀ f ∈ fs, (fieldValue l f).isSome ∨ f.dflt.isSome) then
        .ok (fs.filterMap (fun f => ((fieldValue l f).or (f.dflt.map .one)).map (fun v => (f.name, v))))
      else .error .typeError
  | [], _ => by simp [construct]
  | f :: fs, h => by
    have ih := construct_spec l kw fs (fun g hg => h g (List.mem_cons_of_mem _ hg))
    unfold construct
    rw [h f List.mem_cons_self]
    cases hv : fieldValue l f with
    | some v =>
      simp only [ih]
      by_cases hall : ∀ f ∈ fs, (fieldValue l f).isSome ∨ f.dflt.isSome
      · rw [if_pos hall, if_pos (by
          intro g hg
          rcases List.mem_cons.1 hg with rfl | hg
          · exact Or.inl (by rw [hv]; rfl)
          · exact hall g hg)]
        simp [Except.map, hv]
      · rw [if_neg hall, if_neg (fun hc => hall (fun g hg => hc g (List.mem_cons_of_mem _ hg)))]
        rfl
    | none =>
      cases hd : f.dflt with
      | some d =>
        simp only [ih]
        by_cases hall : ∀ f ∈ fs, (fieldValue l f).isSome ∨ f.dflt.isSome
        · rw [if_pos hall, if_pos (by
            intro g hg
            rcases List.mem_cons.1 hg with rfl | hg
            · exact Or.inr (by rw [hd]; rfl)
            · exact hall g hg)]
          simp [Except.map, hv, hd]
        · rw [if_neg hall, if_neg (fun hc => hall (fun g hg => hc g (List.mem_cons_of_mem _ hg)))]
          rfl
      | none =>
        simp only
        rw [if_neg]
        intro hc
        rcases hc f List.mem_cons_self with h1 | h1
        · rw [hv] at h1; cases h1
        · rw [hd] at h1; cases h1

/-! ## `check_declared_keys` -/

theorem check_spec (isinstance : Val → Nat → Bool) (declared : Dict String Key) (l : List Match) :
    (checkDeclaredKeys isinstance declared l = some .typeError ∨ checkDeclaredKeys isinstance declared l = none) ∧
    (checkDeclaredKeys isinstance declared l = some .typeError ↔
      ∃ m ∈ l, ∃ n k, m.name = some n ∧ n ≠ "" ∧ declared.get? n = some k ∧ m.priv = false ∧ m.lit.truthy = false ∧
        m.value ≠ .none ∧ isinstance m.value k.valueType = false) := by
  induction l with
  | nil => simp [checkDeclaredKeys]
  | cons m ms ih =>
    unfold checkDeclaredKeys
    have skip : (¬ ∃ n k, m.name = some n ∧ n ≠ "" ∧ declared.get? n = some k ∧ m.priv = false ∧ m.lit.truthy = false ∧
        m.value ≠ .none ∧ isinstance m.value k.valueType = false) →
      ((checkDeclaredKeys isinstance declared ms = some .typeError ∨ checkDeclaredKeys isinstance declared ms = none) ∧
      (checkDeclaredKeys isinstance declared ms = some .typeError ↔
      ∃ m' ∈ m :: ms, ∃ n k, m'.name = some n ∧ n ≠ "" ∧ declared.get? n = some k ∧ m'.priv = false ∧ m'.lit.truthy = false ∧
        m'.value ≠ .none ∧ isinstance m'.value k.valueType = false)) := by
      intro hno
      refine ⟨ih.1, ?_⟩
      rw [ih.2]
      constructor
      · rintro ⟨m', hm', h⟩; exact ⟨m', List.mem_cons_of_mem _ hm', h⟩
      · rintro ⟨m', hm', h⟩
        rcases List.mem_cons.1 hm' with rfl | hm'
        · exact absurd h hno
        · exact ⟨m', hm', h⟩
    have hkey : ∀ n, m.nameKey = some n ↔ m.name = some n ∧ n ≠ "" := by
      intro n
      unfold Match.nameKey
      cases hn : m.name with
      | none => simp
      | some n' =>
        by_cases he : n' = ""
        · subst he
          simp only [show ("" : String).isEmpty = true from rfl, if_true, Option.some.injEq, reduceCtorEq, false_iff]
          rintro ⟨rfl, h2⟩; exact h2 rfl
        · have : n'.isEmpty = false := by simpa [String.isEmpty_iff] using he
          simp only [this, Bool.false_eq_true, if_false, Option.some.injEq]
          constructor
          · rintro rfl; exact ⟨rfl, he⟩
          · exact fun h => h.1
    cases hk : declaredFor declared m with
    | none =>
      apply skip
      rintro ⟨n, k, h1, h2, h3, _⟩
      unfold declaredFor at hk
      rw [(hkey n).2 ⟨h1, h2⟩] at hk
      simp only at hk
      rw [h3] at hk; cases hk
    | some k =>
      simp only
      have hn : ∃ n, m.nameKey = some n ∧ declared.get? n = some k := by
        unfold declaredFor at hk
        cases hnk : m.nameKey with
        | none => rw [hnk] at hk; cases hk
        | some n => rw [hnk] at hk; exact ⟨n, rfl, hk⟩
      obtain ⟨n, hn, hd⟩ := hn
      have huniq : ∀ n' k', m.name = some n' → n' ≠ "" → declared.get? n' = some k' → k' = k := by
        intro n' k' h1 h2 h3
        have := (hkey n').2 ⟨h1, h2⟩
        rw [hn] at this
        cases this
        rw [hd] at h3
        exact (Option.some.inj h3).symm
      by_cases h1 : (m.priv || m.hasLiteralValue) = true
      · rw [if_pos h1]
        apply skip
        rintro ⟨n', k', _, _, _, h4, h5, _⟩
        simp [Match.hasLiteralValue, h4, h5] at h1
      · rw [if_neg h1]
        by_cases h2 : (decide (m.value = .none) || isinstance m.value k.valueType) = true
        · rw [if_pos h2]
          apply skip
          rintro ⟨n', k', e1, e2, e3, _, _, h6, h7⟩
          have := huniq n' k' e1 e2 e3
          subst this
          simp [h6, h7] at h2
        · rw [if_neg h2]
          refine ⟨Or.inl rfl, ?_⟩
          simp only [true_iff]
          obtain ⟨e1, e2⟩ := (hkey n).1 hn
          simp only [Match.hasLiteralValue, Bool.or_eq_true, not_or, Bool.not_eq_true] at h1
          simp only [Bool.or_eq_true, not_or, Bool.not_eq_true, decide_eq_true_eq] at h2
          exact ⟨m, List.mem_cons_self, n, k, e1, e2, hd, h1.1, h1.2, h2.1, h2.2⟩

end Rebulk
