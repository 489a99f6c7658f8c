import Verif.Spec.ListValues
import Verif.Props.Project
/-!
# `to_dict()` with list-valued matches (`C100`)
-/
namespace Rebulk
open Matches Spec

/-- One more value. -/
def nextValue (fv el : Bool) : Option Val → Val → Val
  | none, .list l => .list l
  | none, v => if el then .list [v] else v
  | some w, v =>
    if fv then w
    else match w with
      | .list l => if v ∈ l then .list l else .list (l ++ [v])
      | w => if w = v then w else .list [w, v]

theorem addNew_snoc (acc vs : List Val) (v : Val) :
    addNew acc (vs ++ [v]) = if v ∈ addNew acc vs then addNew acc vs else addNew acc vs ++ [v] := by
  induction vs generalizing acc with
  | nil => by_cases h : v ∈ acc <;> simp [addNew, h]
  | cons w vs ih =>
    simp only [List.cons_append, addNew]
    split
    · exact ih acc
    · exact ih _

theorem addNew_same (v : Val) (vs : List Val) (h : vs.all (fun w => decide (w = v)) = true) : addNew [v] vs = [v] := by
  induction vs with
  | nil => rfl
  | cons w vs ih =>
    simp only [List.all_cons, Bool.and_eq_true, decide_eq_true_eq] at h
    rw [addNew, if_pos (by simp [h.1])]
    exact ih h.2

theorem expected_snoc (fv el : Bool) (vs : List Val) (v : Val) :
    expectedValue fv el (vs ++ [v]) = some (nextValue fv el (expectedValue fv el vs) v) := by
  cases vs with
  | nil => cases v <;> cases fv <;> cases el <;> simp [expectedValue, nextValue, addNew]
  | cons w vs =>
    by_cases hl : ∃ l, w = .list l
    · obtain ⟨l, rfl⟩ := hl
      cases fv
      · simp only [List.cons_append, expectedValue, nextValue, addNew_snoc, Bool.false_eq_true, if_false]
        split <;> rfl
      · simp [expectedValue, nextValue]
    · have e1 : ∀ r : List Val, expectedValue fv el (w :: r) = if fv then some (if el then .list [w] else w)
          else if el then some (.list (addNew [w] r))
          else if r.all (fun x => decide (x = w)) then some w
          else some (.list (addNew [w] r)) := by
        intro r
        cases w <;> first | rfl | exact absurd ⟨_, rfl⟩ hl
      have e2 : ∀ x, fv = false → nextValue fv el (some w) x = if w = x then w else .list [w, x] := by
        intro x hf
        subst hf
        cases w <;> first | rfl | exact absurd ⟨_, rfl⟩ hl
      rw [List.cons_append, e1, e1]
      cases fv with
      | true => simp [nextValue]
      | false =>
        simp only [Bool.false_eq_true, if_false]
        cases el with
        | true =>
          simp only [if_true, nextValue, Bool.false_eq_true, if_false, addNew_snoc]
          split <;> rfl
        | false =>
          simp only [Bool.false_eq_true, if_false]
          by_cases ha : vs.all (fun x => decide (x = w)) = true
          · rw [if_pos ha, e2 v rfl, List.all_append, ha, Bool.true_and, addNew_snoc, addNew_same w vs ha]
            simp only [List.all_cons, List.all_nil, Bool.and_true, decide_eq_true_eq, List.mem_singleton]
            by_cases hv : v = w
            · rw [if_pos hv, if_pos hv.symm]
            · rw [if_neg hv, if_neg hv, if_neg (fun h => hv h.symm)]; rfl
          · rw [if_neg ha, List.all_append, addNew_snoc]
            have : (vs.all (fun x => decide (x = w)) && [v].all (fun x => decide (x = w))) = false := by
              rw [Bool.not_eq_true] at ha; rw [ha]; rfl
            rw [this, if_neg (by simp)]
            simp only [nextValue, Bool.false_eq_true, if_false]
            split <;> rfl

/-- What holds after the matches `p`, the matches `q` being left. -/
structure ListInv (h : ListHeap) (addr : Match → Option Nat) (fv el : Bool) (p q : List Match) (s : MDict) : Prop where
  fresh : ∀ m ∈ q, ∀ a, addr m = some a → s.heap a = h a
  aliasOnce : ∀ n n' a, s.ret.get? n = some (.alias a) → s.ret.get? n' = some (.alias a) → n = n'
  aliasOld : ∀ n a, s.ret.get? n = some (.alias a) → ∀ m ∈ q, addr m ≠ some a
  ownItems : ∀ n l, s.ret.get? n = some (.own l) → ∀ x ∈ l, (∃ v, x = .val v) ∨ ∃ a, x = .ref a ∧ (∀ n', s.ret.get? n' ≠ some (.alias a)) ∧
    ∀ m ∈ q, addr m ≠ some a
  oneItem : ∀ n x, s.ret.get? n = some (.one x) → ∃ v, x = .val v ∧ v.isList = false
  sem : ∀ n, (s.ret.get? n).map (entryValue s.heap) = expectedValue fv el ((withName p n).map (currentValue h addr))

theorem listInv_step {h : ListHeap} {addr : Match → Option Nat} {fv el : Bool} {p q : List Match} {s : MDict} (m : Match)
    (hd : ∀ a, addr m = some a → ∀ m' ∈ q, addr m' ≠ some a) (hi : ListInv h addr fv el p (m :: q) s) :
    ListInv h addr fv el (p ++ [m]) q (toDictStep addr false fv el s m) := by
  -- the value
  have hval : ∃ d, m.valueIn s.heap addr = d ∧ itemValue s.heap d = currentValue h addr m ∧
      ((∃ v, d = .val v) ∨ ∃ a, d = .ref a ∧ addr m = some a) := by
    refine ⟨_, rfl, ?_, ?_⟩
    · unfold Match.valueIn currentValue
      cases ha : addr m with
      | none => rfl
      | some a =>
        have hf := hi.fresh m (by simp) a ha
        simp only [hf]
        cases hh : h a with
        | nil => simp [itemValue, Match.value, Val.truthy, Match.raw, Match.rawStartOf, Match.rawEndOf]; rfl
        | cons x xs => simp [itemValue, hf, hh, Match.value, Val.truthy]
    · unfold Match.valueIn
      cases ha : addr m with
      | none => exact Or.inl ⟨_, rfl⟩
      | some a =>
        simp only
        split
        · exact Or.inr ⟨a, rfl, rfl⟩
        · exact Or.inl ⟨_, rfl⟩
  obtain ⟨d, hd1, hd2, hd3⟩ := hval
  unfold toDictStep
  simp only [Bool.false_eq_true, if_false, hd1]
  have hs2 := addValuesList_fields el { s with matchesD := s.matchesD.append m.name m } m.name d
  generalize addValuesList el { s with matchesD := s.matchesD.append m.name m } m.name d = s2 at hs2
  simp only at hs2
  obtain ⟨hr, hh⟩ := hs2
  have hsem : ∀ n, expectedValue fv el ((withName (p ++ [m]) n).map (currentValue h addr)) =
      if m.name = n then some (nextValue fv el ((s.ret.get? n).map (entryValue s.heap)) (itemValue s.heap d))
      else (s.ret.get? n).map (entryValue s.heap) := by
    intro n
    rw [withName_snoc]
    split
    · rw [List.map_append, List.map_singleton, expected_snoc, hi.sem, hd2]
    · rw [List.append_nil]; exact (hi.sem n).symm
  have keep : nextValue fv el ((s.ret.get? m.name).map (entryValue s.heap)) (itemValue s.heap d) =
      ((s.ret.get? m.name).map (entryValue s.heap)).getD .none → s.ret.get? m.name ≠ none → ListInv h addr fv el (p ++ [m]) q s2 := by
    intro hk hne
    refine ⟨?_, ?_, ?_, ?_, ?_, ?_⟩
    · intro m' hm'; rw [hh]; exact hi.fresh m' (List.mem_cons_of_mem _ hm')
    · rw [hr]; exact hi.aliasOnce
    · rw [hr]; intro n a hn m' hm'; exact hi.aliasOld n a hn m' (List.mem_cons_of_mem _ hm')
    · rw [hr]; intro n l hn x hx
      rcases hi.ownItems n l hn x hx with h1 | ⟨a, h1, h2, h3⟩
      · exact Or.inl h1
      · exact Or.inr ⟨a, h1, h2, fun m' hm' => h3 m' (List.mem_cons_of_mem _ hm')⟩
    · rw [hr]; exact hi.oneItem
    · intro n
      rw [hsem n, hr, hh]
      split
      · next he =>
        subst he
        rw [hk]
        cases hg : s.ret.get? m.name with
        | none => exact absurd hg hne
        | some e => rfl
      · rfl
  -- setting an entry that is not an alias of an old object
  have set : ∀ e : Entry, entryValue s.heap e = nextValue fv el ((s.ret.get? m.name).map (entryValue s.heap)) (itemValue s.heap d) →
      (∀ a, e = .alias a → addr m = some a) → (∀ x, e = .one x → ∃ v, x = .val v ∧ v.isList = false) →
      (∀ l, e = .own l → ∀ x ∈ l, (∃ v, x = .val v) ∨ ∃ a, x = .ref a ∧ (∀ n', s.ret.get? n' ≠ some (.alias a)) ∧
        ∀ m' ∈ q, addr m' ≠ some a) →
      ListInv h addr fv el (p ++ [m]) q { s2 with ret := s.ret.set m.name e, heap := s.heap } := by
    intro e he1 he2 he3 he4
    refine ⟨?_, ?_, ?_, ?_, ?_, ?_⟩
    · intro m' hm'; exact hi.fresh m' (List.mem_cons_of_mem _ hm')
    · intro n n' a h1 h2
      simp only [Dict.get?_set] at h1 h2
      split at h1 <;> split at h2
      · next a1 a2 => rw [← a1, ← a2]
      · cases h1
        exact absurd (he2 a rfl) (hi.aliasOld n' a h2 m (by simp))
      · cases h2
        exact absurd (he2 a rfl) (hi.aliasOld n a h1 m (by simp))
      · exact hi.aliasOnce n n' a h1 h2
    · intro n a h1 m' hm'
      simp only [Dict.get?_set] at h1
      split at h1
      · cases h1; exact hd a (he2 a rfl) m' hm'
      · exact hi.aliasOld n a h1 m' (List.mem_cons_of_mem _ hm')
    · intro n l h1 x hx
      have hnot : ∀ a, (∀ n', s.ret.get? n' ≠ some (.alias a)) → (∀ c, e = .alias c → c ≠ a) →
          ∀ n', (s.ret.set m.name e).get? n' ≠ some (.alias a) := by
        intro a g1 g2 n' g3
        simp only [Dict.get?_set] at g3
        split at g3
        · cases g3; exact g2 a rfl rfl
        · exact g1 n' g3
      simp only [Dict.get?_set] at h1
      split at h1
      · cases h1
        rcases he4 l rfl x hx with h1 | ⟨a, h1, h2, h3⟩
        · exact Or.inl h1
        · exact Or.inr ⟨a, h1, hnot a h2 (by intro c hc; cases hc), h3⟩
      · rcases hi.ownItems n l h1 x hx with h1 | ⟨a, h1, h2, h3⟩
        · exact Or.inl h1
        · refine Or.inr ⟨a, h1, hnot a h2 ?_, fun m' hm' => h3 m' (List.mem_cons_of_mem _ hm')⟩
          intro c hc hca
          subst hca
          exact h3 m (by simp) (he2 c hc)
    · intro n x h1
      simp only [Dict.get?_set] at h1
      split at h1
      · cases h1; exact he3 x rfl
      · exact hi.oneItem n x h1
    · intro n
      rw [hsem n]
      simp only [Dict.get?_set]
      split
      · next heq => rw [Option.map_some, he1]; subst heq; rfl
      · rfl
  -- the item may be put in a list
  have hput : (∃ v, d = .val v) ∨ ∃ a, d = .ref a ∧ (∀ n', s.ret.get? n' ≠ some (.alias a)) ∧ ∀ m' ∈ q, addr m' ≠ some a := by
    rcases hd3 with h1 | ⟨a, h1, h2⟩
    · exact Or.inl h1
    · exact Or.inr ⟨a, h1, fun n' hn' => hi.aliasOld n' a hn' m (by simp) h2, hd a h2⟩
  have heq : ∀ x, (∃ v, x = .val v) ∨ (∃ a, x = .ref a) → DV.eqIn s.heap x d = decide (itemValue s.heap x = itemValue s.heap d) := by
    intro x hx
    have hd' : (∃ v, d = .val v) ∨ (∃ a, d = .ref a) := hd3.imp id (fun ⟨a, h1, _⟩ => ⟨a, h1⟩)
    rcases hx with ⟨v, rfl⟩ | ⟨a, rfl⟩ <;> rcases hd' with ⟨w, rfl⟩ | ⟨b, rfl⟩ <;> rfl
  have helem : ∀ l : List DV, (∀ x ∈ l, (∃ v, x = .val v) ∨ (∃ a, x = .ref a)) →
      DV.elem s.heap d l = decide (itemValue s.heap d ∈ l.map (itemValue s.heap)) := by
    intro l hl
    unfold DV.elem
    induction l with
    | nil => rfl
    | cons x l ih =>
      rw [List.any_cons, heq x (hl x (by simp)), ih (fun y hy => hl y (List.mem_cons_of_mem _ hy))]
      simp only [List.map_cons, List.mem_cons, eq_comm (a := itemValue s.heap d) (b := itemValue s.heap x)]
      rw [Bool.decide_or]
  unfold addEntry
  rw [hr, hh]
  cases hg : s.ret.get? m.name with
  | none =>
    simp only
    rw [hg] at set
    rcases hd3 with ⟨v, hv⟩ | ⟨a, ha, ham⟩
    · subst hv
      by_cases hl : ∃ l, v = .list l
      · obtain ⟨l, rfl⟩ := hl
        refine set _ ?_ ?_ ?_ ?_
        · simp only [mkEntry, entryValue, List.map_map, Option.map_none, nextValue, itemValue]
          congr 1
          exact (List.map_congr_left (fun _ _ => rfl)).trans (List.map_id _)
        · intro a h1; cases h1
        · intro x h1; cases h1
        · intro l' h1 x hx
          cases h1
          obtain ⟨w, _, rfl⟩ := List.mem_map.1 hx
          exact Or.inl ⟨w, rfl⟩
      · have hm1 : mkEntry el (.val v) = if el then .own [.val v] else .one (.val v) := by
          cases v <;> first | rfl | exact absurd ⟨_, rfl⟩ hl
        have hm2 : nextValue fv el none v = if el then .list [v] else v := by
          cases v <;> first | rfl | exact absurd ⟨_, rfl⟩ hl
        have hm3 : v.isList = false := by cases v <;> first | rfl | exact absurd ⟨_, rfl⟩ hl
        rw [hm1]
        refine set _ ?_ ?_ ?_ ?_
        · simp only [Option.map_none, itemValue]
          rw [hm2]
          cases el <;> rfl
        · intro a h1; cases el <;> cases h1
        · intro x h1; cases el <;> cases h1; exact ⟨v, rfl, hm3⟩
        · intro l' h1 x hx; cases el <;> cases h1
          exact Or.inl ⟨v, by simpa using hx⟩
    · subst ha
      refine set (.alias a) rfl ?_ ?_ ?_
      · intro c hc; cases hc; exact ham
      · intro x h1; cases h1
      · intro l' h1; cases h1
  | some e =>
    simp only
    rw [hg] at keep
    have hsome : (some e : Option Entry) ≠ none := by simp
    cases fv with
    | true => rw [if_pos rfl]; exact keep rfl hsome
    | false =>
      rw [if_neg (by simp)]
      cases e with
      | one x =>
        obtain ⟨v, rfl, hvl⟩ := hi.oneItem _ _ hg
        have hm2 : ∀ w, nextValue false el (some v) w = if v = w then v else .list [v, w] := by
          intro w; cases v <;> first | rfl | cases hvl
        simp only
        rw [heq _ (Or.inl ⟨v, rfl⟩)]
        simp only [decide_eq_true_eq]
        by_cases hc : itemValue s.heap (DV.val v) = itemValue s.heap d
        · rw [if_pos hc]
          refine keep ?_ hsome
          show nextValue false el (some v) _ = v
          rw [hm2]; exact if_pos hc
        · rw [if_neg hc]
          refine set _ ?_ ?_ ?_ ?_
          · rw [hg]; show _ = nextValue false el (some v) _
            rw [hm2]; exact (if_neg hc).symm
          · intro a h1; cases h1
          · intro x h1; cases h1
          · intro l' h1 x hx
            cases h1
            rcases List.mem_cons.1 hx with rfl | hx
            · exact Or.inl ⟨v, rfl⟩
            · rw [List.mem_singleton] at hx; subst hx; exact hput
      | own l =>
        have hitems := hi.ownItems _ _ hg
        simp only
        rw [helem l (fun x hx => (hitems x hx).imp id (fun ⟨a, h1, _⟩ => ⟨a, h1⟩))]
        simp only [decide_eq_true_eq]
        by_cases hc : itemValue s.heap d ∈ l.map (itemValue s.heap)
        · rw [if_pos hc]
          refine keep ?_ hsome
          simp only [Option.map_some, entryValue, nextValue, Bool.false_eq_true, if_false, if_pos hc, Option.getD_some]
        · rw [if_neg hc]
          refine set _ ?_ ?_ ?_ ?_
          · simp only [hg, Option.map_some, entryValue, nextValue, Bool.false_eq_true, if_false, if_neg hc, List.map_append, List.map_singleton]
          · intro a h1; cases h1
          · intro x h1; cases h1
          · intro l' h1 x hx
            cases h1
            rcases List.mem_append.1 hx with hx | hx
            · rcases hitems x hx with h1 | ⟨a, h1, h2, h3⟩
              · exact Or.inl h1
              · exact Or.inr ⟨a, h1, h2, fun m' hm' => h3 m' (List.mem_cons_of_mem _ hm')⟩
            · rw [List.mem_singleton] at hx; subst hx; exact hput
      | «alias» a =>
        simp only
        rw [helem _ (by intro x hx; obtain ⟨w, _, rfl⟩ := List.mem_map.1 hx; exact Or.inl ⟨w, rfl⟩)]
        have hid : ((s.heap a).map DV.val).map (itemValue s.heap) = s.heap a := by
          rw [List.map_map]; exact (List.map_congr_left (fun _ _ => rfl)).trans (List.map_id _)
        rw [hid]
        simp only [decide_eq_true_eq]
        by_cases hc : itemValue s.heap d ∈ s.heap a
        · rw [if_pos hc]
          refine keep ?_ hsome
          simp only [Option.map_some, entryValue, nextValue, Bool.false_eq_true, if_false, if_pos hc, Option.getD_some]
        · rw [if_neg hc]
          have htv : d.toVal s.heap = itemValue s.heap d := by cases d <;> rfl
          have hother : ∀ n e, s.ret.get? n = some e → n ≠ m.name →
              entryValue (fun i => if i = a then s.heap a ++ [d.toVal s.heap] else s.heap i) e = entryValue s.heap e := by
            intro n e hn hne
            cases e with
            | one x => obtain ⟨v, rfl, _⟩ := hi.oneItem _ _ hn; rfl
            | own l =>
              simp only [entryValue]
              congr 1
              refine List.map_congr_left ?_
              intro x hx
              rcases hi.ownItems _ _ hn x hx with ⟨v, rfl⟩ | ⟨b, rfl, h2, _⟩
              · rfl
              · have : b ≠ a := by rintro rfl; exact h2 m.name hg
                simp only [itemValue, if_neg this]
            | «alias» b =>
              have : b ≠ a := by rintro rfl; exact hne (hi.aliasOnce _ _ _ hn hg)
              simp only [entryValue, if_neg this]
          refine ⟨?_, ?_, ?_, ?_, ?_, ?_⟩
          · intro m' hm' c hc'
            have : c ≠ a := by rintro rfl; exact hi.aliasOld _ _ hg m' (List.mem_cons_of_mem _ hm') hc'
            simp only [if_neg this]
            exact hi.fresh m' (List.mem_cons_of_mem _ hm') c hc'
          · exact hi.aliasOnce
          · intro n c hn m' hm'; exact hi.aliasOld n c hn m' (List.mem_cons_of_mem _ hm')
          · intro n l hn x hx
            rcases hi.ownItems n l hn x hx with h1 | ⟨c, h1, h2, h3⟩
            · exact Or.inl h1
            · exact Or.inr ⟨c, h1, h2, fun m' hm' => h3 m' (List.mem_cons_of_mem _ hm')⟩
          · exact hi.oneItem
          · intro n
            rw [hsem n]
            simp only [hr]
            split
            · next he =>
              subst he
              rw [hg]
              simp only [Option.map_some, entryValue, if_true, nextValue, Bool.false_eq_true, if_false, if_neg hc, htv]
            · next he =>
              cases hn : s.ret.get? n with
              | none => rfl
              | some e => rw [Option.map_some, Option.map_some, hother n e hn (fun h => he h.symm)]

theorem listInv_foldl {h : ListHeap} {addr : Match → Option Nat} {fv el : Bool} (q : List Match) :
    ∀ {p : List Match} {s : MDict}, q.Pairwise (fun a b => ∀ x, addr a = some x → addr b ≠ some x) → ListInv h addr fv el p q s →
      ListInv h addr fv el (p ++ q) [] (q.foldl (toDictStep addr false fv el) s) := by
  induction q with
  | nil => intro p s _ hi; simpa using hi
  | cons m q ih =>
    intro p s hp hi
    obtain ⟨h1, h2⟩ := List.pairwise_cons.1 hp
    have := ih h2 (listInv_step m (fun a ha m' hm' => h1 m' hm' a ha) hi)
    simpa using this

/-- **C100.** `to_dict()` in every mode but `details`, for matches whose values may be lists, no two of which hold the same list object as
literal value: for each name, with the values of its matches in position order. A list-valued first match gives its elements, to which the
later values are added when they are not among them; otherwise a list value counts as one value like any other. A match whose literal
value is an empty list has the value it would have without literal value. -/
theorem C100_list_values (s : Matches) (h : ListHeap) (addr : Match → Option Nat) (firstValue enforceList : Bool)
    (hd : s.delegate.Pairwise (fun a b => ∀ x, addr a = some x → addr b ≠ some x)) :
    ∃ l, IsStableSort lexLe (fun m => (m.start, m.stop)) s.delegate l ∧
      let d := s.toDict h addr false firstValue enforceList
      ∀ n, (d.ret.get? n).map (entryValue d.heap) =
        expectedValue firstValue enforceList ((withName l n).map (currentValue h addr)) := by
  refine ⟨pySorted Match.lt s.delegate, sorted_matches _, ?_⟩
  have hp : (pySorted Match.lt s.delegate).Pairwise (fun a b => ∀ x, addr a = some x → addr b ≠ some x) :=
    ((pySorted_perm Match.lt s.delegate).pairwise_iff (by intro a b hab x hx hy; exact hab x hy hx)).2 hd
  have h0 : ListInv h addr firstValue enforceList [] (pySorted Match.lt s.delegate) { heap := h } :=
    ⟨fun _ _ _ _ => rfl, (by intro n n' a hn; cases hn), (by intro n a hn; cases hn), (by intro n l hn; cases hn),
      (by intro n x hn; cases hn), fun _ => rfl⟩
  intro d n
  have := (listInv_foldl (pySorted Match.lt s.delegate) hp h0).sem n
  rw [List.nil_append] at this
  exact this

/-- Three matches named `x` with values `[1]` (a list object), `2` and an empty list object, over the text `7`. -/
def listSample : Matches := { delegate := [{ mk 1 2 (some "x") with lit := .int 2 }, { mk 0 1 (some "x") with lit := .list [.int 1], id := 1 },
  { mk 2 3 (some "x") with lit := .list [], id := 2, inputString := some "abc".toList }] }

/-- The address of the list objects. -/
def listAddr (m : Match) : Option Nat := if m.lit.isList then some m.id else none

example : listSample.delegate.Pairwise (fun a b => ∀ x, listAddr a = some x → listAddr b ≠ some x) ∧
    (pySorted Match.lt listSample.delegate).map (currentValue (fun a => if a = 1 then [.int 1] else []) listAddr) =
      [.list [.int 1], .int 2, .str ['c']] ∧
    expectedValue false false [.list [.int 1], .int 2, .str ['c']] = some (.list [.int 1, .int 2, .str ['c']]) := by
  refine ⟨?_, by decide +kernel, by decide +kernel⟩
  unfold listSample
  simp [listAddr, Val.isList, mk]

/-- `values_list` may miss a distinct value of a name, because the list shown first grows in the meantime: the values `[1]`, `2` and
`[1, 2]` are distinct but `values_list` ends with two of them. -/
theorem C100_values_list_refuted : ∃ (s : Matches) (h : ListHeap) (addr : Match → Option Nat),
    s.delegate.Pairwise (fun a b => ∀ x, addr a = some x → addr b ≠ some x) ∧
    (s.delegate.map (currentValue h addr)).Nodup ∧ s.delegate.length = 3 ∧ (∀ m ∈ s.delegate, m.name = some "x") ∧
    ((s.toDict h addr false false false).valuesList.getList (some "x")).length = 2 := by
  refine ⟨{ delegate := [{ mk 0 1 (some "x") with lit := .list [.int 1], id := 0 }, { mk 1 2 (some "x") with lit := .int 2 },
    { mk 2 3 (some "x") with lit := .list [.int 1, .int 2], id := 1 }] }, fun a => if a = 0 then [.int 1] else [.int 1, .int 2], listAddr, ?_, ?_, ?_, ?_, ?_⟩
  · simp [listAddr, Val.isList, mk]
  · decide +kernel
  · rfl
  · decide
  · decide +kernel

end Rebulk
