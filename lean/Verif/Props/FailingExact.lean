import Verif.Spec.FailingExact
import Verif.Props.Failing
import Verif.Model.Assign
/-!
# Deleting by position when values cannot be read, exactly (`C109`)
-/
namespace Rebulk
open Spec Matches

theorem eqvF_unsafe {broken : Match → Option Nat} {m y : Match} (h : ¬ SafePair broken m y) : ∃ n, eqvF broken m y = .error (.user n) := by
  have h1 : y.id ≠ m.id := fun e => h (.inl e)
  have h2 : y.span = m.span := Classical.byContradiction fun e => h (.inr (.inl e))
  unfold eqvF
  rw [if_neg (by simpa using h1), if_pos (by simpa using h2)]
  cases hy : broken y with
  | some n => exact ⟨n, rfl⟩
  | none => cases hm : broken m with
    | some n => exact ⟨n, rfl⟩
    | none => exact absurd (.inr (.inr ⟨hy, hm⟩)) h

theorem Spec.Stumbles.cons {broken : Match → Option Nat} {l : List Match} {x y : Match} (h : SafePair broken x y ∧ y.eqv x = false) :
    Stumbles broken (y :: l) x ↔ Stumbles broken l x := by
  constructor
  · rintro ⟨bf, z, af, h1, h2, h3⟩
    cases bf with
    | nil => cases h1; exact absurd h.1 h3
    | cons w bf =>
      cases h1
      exact ⟨bf, z, af, rfl, fun v hv => h2 v (List.mem_cons_of_mem _ hv), h3⟩
  · rintro ⟨bf, z, af, rfl, h2, h3⟩
    refine ⟨y :: bf, z, af, rfl, fun v hv => ?_, h3⟩
    rcases List.mem_cons.1 hv with rfl | hv
    · exact h
    · exact h2 v hv

theorem not_stumbles_equal {broken : Match → Option Nat} {l : List Match} {x y : Match} (h : SafePair broken x y) (he : y.eqv x = true) :
    ¬ Stumbles broken (y :: l) x := by
  rintro ⟨bf, z, af, h1, h2, h3⟩
  cases bf with
  | nil => cases h1; exact h3 h
  | cons w bf =>
    cases h1
    have := (h2 y (by simp)).2
    rw [he] at this; cases this

/-- `list.remove` raises exactly when looking for the match stumbles. -/
theorem removeFirstF_cases {broken : Match → Option Nat} {x : Match} : ∀ (l : List Match), (∀ y ∈ l, y.id = x.id → y = x) →
    (Stumbles broken l x → ∃ n, removeFirstF (eqvF broken x) l = .error (.user n)) ∧
    (¬ Stumbles broken l x → removeFirstF (eqvF broken x) l = .ok (removeFirst (fun y => y.eqv x) l))
  | [], _ => ⟨(by rintro ⟨bf, z, af, h1, _⟩; cases bf <;> cases h1), fun _ => rfl⟩
  | y :: l, hid => by
    by_cases hs : SafePair broken x y
    · have he : eqvF broken x y = .ok (y.eqv x) := by
        by_cases hi : y.id = x.id
        · rw [eqvF_self broken hi, hid y (by simp) hi, Match.eqv_refl]
        · refine eqvF_of_safe hi (fun hsp => ?_)
          rcases hs with h1 | h1 | h1
          · exact absurd h1 hi
          · exact absurd hsp h1
          · exact h1
      cases hq : y.eqv x with
      | true =>
        rw [hq] at he
        exact ⟨fun h => absurd h (not_stumbles_equal hs hq), fun _ => by simp only [removeFirstF, he, removeFirst, hq, if_true]⟩
      | false =>
        rw [hq] at he
        obtain ⟨i1, i2⟩ := removeFirstF_cases (broken := broken) l (fun z hz => hid z (List.mem_cons_of_mem _ hz))
        rw [Spec.Stumbles.cons ⟨hs, hq⟩]
        constructor
        · intro h
          obtain ⟨n, hn⟩ := i1 h
          exact ⟨n, by simp only [removeFirstF, he, hn]⟩
        · intro h
          simp only [removeFirstF, he, i2 h, removeFirst, hq, Bool.false_eq_true, if_false]
    · obtain ⟨n, hn⟩ := eqvF_unsafe hs
      refine ⟨fun _ => ⟨n, by simp only [removeFirstF, hn]⟩, fun h => absurd ⟨[], y, l, rfl, (fun v hv => by cases hv), hs⟩ h⟩

theorem removeFirst_found {x : Match} : ∀ {l : List Match}, (∃ y ∈ l, y.eqv x = true) → ∃ r, removeFirst (fun y => y.eqv x) l = some r
  | [], h => by obtain ⟨y, hy, _⟩ := h; cases hy
  | y :: l, h => by
    cases hq : y.eqv x with
    | true => exact ⟨l, by simp only [removeFirst, hq, if_true]⟩
    | false =>
      obtain ⟨z, hz, he⟩ := h
      rcases List.mem_cons.1 hz with rfl | hz
      · rw [he] at hq; cases hq
      · obtain ⟨r, hr⟩ := removeFirst_found ⟨z, hz, he⟩
        exact ⟨y :: r, by simp only [removeFirst, hq, hr, Bool.false_eq_true, if_false, Option.map_some]⟩

theorem removeKeysF_cases {κ : Type} [DecidableEq κ] {broken : Match → Option Nat} {x : Match} : ∀ (keys : List κ) (d : Index κ), keys.Nodup →
    (∀ k ∈ keys, (∃ y ∈ d.getList k, y.eqv x = true) ∧ ∀ y ∈ d.getList k, y.id = x.id → y = x) →
    ((∃ k ∈ keys, Stumbles broken (d.getList k) x) → ∃ n, (removeKeysF broken x keys d).2 = some (.user n)) ∧
    ((¬ ∃ k ∈ keys, Stumbles broken (d.getList k) x) → removeKeysF broken x keys d = ((removeKeys x keys d).1, none) ∧ (removeKeys x keys d).2 = true)
  | [], d, _, _ => ⟨(by rintro ⟨k, hk, _⟩; cases hk), fun _ => ⟨rfl, rfl⟩⟩
  | k :: ks, d, hn, h => by
    obtain ⟨hx, hid⟩ := h k List.mem_cons_self
    obtain ⟨i1, i2⟩ := removeFirstF_cases (broken := broken) _ hid
    by_cases hst : Stumbles broken (d.getList k) x
    · obtain ⟨n, e⟩ := i1 hst
      exact ⟨fun _ => ⟨n, by simp only [removeKeysF, e]⟩, fun hno => absurd ⟨k, List.mem_cons_self, hst⟩ hno⟩
    · obtain ⟨r, hr⟩ := removeFirst_found hx
      have e := i2 hst
      rw [hr] at e
      have hget : ∀ k' ∈ ks, (Dict.getList (Dict.set d k r) k') = d.getList k' := by
        intro k' hk'
        rw [Dict.getList_set, if_neg]
        rintro rfl
        exact (List.nodup_cons.1 hn).1 hk'
      obtain ⟨j1, j2⟩ := removeKeysF_cases (broken := broken) (x := x) ks (Dict.set d k r) (List.nodup_cons.1 hn).2 (fun k' hk' => by
        rw [hget k' hk']; exact h k' (List.mem_cons_of_mem _ hk'))
      constructor
      · rintro ⟨k', hk', hs'⟩
        rcases List.mem_cons.1 hk' with rfl | hk'
        · exact absurd hs' hst
        · simp only [removeKeysF, e]
          exact j1 ⟨k', hk', by rw [hget k' hk']; exact hs'⟩
      · intro hno
        simp only [removeKeysF, removeKeys, e, hr]
        refine j2 ?_
        rintro ⟨k', hk', hs'⟩
        rw [hget k' hk'] at hs'
        exact hno ⟨k', List.mem_cons_of_mem _ hk', hs'⟩

/-- One lookup. -/
theorem removeFromF_cases {κ : Type} [DecidableEq κ] {broken : Match → Option Nat} {x : Match} {keysOf : Match → List κ} {d : Option (Index κ)}
    {l : List Match} (hlit : LitO keysOf d l) (hx : x ∈ l) (hid : OneObjectPerId l) (hn : (keysOf x).Nodup) :
    ((d.isSome = true ∧ ∃ k ∈ keysOf x, Stumbles broken (filed keysOf l k) x) → ∃ n, (removeFromF broken d (keysOf x) x).2 = some (.user n)) ∧
    ((¬ (d.isSome = true ∧ ∃ k ∈ keysOf x, Stumbles broken (filed keysOf l k) x)) →
      removeFromF broken d (keysOf x) x = ((removeFrom d (keysOf x) x).1, none) ∧ (removeFrom d (keysOf x) x).2 = true) := by
  cases d with
  | none => exact ⟨(by rintro ⟨h, _⟩; cases h), fun _ => ⟨rfl, rfl⟩⟩
  | some d =>
    have hl : ∀ k, d.getList k = filed keysOf l k := fun k => hlit d rfl k
    obtain ⟨j1, j2⟩ := removeKeysF_cases (broken := broken) (x := x) (keysOf x) d hn (fun k hk => by
      rw [hl k]
      refine ⟨?_, fun y hy he => hid y (filed_subset _ _ _ hy) x hx he⟩
      refine ⟨x, List.mem_flatMap.2 ⟨x, hx, List.mem_replicate.2 ⟨?_, rfl⟩⟩, Match.eqv_refl x⟩
      have := List.count_pos_iff.2 hk
      omega)
    simp only [hl] at j1 j2
    constructor
    · rintro ⟨_, h⟩
      obtain ⟨n, e⟩ := j1 h
      exact ⟨n, by simp only [removeFromF]; exact e⟩
    · intro h
      obtain ⟨e1, e2⟩ := j2 (fun h' => h ⟨rfl, h'⟩)
      simp only [removeFromF, removeFrom]
      rw [e1]
      exact ⟨rfl, e2⟩

theorem removeFromF_error {κ : Type} [BEq κ] {broken : Match → Option Nat} {d : Option (Index κ)} {keys : List κ} {x : Match} {e : PyErr}
    (h : (removeFromF broken d keys x).2 = some e) : ∃ d', removeFromF broken d keys x = (d', some e) := ⟨_, Prod.ext rfl h⟩

theorem shrink_keeps_delegate (s : Matches) (x : Match) : (s.shrinkMaxEnd x).delegate = s.delegate := by
  unfold shrinkMaxEnd
  split
  · simp only
    split <;> rfl
  · rfl

/-- The sequence is shortened first, whatever happens then. -/
theorem removeMatchF_delegate (broken : Match → Option Nat) (s : Matches) (x : Match) : (removeMatchF broken s x).1.delegate = s.delegate := by
  unfold removeMatchF
  cases removeFromF broken s.nameD (nameKeys x) x with
  | mk d1 e1 => cases e1 with
    | some e => rfl
    | none =>
      simp only
      cases removeFromF broken s.tagD (tagKeys x) x with
      | mk d2 e2 => cases e2 with
        | some e => rfl
        | none =>
          simp only
          cases removeFromF broken s.startD (startKeys x) x with
          | mk d3 e3 => cases e3 with
            | some e => rfl
            | none =>
              simp only
              cases removeFromF broken s.endD (endKeys x) x with
              | mk d4 e4 => cases e4 with
                | some e => rfl
                | none =>
                  simp only
                  cases removeFromF broken s.indexD (indexKeys x) x with
                  | mk d5 e5 => cases e5 with
                    | some e => rfl
                    | none => exact shrink_keeps_delegate ..

/-- All lookups. -/
theorem removeMatchF_cases {broken : Match → Option Nat} {s : Matches} {x : Match} {l' : List Match} (h : Exact s) (hx : x ∈ s.delegate)
    (hid : OneObjectPerId s.delegate) (ht : ∀ m ∈ s.delegate, m.tags.Nodup) :
    (LookupStumbles broken s x → ∃ n, (removeMatchF broken { s with delegate := l' } x).2 = some (.user n)) ∧
    (¬ LookupStumbles broken s x → removeMatchF broken { s with delegate := l' } x = removeMatch { s with delegate := l' } x) := by
  have key1 : ∀ (P : Prop), (∃ k ∈ nameKeys x, Stumbles broken (filed nameKeys s.delegate k) x) ↔
      ∃ n, x.name = some n ∧ n ≠ "" ∧ Stumbles broken (named s.delegate n) x := by
    intro _
    constructor
    · rintro ⟨k, hk, hs⟩
      have hkn : x.name = some k ∧ k ≠ "" := by
        unfold nameKeys Match.nameKey at hk
        cases hn : x.name with
        | none => rw [hn] at hk; simp at hk
        | some n =>
          rw [hn] at hk
          by_cases he : n = ""
          · simp [he] at hk
          · simp [he] at hk; exact ⟨by rw [hk], by rw [hk]; exact he⟩
      exact ⟨k, hkn.1, hkn.2, by rw [filed_name _ hkn.2] at hs; exact hs⟩
    · rintro ⟨n, h1, h2, hs⟩
      refine ⟨n, ?_, by rw [filed_name _ h2]; exact hs⟩
      unfold nameKeys Match.nameKey
      rw [h1]; simp [h2]
  have nn : (nameKeys x).Nodup := by
    unfold nameKeys
    cases x.nameKey <;> simp
  have N := removeFromF_cases (broken := broken) h.name hx hid nn
  have T := removeFromF_cases (broken := broken) h.tag hx hid (ht x hx)
  have S := removeFromF_cases (broken := broken) h.start hx hid (by simp [startKeys])
  have Z := removeFromF_cases (broken := broken) h.stop hx hid (by simp [endKeys])
  have I := removeFromF_cases (broken := broken) h.index hx hid (by exact pyRange_nodup _ _)
  rw [key1 True] at N
  simp only [filed_tag _ _ ht] at T
  simp only [filed_start, startKeys, List.mem_singleton, exists_eq_left] at S
  simp only [filed_end, endKeys, List.mem_singleton, exists_eq_left] at Z
  simp only [filed_index, indexKeys, mem_pyRange, and_assoc] at I
  by_cases hN : s.nameD.isSome = true ∧ ∃ n, x.name = some n ∧ n ≠ "" ∧ Stumbles broken (named s.delegate n) x
  · obtain ⟨n, e⟩ := N.1 hN
    obtain ⟨d', e⟩ := removeFromF_error e
    exact ⟨fun _ => ⟨n, by simp only [removeMatchF, e]⟩, fun hno => absurd (.inl hN) hno⟩
  obtain ⟨n1, n2⟩ := N.2 hN
  by_cases hT : s.tagD.isSome = true ∧ ∃ t, t ∈ x.tags ∧ Stumbles broken (tagged s.delegate t) x
  · obtain ⟨n, e⟩ := T.1 hT
    obtain ⟨d', e⟩ := removeFromF_error e
    exact ⟨fun _ => ⟨n, by simp only [removeMatchF, n1, e]⟩, fun hno => absurd (.inr (.inl hT)) hno⟩
  obtain ⟨t1, t2⟩ := T.2 hT
  by_cases hS : s.startD.isSome = true ∧ Stumbles broken (starting s.delegate x.start) x
  · obtain ⟨n, e⟩ := S.1 hS
    obtain ⟨d', e⟩ := removeFromF_error e
    exact ⟨fun _ => ⟨n, by simp only [removeMatchF, n1, t1, startKeys, e]⟩, fun hno => absurd (.inr (.inr (.inl hS))) hno⟩
  obtain ⟨s1, s2⟩ := S.2 hS
  by_cases hZ : s.endD.isSome = true ∧ Stumbles broken (ending s.delegate x.stop) x
  · obtain ⟨n, e⟩ := Z.1 hZ
    obtain ⟨d', e⟩ := removeFromF_error e
    exact ⟨fun _ => ⟨n, by simp only [removeMatchF, n1, t1, startKeys, s1, endKeys, e]⟩, fun hno => absurd (.inr (.inr (.inr (.inl hZ)))) hno⟩
  obtain ⟨e1, e2⟩ := Z.2 hZ
  by_cases hI : s.indexD.isSome = true ∧ ∃ i, x.start ≤ i ∧ i < x.stop ∧ Stumbles broken (covering s.delegate i) x
  · obtain ⟨n, e⟩ := I.1 hI
    obtain ⟨d', e⟩ := removeFromF_error e
    exact ⟨fun _ => ⟨n, by simp only [removeMatchF, n1, t1, startKeys, s1, endKeys, e1, indexKeys, e]⟩,
      fun hno => absurd (.inr (.inr (.inr (.inr hI)))) hno⟩
  obtain ⟨i1, i2⟩ := I.2 hI
  refine ⟨?_, fun _ => ?_⟩
  · rintro (h | h | h | h | h)
    · exact absurd h hN
    · exact absurd h hT
    · exact absurd h hS
    · exact absurd h hZ
    · exact absurd h hI
  · simp only [removeMatchF, removeMatch, startKeys, endKeys, indexKeys, n1, n2, t1, t2, s1, s2, e1, e2, i1, i2, Bool.not_true, Bool.false_eq_true, if_false]

/-- **C109, deletions by position exactly**: in a container filled and emptied by value, `del matches[i]` raises what a formatter raises exactly when a lookup
made before stumbles looking for the match deleted among those it gives for a name, a tag, the start, the end or an index of the match; the match is then gone from
the sequence all the same. Otherwise the call does what it does when no formatter raises. -/
theorem C109_position_exact {b : Bool} {input : Option Str} {s : Matches} (h : ReachableByValue b input s) (hid : OneObjectPerId s.delegate)
    (ht : ∀ m ∈ s.delegate, m.tags.Nodup) (broken : Match → Option Nat) (i : Int) {A B : List Match} {x : Match} (hd : s.delegate = A ++ x :: B)
    (hi : i = A.length ∨ i = (A.length : Int) - s.delegate.length) :
    (LookupStumbles broken s x → ∃ n s', s.delItemF broken i = (s', some (.user n)) ∧ s'.delegate = A ++ B) ∧
    (¬ LookupStumbles broken s x → s.delItemF broken i = s.delItem i) := by
  have hx : x ∈ s.delegate := by rw [hd]; simp
  have hn : normIdx s.delegate.length i = some A.length := by
    have hl : A.length < s.delegate.length := by rw [hd]; simp
    unfold normIdx
    rcases hi with rfl | rfl
    · rw [if_pos (by omega), if_pos (by omega)]; rfl
    · rw [if_neg (by omega), if_pos (by omega)]
      congr 1
      omega
  have hg : s.delegate[A.length]? = some x := by rw [hd]; simp
  have he : s.delegate.eraseIdx A.length = A ++ B := by rw [hd]; simp [List.eraseIdx_append]
  obtain ⟨j1, j2⟩ := removeMatchF_cases (broken := broken) (l' := A ++ B) (tidy_byValue h).1.exact_ hx hid ht
  simp only [delItemF, delItem, hn, hg, he]
  refine ⟨fun hs => ?_, j2⟩
  obtain ⟨n, e⟩ := j1 hs
  exact ⟨n, _, Prod.ext rfl e, removeMatchF_delegate ..⟩

/-! ## When all values can be read -/

theorem removeFirst_within_list {p : Match → Bool} : ∀ {l r : List Match}, removeFirst p l = some r → ∀ y ∈ r, y ∈ l
  | [], _, h, _, _ => by cases h
  | x :: l, r, h, y, hy => by
    simp only [removeFirst] at h
    by_cases hp : p x = true
    · rw [if_pos hp] at h
      cases h
      exact List.mem_cons_of_mem _ hy
    · rw [if_neg hp] at h
      obtain ⟨r', hr, rfl⟩ := Option.map_eq_some_iff.1 h
      rcases List.mem_cons.1 hy with rfl | hy
      · exact List.mem_cons_self
      · exact List.mem_cons_of_mem _ (removeFirst_within_list hr y hy)

theorem readable_no_stumble {broken : Match → Option Nat} {l : List Match} {x : Match} (hx : broken x = none) (h : ∀ y ∈ l, broken y = none) :
    ¬ Stumbles broken l x := by
  rintro ⟨bf, z, af, h1, _, h3⟩
  exact h3 (.inr (.inr ⟨h z (by rw [h1]; simp), hx⟩))

/-- All of them can be read, and what has the identity of `x` is `x`. -/
def Plainly (broken : Match → Option Nat) (x : Match) (l : List Match) : Prop := ∀ y ∈ l, broken y = none ∧ (y.id = x.id → y = x)

theorem removeKeysF_plain {κ : Type} [DecidableEq κ] {broken : Match → Option Nat} {x : Match} (hx : broken x = none) : ∀ (keys : List κ) (d : Index κ),
    (∀ k, Plainly broken x (d.getList k)) →
    removeKeysF broken x keys d = ((removeKeys x keys d).1, if (removeKeys x keys d).2 then none else some .valueError)
  | [], d, _ => rfl
  | k :: ks, d, h => by
    have e := (removeFirstF_cases (broken := broken) (x := x) (d.getList k) (fun y hy => (h k y hy).2)).2
      (readable_no_stumble hx (fun y hy => (h k y hy).1))
    cases hr : removeFirst (fun y => y.eqv x) (d.getList k) with
    | none =>
      rw [hr] at e
      simp only [removeKeysF, removeKeys, e, hr, Bool.false_eq_true, if_false]
    | some r =>
      rw [hr] at e
      simp only [removeKeysF, removeKeys, e, hr]
      refine removeKeysF_plain hx ks _ (fun k' => ?_)
      rw [Dict.getList_set]
      by_cases hk : k = k'
      · rw [if_pos hk]
        exact fun y hy => h k y (removeFirst_within_list hr y hy)
      · rw [if_neg hk]; exact h k'

theorem removeFromF_plain {κ : Type} [DecidableEq κ] {broken : Match → Option Nat} {x : Match} (hx : broken x = none) (keys : List κ)
    {d : Option (Index κ)} (h : ∀ d', d = some d' → ∀ k, Plainly broken x (d'.getList k)) :
    removeFromF broken d keys x = ((removeFrom d keys x).1, if (removeFrom d keys x).2 then none else some .valueError) := by
  cases d with
  | none => rfl
  | some d =>
    simp only [removeFromF, removeFrom]
    rw [removeKeysF_plain hx keys d (h d rfl)]
    rfl

/-- **C109**: if the values of all the matches held can be read, deletions are those of a program without formatters, in any container whatever (also one
whose matches were assigned to). -/
theorem C109_readable {s : Matches} {broken : Match → Option Nat} (hb : ∀ y, HeldBy s y → broken y = none)
    (hid : ∀ y z, HeldBy s y → HeldBy s z → y.id = z.id → y = z) (i : Int) : s.delItemF broken i = s.delItem i := by
  unfold delItemF delItem
  cases normIdx s.delegate.length i with
  | none => rfl
  | some k =>
    cases hk : s.delegate[k]? with
    | none => simp only [hk]
    | some x =>
      simp only [hk]
      have hx : HeldBy s x := .inl (List.mem_of_getElem? hk)
      have pl : ∀ y, HeldBy s y → broken y = none ∧ (y.id = x.id → y = x) := fun y hy => ⟨hb y hy, hid y x hy hx⟩
      have n := removeFromF_plain (hb x hx) (nameKeys x) (d := s.nameD) (fun d hd k y hy => pl y (.inr (.inl ⟨d, k, hd, hy⟩)))
      have t := removeFromF_plain (hb x hx) (tagKeys x) (d := s.tagD) (fun d hd k y hy => pl y (.inr (.inr (.inl ⟨d, k, hd, hy⟩))))
      have b := removeFromF_plain (hb x hx) (startKeys x) (d := s.startD) (fun d hd k y hy => pl y (.inr (.inr (.inr (.inl ⟨d, k, hd, hy⟩)))))
      have e := removeFromF_plain (hb x hx) (endKeys x) (d := s.endD) (fun d hd k y hy => pl y (.inr (.inr (.inr (.inr (.inl ⟨d, k, hd, hy⟩))))))
      have j := removeFromF_plain (hb x hx) (indexKeys x) (d := s.indexD) (fun d hd k y hy => pl y (.inr (.inr (.inr (.inr (.inr ⟨d, k, hd, hy⟩))))))
      simp only [removeMatchF, removeMatch, n, t, b, e, j]
      cases (removeFrom s.nameD (nameKeys x) x).2 <;> cases (removeFrom s.tagD (tagKeys x) x).2 <;> cases (removeFrom s.startD (startKeys x) x).2 <;>
        cases (removeFrom s.endD (endKeys x) x).2 <;> cases (removeFrom s.indexD (indexKeys x) x).2 <;> rfl

/-! ## The hypotheses are met -/

/-- Three matches of one span; the second has the tag of the first. A name and a tag were looked up. -/
def brokenTagged : Matches :=
  (Matches.empty false none).runOps [.append { cm 0 0 3 with name := some "a", tags := ["t"] }, .tagged "t", .named ["a"],
    .append { cm 1 0 3 with name := some "b", tags := ["t"] }, .append { cm 2 0 3 with name := some "c" }]

/-- Deleting the second one raises, since the tag was looked up; deleting the third one does not: no lookup gives it along with the first. -/
example : ReachableByValue false none brokenTagged ∧ (∀ m ∈ brokenTagged.delegate, m.tags.Nodup) ∧
    LookupStumbles brokenFirst brokenTagged { cm 1 0 3 with name := some "b", tags := ["t"] } ∧
    (brokenTagged.delItemF brokenFirst 1).2 = some (.user 7) ∧ (brokenTagged.delItemF brokenFirst 1).1.delegate.map Match.id = [0, 2] ∧
    (brokenTagged.delItemF brokenFirst 2).2 = none ∧ (brokenTagged.delItemF brokenFirst (-1)).1.delegate.map Match.id = [0, 1] :=
  ⟨⟨_, by decide, rfl⟩, by decide, .inr (.inl ⟨rfl, "t", by decide, ⟨[], _, _, rfl, (fun x hx => by cases hx), (fun h => by
    rcases h with h | h | h
    · revert h; decide
    · exact h rfl
    · cases h.1)⟩⟩), by decide, by decide, by decide, by decide⟩

example : OneObjectPerId brokenTagged.delegate := by
  have hd : brokenTagged.delegate = [{ cm 0 0 3 with name := some "a", tags := ["t"] }, { cm 1 0 3 with name := some "b", tags := ["t"] },
    { cm 2 0 3 with name := some "c" }] := rfl
  intro a ha b hb hab
  rw [hd] at ha hb
  simp only [List.mem_cons, List.not_mem_nil, or_false] at ha hb
  rcases ha with rfl | rfl | rfl <;> rcases hb with rfl | rfl | rfl <;> first | rfl | (exfalso; revert hab; decide)

/-- No formatter raises. -/
def brokenNone (_ : Match) : Option Nat := none

/-- A match whose name was assigned after it was filed: deleting it raises `ValueError`, whatever the formatters. -/
example : let s := (Matches.empty false none).runOps [.append { cm 0 0 3 with name := some "a" }, .named ["a"]]
    (∀ m ∈ s.delegate, brokenNone m = none) ∧
    ((s.change (fun m => m.id == 0) (Attr.name (some "z")).assign).delItemF brokenNone 0).2 = some .valueError := by
  refine ⟨?_, ?_⟩ <;> decide

end Rebulk
