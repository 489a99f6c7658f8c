import Verif.Spec.FailingHistories
import Verif.Props.FailingExact
/-!
# Removing matches whose values cannot be read, in any container (`C109`)
-/
namespace Rebulk
open Spec Matches

theorem mem_nameKeys_iff {x : Match} {k : String} : k ∈ nameKeys x ↔ x.name = some k ∧ k ≠ "" := by
  unfold nameKeys Match.nameKey
  cases hn : x.name with
  | none => simp
  | some n =>
    by_cases he : n = ""
    · subst he
      simp only [if_true, beq_self_eq_true]
      constructor
      · intro h; simp at h
      · rintro ⟨h1, h2⟩; cases h1; exact absurd rfl h2
    · simp [he]
      constructor
      · rintro rfl; exact ⟨rfl, he⟩
      · rintro ⟨h, _⟩; exact h.symm

theorem removeFromF_coh {κ : Type} [DecidableEq κ] {broken : Match → Option Nat} {x : Match} {keysOf : Match → List κ} {d : Option (Index κ)} (d0 : Index κ)
    {l : List Match} (hc : CohO keysOf d l) (hx : x ∈ l) (hid : ∀ d', d = some d' → ∀ k, ∀ y ∈ d'.getList k, y.id = x.id → y = x)
    (hn : (keysOf x).Nodup) :
    ((d.isSome = true ∧ ∃ k, k ∈ keysOf x ∧ Stumbles broken ((d.getD d0).getList k) x) → ∃ n, (removeFromF broken d (keysOf x) x).2 = some (.user n)) ∧
    ((¬ (d.isSome = true ∧ ∃ k, k ∈ keysOf x ∧ Stumbles broken ((d.getD d0).getList k) x)) →
      removeFromF broken d (keysOf x) x = ((removeFrom d (keysOf x) x).1, none) ∧ (removeFrom d (keysOf x) x).2 = true) := by
  cases d with
  | none => exact ⟨(by rintro ⟨h, _⟩; cases h), fun _ => ⟨rfl, rfl⟩⟩
  | some d =>
    obtain ⟨j1, j2⟩ := removeKeysF_cases (broken := broken) (x := x) (keysOf x) d hn (fun k hk => by
      refine ⟨?_, hid d rfl k⟩
      have hm : x ∈ filed keysOf l k := by
        refine List.mem_flatMap.2 ⟨x, hx, List.mem_replicate.2 ⟨?_, rfl⟩⟩
        have := List.count_pos_iff.2 hk
        omega
      have := (hc d rfl k).mem_iff.2 (List.mem_map_of_mem (f := Match.eqKey) hm)
      obtain ⟨y, hy, he⟩ := List.mem_map.1 this
      exact ⟨y, hy, (Match.eqv_iff y x).2 he⟩)
    simp only [Option.getD_some]
    constructor
    · rintro ⟨_, h⟩
      obtain ⟨n, e⟩ := j1 h
      exact ⟨n, by simp only [removeFromF]; exact e⟩
    · intro h
      obtain ⟨e1, e2⟩ := j2 (fun h' => h ⟨rfl, h'⟩)
      simp only [removeFromF, removeFrom]
      rw [e1]
      exact ⟨rfl, e2⟩

/-- All lookups. -/
theorem removeMatchF_coh {broken : Match → Option Nat} {s : Matches} {x : Match} {l' : List Match} (h : Inv s) (hx : x ∈ s.delegate)
    (hid : ∀ y, HeldBy s y → y.id = x.id → y = x) (ht : x.tags.Nodup) :
    (LookupStumblesNow broken s x → ∃ n, (removeMatchF broken { s with delegate := l' } x).2 = some (.user n)) ∧
    (¬ LookupStumblesNow broken s x → removeMatchF broken { s with delegate := l' } x = removeMatch { s with delegate := l' } x) := by
  have nn : (nameKeys x).Nodup := by
    unfold nameKeys
    cases x.nameKey <;> simp
  have N := removeFromF_coh (broken := broken) (buildName s.delegate) h.name hx (fun d hd k y hy => hid y (.inr (.inl ⟨d, k, hd, hy⟩))) nn
  have T := removeFromF_coh (broken := broken) (buildTag s.delegate) h.tag hx (fun d hd k y hy => hid y (.inr (.inr (.inl ⟨d, k, hd, hy⟩)))) ht
  have S := removeFromF_coh (broken := broken) (buildStart s.delegate) h.start hx (fun d hd k y hy => hid y (.inr (.inr (.inr (.inl ⟨d, k, hd, hy⟩)))))
    (by simp [startKeys])
  have Z := removeFromF_coh (broken := broken) (buildEnd s.delegate) h.stop hx (fun d hd k y hy => hid y (.inr (.inr (.inr (.inr (.inl ⟨d, k, hd, hy⟩))))))
    (by simp [endKeys])
  have I := removeFromF_coh (broken := broken) (buildIndex s.delegate) h.index hx
    (fun d hd k y hy => hid y (.inr (.inr (.inr (.inr (.inr ⟨d, k, hd, hy⟩)))))) (pyRange_nodup _ _)
  simp only [mem_nameKeys_iff] at N
  simp only [startKeys, List.mem_singleton, exists_eq_left] at S
  simp only [endKeys, List.mem_singleton, exists_eq_left] at Z
  simp only [indexKeys, mem_pyRange] at I
  by_cases hN : s.nameD.isSome = true ∧ ∃ n, (x.name = some n ∧ n ≠ "") ∧ Stumbles broken (s.lookName n).2 x
  · obtain ⟨n, e⟩ := N.1 hN
    obtain ⟨d', e⟩ := removeFromF_error e
    exact ⟨fun _ => ⟨n, by simp only [removeMatchF, e]⟩, fun hno => absurd (.inl hN) hno⟩
  obtain ⟨n1, n2⟩ := N.2 hN
  by_cases hT : s.tagD.isSome = true ∧ ∃ t, t ∈ x.tags ∧ Stumbles broken (s.lookTag t).2 x
  · obtain ⟨n, e⟩ := T.1 hT
    obtain ⟨d', e⟩ := removeFromF_error e
    exact ⟨fun _ => ⟨n, by simp only [removeMatchF, n1, e]⟩, fun hno => absurd (.inr (.inl hT)) hno⟩
  obtain ⟨t1, t2⟩ := T.2 hT
  by_cases hS : s.startD.isSome = true ∧ Stumbles broken (s.lookStart x.start).2 x
  · obtain ⟨n, e⟩ := S.1 hS
    obtain ⟨d', e⟩ := removeFromF_error e
    exact ⟨fun _ => ⟨n, by simp only [removeMatchF, n1, t1, startKeys, e]⟩, fun hno => absurd (.inr (.inr (.inl hS))) hno⟩
  obtain ⟨s1, s2⟩ := S.2 hS
  by_cases hZ : s.endD.isSome = true ∧ Stumbles broken (s.lookEnd x.stop).2 x
  · obtain ⟨n, e⟩ := Z.1 hZ
    obtain ⟨d', e⟩ := removeFromF_error e
    exact ⟨fun _ => ⟨n, by simp only [removeMatchF, n1, t1, startKeys, s1, endKeys, e]⟩, fun hno => absurd (.inr (.inr (.inr (.inl hZ)))) hno⟩
  obtain ⟨e1, e2⟩ := Z.2 hZ
  by_cases hI : s.indexD.isSome = true ∧ ∃ i, (x.start ≤ i ∧ i < x.stop) ∧ Stumbles broken (s.lookIndex i).2 x
  · obtain ⟨n, e⟩ := I.1 hI
    obtain ⟨d', e⟩ := removeFromF_error e
    exact ⟨fun _ => ⟨n, by simp only [removeMatchF, n1, t1, startKeys, s1, endKeys, e1, indexKeys, e]⟩,
      fun hno => absurd (.inr (.inr (.inr (.inr hI)))) hno⟩
  obtain ⟨i1, i2⟩ := I.2 hI
  refine ⟨?_, fun _ => ?_⟩
  · rintro (h | h | h | h | h)
    · exact absurd h hN
    · exact absurd h hT
    · exact absurd h hS
    · exact absurd h hZ
    · exact absurd h hI
  · simp only [removeMatchF, removeMatch, startKeys, endKeys, indexKeys, n1, n2, t1, t2, s1, s2, e1, e2, i1, i2, Bool.not_true, Bool.false_eq_true, if_false]

/-- **C109, deletions by position, in any container**: `del matches[i]` raises what a formatter raises exactly when a lookup made before stumbles looking for
the match deleted; the match is then gone from the sequence all the same. Otherwise the call does what it does when no formatter raises. -/
theorem C109_delete_exact {b : Bool} {input : Option Str} {s : Matches} (h : Reachable b input s) (broken : Match → Option Nat) (i : Int)
    {A B : List Match} {x : Match} (hid : ∀ y, HeldBy s y → y.id = x.id → y = x) (ht : x.tags.Nodup) (hd : s.delegate = A ++ x :: B)
    (hi : i = A.length ∨ i = (A.length : Int) - s.delegate.length) :
    (LookupStumblesNow broken s x → ∃ n s', s.delItemF broken i = (s', some (.user n)) ∧ s'.delegate = A ++ B) ∧
    (¬ LookupStumblesNow broken s x → s.delItemF broken i = s.delItem i) := by
  have hx : x ∈ s.delegate := by rw [hd]; simp
  have hn : normIdx s.delegate.length i = some A.length := by
    have hl : A.length < s.delegate.length := by rw [hd]; simp
    unfold normIdx
    rcases hi with rfl | rfl
    · rw [if_pos (by omega), if_pos (by omega)]; rfl
    · rw [if_neg (by omega), if_pos (by omega)]
      congr 1
      omega
  have hg : s.delegate[A.length]? = some x := by rw [hd]; simp
  have he : s.delegate.eraseIdx A.length = A ++ B := by rw [hd]; simp [List.eraseIdx_append]
  obtain ⟨j1, j2⟩ := removeMatchF_coh (broken := broken) (l' := A ++ B) h.inv hx hid ht
  simp only [delItemF, delItem, hn, hg, he]
  refine ⟨fun hs => ?_, j2⟩
  obtain ⟨n, e⟩ := j1 hs
  exact ⟨n, _, Prod.ext rfl e, removeMatchF_delegate ..⟩

/-- **C109, `remove(m)`, in any container**: when looking for `m` in the sequence stumbles, the exception comes out and nothing has changed; otherwise the call
deletes the first match equal to `m` by its position (`C109_delete_exact` says when that raises), or raises `ValueError` when there is none. -/
theorem C109_remove_exact {s : Matches} (broken : Match → Option Nat) (m : Match) (hid : ∀ y ∈ s.delegate, y.id = m.id → y = m) :
    (Stumbles broken s.delegate m → ∃ n, s.removeF broken m = (s, some (.user n))) ∧
    (¬ Stumbles broken s.delegate m →
      (∀ A x B, s.delegate = A ++ x :: B → (∀ y ∈ A, y.eqv m = false) → x.eqv m = true → s.removeF broken m = s.delItemF broken A.length) ∧
      ((∀ y ∈ s.delegate, y.eqv m = false) → s.removeF broken m = (s, some .valueError))) := by
  have find : ∀ (l : List Match), (∀ y ∈ l, y.id = m.id → y = m) →
      (Stumbles broken l m → ∃ n, findF (eqvF broken m) l = .error (.user n)) ∧
      (¬ Stumbles broken l m → findF (eqvF broken m) l = .ok (l.findIdx? (fun y => y.eqv m))) := by
    intro l
    induction l with
    | nil => exact fun _ => ⟨(by rintro ⟨bf, z, af, h1, _⟩; cases bf <;> cases h1), fun _ => rfl⟩
    | cons y l ih =>
      intro hid
      by_cases hs : SafePair broken m y
      · have he : eqvF broken m y = .ok (y.eqv m) := by
          by_cases hi : y.id = m.id
          · rw [eqvF_self broken hi, hid y (by simp) hi, Match.eqv_refl]
          · refine eqvF_of_safe hi (fun hsp => ?_)
            rcases hs with h1 | h1 | h1
            · exact absurd h1 hi
            · exact absurd hsp h1
            · exact h1
        cases hq : y.eqv m with
        | true =>
          rw [hq] at he
          exact ⟨fun h => absurd h (not_stumbles_equal hs hq), fun _ => by simp only [findF, he, List.findIdx?_cons, hq, if_true]⟩
        | false =>
          rw [hq] at he
          obtain ⟨i1, i2⟩ := ih (fun z hz => hid z (List.mem_cons_of_mem _ hz))
          rw [Spec.Stumbles.cons ⟨hs, hq⟩]
          constructor
          · intro h
            obtain ⟨n, hn⟩ := i1 h
            exact ⟨n, by simp only [findF, he, hn]⟩
          · intro h
            simp only [findF, he, i2 h, List.findIdx?_cons, hq, Bool.false_eq_true, if_false]
      · obtain ⟨n, hn⟩ := eqvF_unsafe hs
        exact ⟨fun _ => ⟨n, by simp only [findF, hn]⟩, fun h => absurd ⟨[], y, l, rfl, (fun v hv => by cases hv), hs⟩ h⟩
  obtain ⟨f1, f2⟩ := find s.delegate hid
  constructor
  · intro h
    obtain ⟨n, e⟩ := f1 h
    exact ⟨n, by simp only [removeF, e]⟩
  · intro h
    have e := f2 h
    constructor
    · intro A x B hd hA hx
      have hf : s.delegate.findIdx? (fun y => y.eqv m) = some A.length := by rw [hd]; exact findIdx_split hA hx
      simp only [removeF, e, hf]
    · intro hno
      have hf : s.delegate.findIdx? (fun y => y.eqv m) = none := by
        rw [List.findIdx?_eq_none_iff]; exact hno
      simp only [removeF, e, hf]

/-! ## The hypotheses are met -/

/-- `C109_refuted`'s container: `remove` finds the inserted match at once, and then the lookup stumbles over the one whose value cannot be read. -/
example : Reachable false none brokenSample ∧
    LookupStumblesNow brokenFirst brokenSample { cm 1 0 3 with name := some "b" } ∧
    (brokenSample.delItemF brokenFirst 0).2 = some (.user 7) ∧ (brokenSample.delItemF brokenFirst 0).1.delegate.map Match.id = [0] ∧
    (brokenSample.removeF brokenFirst { cm 1 0 3 with name := some "b" }).2 = some (.user 7) :=
  ⟨⟨_, by decide, rfl⟩, .inr (.inr (.inl ⟨rfl, ⟨[], { cm 0 0 3 with name := some "a" }, [{ cm 1 0 3 with name := some "b" }], rfl, (fun x hx => by cases hx), (fun h => by
    rcases h with h | h | h
    · revert h; decide
    · exact h rfl
    · cases h.1)⟩⟩)), by decide, by decide, by decide⟩

/-- Looking for it in the sequence does not stumble. -/
example : ¬ Stumbles brokenFirst brokenSample.delegate { cm 1 0 3 with name := some "b" } :=
  not_stumbles_equal (x := { cm 1 0 3 with name := some "b" }) (.inl rfl) (Match.eqv_refl _)

end Rebulk
