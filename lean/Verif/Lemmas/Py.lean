import Verif.Model.Match
/-!
# Lemmas on the Python primitives
-/
namespace Rebulk

/-! ## Ranges -/

theorem mem_pyRange {a b i : Int} : i ∈ pyRange a b ↔ a ≤ i ∧ i < b := by
  unfold pyRange
  simp only [List.mem_map, List.mem_range]
  constructor
  · rintro ⟨n, hn, rfl⟩; omega
  · intro h; exact ⟨(i - a).toNat, by omega, by omega⟩

theorem pyRange_eq_nil {a b : Int} (h : b ≤ a) : pyRange a b = [] := by
  unfold pyRange
  have : (b - a).toNat = 0 := by omega
  simp [this]

theorem pyRange_cons {a b : Int} (h : a < b) : pyRange a b = a :: pyRange (a + 1) b := by
  unfold pyRange
  have : (b - a).toNat = (b - (a + 1)).toNat + 1 := by omega
  rw [this, List.range_succ_eq_map]
  simp only [List.map_cons, List.map_map]
  congr 1
  · simp
  · apply List.map_congr_left
    intro x _
    simp only [Function.comp]
    omega

theorem pyRange_append {a b c : Int} (h1 : a ≤ b) (h2 : b ≤ c) : pyRange a c = pyRange a b ++ pyRange b c := by
  obtain ⟨n, hn⟩ : ∃ n : Nat, b = a + n := ⟨(b - a).toNat, by omega⟩
  induction n generalizing a with
  | zero => have : b = a := by omega
            subst this; rw [pyRange_eq_nil (Int.le_refl b)]; rfl
  | succ n ih =>
    rw [pyRange_cons (show a < c by omega), pyRange_cons (show a < b by omega), ih (a := a + 1) (by omega) (by omega)]
    rfl

theorem pyRange_snoc {a b : Int} (h : a ≤ b) : pyRange a (b + 1) = pyRange a b ++ [b] := by
  rw [pyRange_append h (by omega), pyRange_cons (show b < b + 1 by omega), pyRange_eq_nil (Int.le_refl _)]

theorem pyRange_nodup (a b : Int) : (pyRange a b).Nodup := by
  unfold pyRange
  apply List.Pairwise.map _ (R := (· ≠ ·)) (fun x y h => by omega)
  exact List.nodup_range

theorem pyRange_length (a b : Int) : (pyRange a b).length = (b - a).toNat := by simp [pyRange]

/-! ## Dictionaries -/

namespace Dict
variable {κ ν : Type} [DecidableEq κ] [BEq κ] [LawfulBEq κ]

theorem get?_set (d : Dict κ ν) (k k' : κ) (v : ν) :
    (d.set k v).get? k' = if k = k' then some v else d.get? k' := by
  induction d with
  | nil => simp only [set, get?, beq_iff_eq]
  | cons kv r ih =>
    obtain ⟨k0, v0⟩ := kv
    simp only [set, beq_iff_eq]
    by_cases h0 : k0 = k
    · subst h0; simp only [if_true, get?, beq_iff_eq]; split <;> rfl
    · simp only [h0, if_false, get?, beq_iff_eq, ih]
      by_cases h1 : k0 = k'
      · subst h1; simp [Ne.symm h0]
      · simp [h1]

theorem keys_set (d : Dict κ ν) (k : κ) (v : ν) :
    (d.set k v).keys = if k ∈ d.keys then d.keys else d.keys ++ [k] := by
  induction d with
  | nil => rfl
  | cons kv r ih =>
    obtain ⟨k0, v0⟩ := kv
    simp only [set, beq_iff_eq]
    by_cases h0 : k0 = k
    · subst h0; simp [keys]
    · simp only [h0, if_false]
      have h0' : ¬ k = k0 := fun h => h0 h.symm
      unfold keys at ih ⊢
      simp only [List.map_cons, List.mem_cons, h0', false_or]
      rw [show (set r k v).map Prod.fst = _ from ih]
      split <;> simp

theorem contains_iff (d : Dict κ ν) (k : κ) : d.contains k = true ↔ k ∈ d.keys := by
  induction d with
  | nil => simp [contains, get?, keys]
  | cons kv r ih =>
    obtain ⟨k0, v0⟩ := kv
    simp only [contains, get?, beq_iff_eq, keys, List.map_cons, List.mem_cons] at ih ⊢
    by_cases h0 : k0 = k
    · simp [h0]
    · have h0' : ¬ k = k0 := fun h => h0 h.symm
      simp only [h0, if_false, h0', false_or]; exact ih

theorem get?_isSome_iff (d : Dict κ ν) (k : κ) : (d.get? k).isSome = true ↔ k ∈ d.keys := contains_iff d k

theorem get?_eq_none_iff (d : Dict κ ν) (k : κ) : d.get? k = none ↔ k ∉ d.keys := by
  rw [← get?_isSome_iff]; cases d.get? k <;> simp

theorem getList_set {α} (d : Dict κ (List α)) (k k' : κ) (v : List α) :
    Dict.getList (d.set k v) k' = if k = k' then v else d.getList k' := by
  simp only [Dict.getList, get?_set]; split <;> rfl

theorem getList_append {α} (d : Dict κ (List α)) (k k' : κ) (x : α) :
    Dict.getList (d.append k x) k' = if k = k' then d.getList k' ++ [x] else d.getList k' := by
  simp only [Dict.append, getList_set]; split
  · next h => subst h; rfl
  · rfl

theorem getList_extend {α} (d : Dict κ (List α)) (k k' : κ) (xs : List α) :
    Dict.getList (d.extend k xs) k' = if k = k' then d.getList k' ++ xs else d.getList k' := by
  simp only [Dict.extend, getList_set]; split
  · next h => subst h; rfl
  · rfl

theorem getList_touch {α} (d : Dict κ (List α)) (k k' : κ) :
    Dict.getList (d.touch k) k' = d.getList k' := by
  simp only [Dict.touch]
  split
  · rfl
  · next h =>
    rw [getList_set]
    split
    · next e =>
      subst e
      simp only [contains, Bool.not_eq_true, Option.isSome_eq_false_iff, Option.isNone_iff_eq_none] at h
      simp [Dict.getList, h]
    · rfl

theorem mem_keys_touch {α} (d : Dict κ (List α)) (k : κ) : k ∈ (d.touch k).keys := by
  simp only [Dict.touch]
  split
  · next h => exact (contains_iff d k).1 h
  · rw [keys_set]; split
    · assumption
    · simp

theorem mem_keys_touch_iff {α} (d : Dict κ (List α)) (k k' : κ) : k' ∈ (d.touch k).keys ↔ k' = k ∨ k' ∈ d.keys := by
  simp only [Dict.touch]
  split
  · next h =>
    constructor
    · exact Or.inr
    · rintro (rfl | h')
      · exact (contains_iff d _).1 h
      · exact h'
  · rw [keys_set]; split
    · next h => constructor
                · exact Or.inr
                · rintro (rfl | h')
                  · exact h
                  · exact h'
    · simp [or_comm]

theorem mem_keys_append {α} (d : Dict κ (List α)) (k k' : κ) (x : α) :
    k' ∈ Dict.keys (d.append k x) ↔ k' = k ∨ k' ∈ d.keys := by
  simp only [Dict.append, keys_set]
  split
  · next h => constructor
              · exact Or.inr
              · rintro (rfl | h')
                · exact h
                · exact h'
  · simp [or_comm]

theorem mem_keys_extend {α} (d : Dict κ (List α)) (k k' : κ) (xs : List α) :
    k' ∈ Dict.keys (d.extend k xs) ↔ k' = k ∨ k' ∈ d.keys := by
  simp only [Dict.extend, keys_set]
  split
  · next h => constructor
              · exact Or.inr
              · rintro (rfl | h')
                · exact h
                · exact h'
  · simp [or_comm]

end Dict

/-! ## `list.remove` -/

theorem removeFirst_none {α} (p : α → Bool) (l : List α) : removeFirst p l = none ↔ ∀ x ∈ l, p x = false := by
  induction l with
  | nil => simp [removeFirst]
  | cons x xs ih =>
    simp only [removeFirst]
    split
    · next h => simp [h]
    · next h => simp [ih, h]

/-- `list.remove` splits the list around the first element satisfying the test. -/
theorem removeFirst_some {α} (p : α → Bool) (l l' : List α) :
    removeFirst p l = some l' → ∃ a x b, l = a ++ x :: b ∧ l' = a ++ b ∧ p x = true ∧ ∀ y ∈ a, p y = false := by
  induction l generalizing l' with
  | nil => simp [removeFirst]
  | cons x xs ih =>
    simp only [removeFirst]
    split
    · next h => intro e; cases e; exact ⟨[], x, xs, rfl, rfl, h, by simp⟩
    · next h =>
      intro e
      obtain ⟨l0, h0, rfl⟩ := Option.map_eq_some_iff.1 e
      obtain ⟨a, y, b, h1, h2, h3, h4⟩ := ih l0 h0
      refine ⟨x :: a, y, b, by simp [h1], by simp [h2], h3, ?_⟩
      intro z hz
      rcases List.mem_cons.1 hz with rfl | hz
      · simpa using h
      · exact h4 z hz

/-- With a key function deciding the test, `list.remove` is `List.erase` on keys. -/
theorem removeFirst_map {α κ} [DecidableEq κ] (f : α → κ) (c : κ) (l : List α) :
    (removeFirst (fun x => decide (f x = c)) l).map (List.map f) =
      if c ∈ l.map f then some ((l.map f).erase c) else none := by
  induction l with
  | nil => simp [removeFirst]
  | cons x xs ih =>
    simp only [removeFirst, decide_eq_true_eq, List.map_cons, List.mem_cons, List.erase_cons, beq_iff_eq]
    by_cases h : f x = c
    · simp [h]
    · have h' : ¬ c = f x := fun e => h e.symm
      simp only [h, h', if_false, false_or, Option.map_map]
      rw [show (List.map f ∘ fun l => x :: l) = (fun l => f x :: l) ∘ List.map f by funext l; rfl, ← Option.map_map, ih]
      split <;> rfl

namespace Match

theorem eqv_iff (a b : Match) : a.eqv b = true ↔ a.eqKey = b.eqKey := by
  simp only [eqv, eqKey, Bool.and_eq_true, beq_iff_eq, EqKey.mk.injEq, and_assoc]

theorem eqv_eq_decide (a b : Match) : a.eqv b = decide (a.eqKey = b.eqKey) := by
  rw [Bool.eq_iff_iff, eqv_iff, decide_eq_true_eq]

theorem eqv_refl (a : Match) : a.eqv a = true := (eqv_iff a a).2 rfl
theorem eqv_symm {a b : Match} (h : a.eqv b = true) : b.eqv a = true := (eqv_iff b a).2 ((eqv_iff a b).1 h).symm
theorem eqv_trans {a b c : Match} (h : a.eqv b = true) (h' : b.eqv c = true) : a.eqv c = true :=
  (eqv_iff a c).2 (((eqv_iff a b).1 h).trans ((eqv_iff b c).1 h'))

theorem eqv_start {a b : Match} (h : a.eqv b = true) : a.start = b.start := by
  have := (eqv_iff a b).1 h
  simp only [eqKey, span, EqKey.mk.injEq, Prod.mk.injEq] at this; exact this.1.1
theorem eqv_stop {a b : Match} (h : a.eqv b = true) : a.stop = b.stop := by
  have := (eqv_iff a b).1 h
  simp only [eqKey, span, EqKey.mk.injEq, Prod.mk.injEq] at this; exact this.1.2
theorem eqv_name {a b : Match} (h : a.eqv b = true) : a.name = b.name := by
  have := (eqv_iff a b).1 h
  simp only [eqKey, span, EqKey.mk.injEq, Prod.mk.injEq] at this; exact this.2.2.1
theorem eqv_value {a b : Match} (h : a.eqv b = true) : a.value = b.value := by
  have := (eqv_iff a b).1 h
  simp only [eqKey, span, EqKey.mk.injEq, Prod.mk.injEq] at this; exact this.2.1
theorem eqv_ancestors {a b : Match} (h : a.eqv b = true) : a.ancestors = b.ancestors := by
  have := (eqv_iff a b).1 h
  simp only [eqKey, span, EqKey.mk.injEq, Prod.mk.injEq] at this; exact this.2.2.2

end Match
end Rebulk
