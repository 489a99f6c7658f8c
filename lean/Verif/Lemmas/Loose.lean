import Verif.Model.Utils
namespace Rebulk

namespace KVs
theorem get?_set (d : KVs) (k k' : String) (v : KV) : (d.set k v).get? k' = if k = k' then some v else d.get? k' := by
  match d with
  | .nil => simp only [set, get?]
  | .cons k0 v0 r =>
    simp only [set]
    by_cases h0 : k0 = k
    · subst h0; simp only [if_true, get?]; split <;> rfl
    · simp only [h0, if_false, get?, get?_set r]
      by_cases h1 : k0 = k'
      · subst h1; simp [Ne.symm h0]
      · simp [h1]

theorem keys_set (d : KVs) (k : String) (v : KV) : (d.set k v).keys = if k ∈ d.keys then d.keys else d.keys ++ [k] := by
  match d with
  | .nil => rfl
  | .cons k0 v0 r =>
    simp only [set]
    by_cases h0 : k0 = k
    · subst h0; simp [keys]
    · have h0' : ¬ k = k0 := fun h => h0 h.symm
      simp only [h0, if_false, keys, keys_set r, List.mem_cons, h0', false_or]
      split <;> simp

theorem get?_isSome (d : KVs) (k : String) : (d.get? k).isSome = true ↔ k ∈ d.keys := by
  match d with
  | .nil => simp [get?, keys]
  | .cons k0 v0 r =>
    simp only [get?, keys, List.mem_cons]
    by_cases h : k0 = k
    · simp [h]
    · have : ¬ k = k0 := fun e => h e.symm
      simp only [h, if_false, this, false_or, get?_isSome r]

theorem get?_eq_none (d : KVs) (k : String) : d.get? k = none ↔ k ∉ d.keys := by
  rw [← get?_isSome]; cases d.get? k <;> simp
end KVs

theorem mergeValue_dict (d e : KVs) : mergeValue (.dict d) (.dict e) = .dict (setDefaults d e false) := by
  simp only [mergeValue, setDefaults]

/-- What becomes of a default key. -/
def keyResult (value : KV) (cur? : Option KV) (override : Bool) : KV :=
  match cur? with
  | none => value
  | some cur => if override then value.popped cur else mergeValue value cur

/-- One step of the loop on a key that is not `clear`. -/
def stepKw (key : String) (value : KV) (kwargs : KVs) (override : Bool) : KVs :=
  match kwargs.get? key with
  | none => kwargs.set key value
  | some cur =>
    let merged := kwargs.set key (mergeValue value cur)
    if override then merged.set key (value.popped cur) else merged

theorem setDefaultsLoop_cons (key : String) (value : KV) (rest kwargs : KVs) (o : Bool) (h : key ≠ "clear") :
    setDefaultsLoop (.cons key value rest) kwargs o = setDefaultsLoop rest (stepKw key value kwargs o) o := by
  rw [setDefaultsLoop, if_neg h]
  unfold stepKw
  cases kwargs.get? key <;> rfl

theorem stepKw_get? (key : String) (value : KV) (kwargs : KVs) (o : Bool) (k : String) :
    (stepKw key value kwargs o).get? k =
      if key = k then some (keyResult value (kwargs.get? key) o)
      else kwargs.get? k := by
  unfold stepKw keyResult
  cases hc : kwargs.get? key with
  | none => simp [KVs.get?_set]
  | some cur =>
    cases o <;> simp [KVs.get?_set] <;> split <;> simp_all

theorem stepKw_keys (key : String) (value : KV) (kwargs : KVs) (o : Bool) :
    (stepKw key value kwargs o).keys = if key ∈ kwargs.keys then kwargs.keys else kwargs.keys ++ [key] := by
  unfold stepKw
  cases hc : kwargs.get? key with
  | none =>
    have : key ∉ kwargs.keys := (KVs.get?_eq_none _ _).1 hc
    simp [KVs.keys_set, this]
  | some cur =>
    have : key ∈ kwargs.keys := (KVs.get?_isSome _ _).1 (by rw [hc]; rfl)
    cases o <;> simp [KVs.keys_set, this]

theorem setDefaultsLoop_get? (d kwargs : KVs) (o : Bool) (hn : d.keys.Nodup) (k : String) :
    (setDefaultsLoop d kwargs o).get? k =
      if k = "clear" then kwargs.get? k
      else match d.get? k with
        | none => kwargs.get? k
        | some v => some (keyResult v (kwargs.get? k) o) := by
  match d with
  | .nil => simp [setDefaultsLoop, KVs.get?]
  | .cons key value rest =>
    simp only [KVs.keys, List.nodup_cons] at hn
    by_cases hkey : key = "clear"
    · subst hkey
      rw [setDefaultsLoop, if_pos rfl, setDefaultsLoop_get? rest kwargs o hn.2 k]
      by_cases hk : k = "clear"
      · simp [hk]
      · have : ¬ ("clear" = k) := fun e => hk e.symm
        simp only [hk, if_false, KVs.get?, this]
    · rw [setDefaultsLoop_cons _ _ _ _ _ hkey, setDefaultsLoop_get? rest _ o hn.2 k, stepKw_get?]
      by_cases hk : k = "clear"
      · subst hk; simp [hkey]
      · simp only [hk, if_false, KVs.get?]
        by_cases he : key = k
        · subst he
          have : rest.get? key = none := (KVs.get?_eq_none _ _).2 hn.1
          simp only [this, if_true]
        · simp only [he, if_false]

theorem setDefaultsLoop_keys (d kwargs : KVs) (o : Bool) (hn : d.keys.Nodup) :
    (setDefaultsLoop d kwargs o).keys =
      kwargs.keys ++ d.keys.filter (fun k => decide (k ≠ "clear" ∧ k ∉ kwargs.keys)) := by
  match d with
  | .nil => simp [setDefaultsLoop, KVs.keys]
  | .cons key value rest =>
    simp only [KVs.keys, List.nodup_cons] at hn
    by_cases hkey : key = "clear"
    · subst hkey
      rw [setDefaultsLoop, if_pos rfl, setDefaultsLoop_keys rest kwargs o hn.2]
      simp [KVs.keys]
    · rw [setDefaultsLoop_cons _ _ _ _ _ hkey, setDefaultsLoop_keys rest _ o hn.2, stepKw_keys]
      by_cases hin : key ∈ kwargs.keys
      · simp [hin, KVs.keys]
      · simp only [if_neg hin, KVs.keys, List.append_assoc, List.filter_cons]
        rw [if_pos (by simpa using ⟨hkey, hin⟩)]
        simp only [List.singleton_append]
        congr 2
        apply List.filter_congr
        intro x hx
        have : x ≠ key := fun e => hn.1 (e ▸ hx)
        simp [this]

end Rebulk
