import Verif.Model.Match
import Verif.Model.Utils
/-!
# What Python takes to be true
-/
namespace Rebulk.Spec

/-- True values: `True`, numbers other than 0, texts and lists that are not empty, any other object. (Not `None`.) -/
inductive IsTrue : Val → Prop where
  | bool : IsTrue (.bool true)
  | int {i : Int} : i ≠ 0 → IsTrue (.int i)
  | str {s : Str} : s ≠ [] → IsTrue (.str s)
  | list {l : List Val} : l ≠ [] → IsTrue (.list l)
  | obj (n : Nat) : IsTrue (.obj n)

/-- True keyword values: true values, lists and dicts that are not empty. -/
inductive IsTrueKV : KV → Prop where
  | val {v : Val} : IsTrue v → IsTrueKV (.val v)
  | list {l : List Val} : l ≠ [] → IsTrueKV (.list l)
  | dict {d : KVs} : d ≠ .nil → IsTrueKV (.dict d)

theorem isTrue_iff {v : Val} : v.truthy = true ↔ IsTrue v := by
  constructor
  · intro h
    cases v with
    | none => cases h
    | bool b => cases h; exact .bool
    | int i => exact .int (by simpa [Val.truthy] using h)
    | str s => exact .str (by simpa [Val.truthy] using h)
    | list l => exact .list (by simpa [Val.truthy] using h)
    | obj n => exact .obj n
  · intro h
    cases h with
    | bool => rfl
    | int h => simpa [Val.truthy] using h
    | str h => simpa [Val.truthy] using h
    | list h => simpa [Val.truthy] using h
    | obj => rfl

theorem isTrueKV_iff {v : KV} : v.truthy = true ↔ IsTrueKV v := by
  constructor
  · intro h
    cases v with
    | val v => exact .val (isTrue_iff.1 h)
    | list l => exact .list (by simpa [KV.truthy] using h)
    | dict d =>
      cases d with
      | nil => cases h
      | cons k v r => exact .dict (by simp)
  · intro h
    cases h with
    | val h => exact isTrue_iff.2 h
    | list h => simpa [KV.truthy] using h
    | @dict d h =>
      cases d with
      | nil => exact absurd rfl h
      | cons => rfl

end Rebulk.Spec
