import Verif.Model.Builder
import Verif.Spec.Truth
/-!
# Specification for building patterns

Which dict objects an operation on a builder may change, and when two dict-valued options meet.
-/
namespace Rebulk.Spec

/-- True values among the keyword values: true objects, lists that are not empty, dict objects that are not empty at this time. -/
inductive IsTrueHV (h : DHeap) : HV → Prop where
  | atom {v : Val} : IsTrue v → IsTrueHV h (.atom v)
  | list {l : List Val} : l ≠ [] → IsTrueHV h (.list l)
  | ref {a : Nat} {d : HDict} : h[a]? = some d → d ≠ [] → IsTrueHV h (.ref a)

theorem isTrueHV_iff {h : DHeap} {v : HV} : v.truthy h = true ↔ IsTrueHV h v := by
  constructor
  · intro e
    cases v with
    | atom v => exact .atom (isTrue_iff.1 e)
    | list l => exact .list (by simpa [HV.truthy] using e)
    | ref a =>
      simp only [HV.truthy, DHeap.at_, List.getD_eq_getElem?_getD, Bool.not_eq_true', List.isEmpty_eq_false_iff] at e
      cases ha : h[a]? with
      | none => rw [ha] at e; exact absurd rfl e
      | some d => rw [ha] at e; exact .ref ha e
  · intro e
    cases e with
    | atom e => exact isTrue_iff.2 e
    | list e => simpa [HV.truthy] using e
    | ref ha e => simpa [HV.truthy, DHeap.at_, List.getD_eq_getElem?_getD, ha] using e

instance (h : DHeap) (v : HV) : Decidable (IsTrueHV h v) := decidable_of_iff _ isTrueHV_iff


/-- The option `key` is a dict. -/
def DictOption (d : HDict) (key : String) : Prop := ∃ a, d.get? key = some (.ref a)

/-- A Python dict has no repeated key; patterns are built by `regex`, `string` or `functional`. -/
def BOp.Valid : BOp → Prop
  | .dict d => d.keys.Nodup
  | .defaults _ _ kw => kw.keys.Nodup
  | .build _ slot _ _ kw => kw.keys.Nodup ∧ slot ≠ .base
  | .chain _ kw => kw.keys.Nodup
  | _ => True

/-- The worlds a program can reach. -/
inductive ReachableB (expand : List Val → HV → HV) : World → Prop where
  | init : ReachableB expand World.init
  | step {w w' op fuel} : ReachableB expand w → BOp.Valid op → stepB expand fuel w op = some w' → ReachableB expand w'

/-- No option is a dict in two of: the keyword arguments, the defaults of the slot, the general defaults. -/
def NoSharedOptions (h : DHeap) (kw : HDict) (f : Factory) (slot : Slot) : Prop :=
  ∀ key, ¬ (DictOption kw key ∧ DictOption (h.at_ (f.slot slot)) key) ∧
    ¬ (DictOption kw key ∧ DictOption (h.at_ f.base) key) ∧
    ¬ (DictOption (h.at_ (f.slot slot)) key ∧ DictOption (h.at_ f.base) key)

/-- The keyword arguments as far as being dicts goes: a sequence of keys makes `formatter` a dict. -/
def withKeys (key : KeyArg) (kw : HDict) : HDict :=
  match key with
  | .many (_ :: _) => kw.set "formatter" (.ref 0)
  | _ => kw

/-- The operation merges no dict-valued option into another one, and gives no regular expression as a dict. -/
def NoShared (w : World) : BOp → Prop
  | .defaults f slot kw => ∀ fac, w.factories[f]? = some fac →
      ∀ key, ¬ (DictOption kw key ∧ DictOption (w.heap.at_ (fac.slot slot)) key)
  | .build f slot key args kw => (∀ a, HV.ref a ∉ args) ∧ ∀ fac, w.factories[f]? = some fac →
      NoSharedOptions w.heap (withKeys key kw) fac slot
  | .chain f kw => ∀ fac, w.factories[f]? = some fac → NoSharedOptions w.heap kw fac .chain
  | _ => True

/-- The dict object an operation is meant to change. -/
def Target (w : World) (op : BOp) (a : Addr) : Prop :=
  match op with
  | .defaults f slot _ => ∃ fac, w.factories[f]? = some fac ∧ a = fac.slot slot
  | _ => False

/-- The builder an operation is meant to change. -/
def TargetBuilder (op : BOp) (f : Nat) : Prop :=
  match op with
  | .declareKeys g _ => f = g
  | .reset g => f = g
  | _ => False

end Rebulk.Spec
