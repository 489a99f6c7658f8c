import Verif.Spec.Builder
/-!
# Specification of the options a pattern is built with
-/
namespace Rebulk.Spec

/-- What a default does to an option: a missing option takes the default, a list default is put before a list option, any other option
stays. (A dict default for a dict option is not considered: see `NoShared`.) -/
def combine : Option HV → Option HV → Option HV
  | some (.list a), some (.list b) => some (.list (a ++ b))
  | some v, none => some v
  | _, cur => cur

/-- The keyword arguments of a call with `key=`. -/
def optionsWithKey : KeyArg → HDict → String → Option HV
  | .one k, kw, name =>
    (kw.get? name).or (if name = "name" then some (.atom (.str k.name.toList)) else if name = "formatter" then some (.atom (.obj k.converter)) else none)
  | _, kw, name => kw.get? name

/-- The keyword argument is listed in `overrides=[...]`. -/
def Overridden (kw : HDict) (name : String) : Prop :=
  ∃ ks, kw.get? "overrides" = some (.list ks) ∧ Val.str name.toList ∈ ks

/-- The options a pattern gets, from the options given in the call, the defaults of its kind and the general defaults. -/
def BuiltWith (given : String → Option HV) (kind general : HDict) (overridden : String → Prop) (result : HDict) : Prop :=
  ∀ name, (overridden name → result.get? name = given name) ∧
    (¬ overridden name → result.get? name =
      combine (general.get? name) (combine (kind.get? name) (if name = "overrides" then none else given name)))

/-- Every reference is to an existing dict object. -/
def Closed (h : DHeap) : Prop := ∀ (a : Addr) (name : String) (b : Addr), (name, HV.ref b) ∈ h.at_ a → b < h.length

/-- The copy of an option, nested dicts being copied as `P` says. -/
def CopiedValue (P : Addr → Addr → Prop) : Option HV → Option HV → Prop
  | some (.ref x), v => ∃ y, v = some (.ref y) ∧ P x y
  | u, v => v = u

/-- The dict object `b` of `h'` is a deep copy of the dict object `a` of `h`, made of objects that do not exist in `h`, nesting at most
`n` deep. -/
def DeepCopy (h h' : DHeap) : Nat → Addr → Addr → Prop
  | 0, _, _ => False
  | n + 1, a, b => h.length ≤ b ∧ b < h'.length ∧ (h'.at_ b).keys = (h.at_ a).keys ∧
      ∀ name, CopiedValue (DeepCopy h h' n) ((h.at_ a).get? name) ((h'.at_ b).get? name)

end Rebulk.Spec
