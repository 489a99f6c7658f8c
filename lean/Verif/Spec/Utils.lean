import Verif.Model.Utils
/-!
# Specification of the utilities
-/
namespace Rebulk.Spec

/-- `sub` occurs in `s` at `p`, inside `s[start:end]`: character by character, and within the window. -/
structure OccursIn (s sub : Str) (start stop : Option Int) (p : Nat) : Prop where
  after : ∀ i, start = some i → (if i < 0 then i + s.length else i) ≤ p
  before : ∀ i, stop = some i → (p : Int) + sub.length ≤ max 0 (if i < 0 then i + s.length else i)
  inside : p + sub.length ≤ s.length
  chars : ∀ k < sub.length, s[p + k]? = sub[k]?

/-- The window `s[start:end]` of a search has no place at all, not even for the empty string: `start` is past its end. -/
def NoPlace (s : Str) (start stop : Option Int) : Prop := ¬ ∃ p, OccursIn s [] start stop p

/-- A keyword dict without its `clear` key. -/
def withoutClear : KVs → KVs
  | .nil => .nil
  | .cons k v r => if k = "clear" then r else .cons k v (withoutClear r)

/-- One item directly depends on another one, itself excepted. -/
def DependsOn {κ : Type} (data : Deps κ) (x y : κ) : Prop := x ≠ y ∧ ∃ deps, (x, deps) ∈ data ∧ y ∈ deps

/-- A non-empty chain of dependencies. -/
inductive DependsTrans {κ : Type} (data : Deps κ) : κ → κ → Prop where
  | single {x y} : DependsOn data x y → DependsTrans data x y
  | step {x y z} : DependsOn data x y → DependsTrans data y z → DependsTrans data x z

/-- An item or a mentioned dependency. -/
def Mentioned {κ : Type} (data : Deps κ) (x : κ) : Prop := ∃ kv ∈ data, x = kv.1 ∨ x ∈ kv.2

/-- `x` is in group number `i`. -/
def InGroup {κ : Type} (groups : List (List κ)) (i : Nat) (x : κ) : Prop := ∃ g, groups[i]? = some g ∧ x ∈ g

end Rebulk.Spec
