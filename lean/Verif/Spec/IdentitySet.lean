import Verif.Model.IdentitySet
/-!
# Specification of a set of objects by identity
-/
namespace Rebulk.Spec

/-- Iteration gives every element once, in some order. -/
def Reorders (order : List Nat → List Nat) : Prop := ∀ l, (order l).Perm l

/-- What a call does to the set of objects `S` (a predicate on objects), giving `T`. -/
inductive Changes : IdOp → (Nat → Prop) → (Nat → Prop) → Prop where
  | add {x S T} : (∀ y, T y ↔ S y ∨ y = x) → Changes (.add x) S T
  | discard {x S T} : (∀ y, T y ↔ S y ∧ y ≠ x) → Changes (.discard x) S T
  | remove {x S T} : (∀ y, T y ↔ S y ∧ y ≠ x) → Changes (.remove x) S T
  | popEmpty {S T} : (∀ y, ¬ S y) → (∀ y, ¬ T y) → Changes .pop S T
  | pop {x S T} : S x → (∀ y, T y ↔ S y ∧ y ≠ x) → Changes .pop S T
  | update {xs S T} : (∀ y, T y ↔ S y ∨ y ∈ xs) → Changes (.update xs) S T
  | ior {xs S T} : (∀ y, T y ↔ S y ∨ y ∈ xs) → Changes (.ior xs) S T
  | isub {xs S T} : (∀ y, T y ↔ S y ∧ y ∉ xs) → Changes (.isub xs) S T
  | iand {xs S T} : (∀ y, T y ↔ S y ∧ y ∈ xs) → Changes (.iand xs) S T
  | ixor {xs S T} : (∀ y, T y ↔ (S y ∧ y ∉ xs) ∨ (¬ S y ∧ y ∈ xs)) → Changes (.ixor xs) S T
  | clear {S T} : (∀ y, ¬ T y) → Changes .clear S T

/-- What a history does. -/
inductive ChangesAll : List IdOp → (Nat → Prop) → (Nat → Prop) → Prop where
  | nil {S} : ChangesAll [] S S
  | cons {op ops S T U} : Changes op S T → ChangesAll ops T U → ChangesAll (op :: ops) S U

/-- The list holds the objects of the set, each once. -/
def ListsSet (l : List Nat) (S : Nat → Prop) : Prop := l.Nodup ∧ ∀ x, x ∈ l ↔ S x

end Rebulk.Spec
