import Verif.Model.Session
/-!
# Specification: independent calls
-/
namespace Rebulk.Spec

/-- This user code leaves the tag lists of the patterns as they are (it may change those of single matches). -/
def KeepsPatternTags {ρ : Type} (listOf : Nat → Nat) (b : Behaviour (Found × TagLists) ρ) : Prop :=
  (∀ s p, (b.when_ s).1.2 (listOf p) = s.2 (listOf p)) ∧ ∀ s a p, (b.then_ s a).1.2 (listOf p) = s.2 (listOf p)

/-- This user code does not look at list objects: only at the matches. -/
def LooksAtMatches {ρ : Type} (b : Behaviour (Found × TagLists) ρ) : Prop :=
  ∀ f l l', b.enabled (f, l) = b.enabled (f, l') ∧ (b.when_ (f, l)).1.1 = (b.when_ (f, l')).1.1 ∧ (b.when_ (f, l)).2 = (b.when_ (f, l')).2 ∧
    ∀ a, (b.then_ (f, l) a).1.1 = (b.then_ (f, l') a).1.1 ∧ (b.then_ (f, l) a).2 = (b.then_ (f, l') a).2

end Rebulk.Spec
