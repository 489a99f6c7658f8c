import Verif.Spec.RepeatChain
import Verif.Spec.ConfiguredSearch
/-!
# What a chain of repeated strings finds that has a validator (`C122`)
-/
namespace Rebulk.Spec

/-- The copies without the last `d` ones. -/
def cutBy (d : Nat) (copies : List Copy) : List Copy := copies.take (copies.length - d)

/-- Up to how many copies may be dropped: those of the string found last (if its last copy is number `k`, there are `k + 1` of them). -/
def droppable (copies : List Copy) : Nat := match copies.getLast? with | none => 0 | some x => x.number + 1

/-- What is left of the copies when only `good` ones are accepted: as few copies of the last string are dropped as necessary, and something has to be left. -/
inductive Trims (good : List Copy → Prop) (copies : List Copy) : Option (List Copy) → Prop where
  | kept {d} : d ≤ droppable copies → cutBy d copies ≠ [] → good (cutBy d copies) → (∀ d', d' < d → ¬ good (cutBy d' copies)) →
      Trims good copies (some (cutBy d copies))
  | refused : (∀ d, d ≤ droppable copies → cutBy d copies ≠ [] → ¬ good (cutBy d copies)) → Trims good copies none

/-- The hit made of these copies, when it is attempt number `i` of the chain that succeeded. -/
noncomputable def Config.copiesHit (c : Config) (input : Str) (i : Nat) (copies : List Copy) : Hit :=
  ⟨(extent copies).1, (extent copies).2, i, c.valueOf c.name .none (textAt input (extent copies).1 (extent copies).2), c.name, c.tags⟩

/-- The validator chosen for the hit made of these copies, if any, accepts the match with these children. -/
def Config.AgreesOn (c : Config) (input : Str) (i : Nat) (copies : List Copy) : Prop :=
  ∀ v, chosen c.validator (some (fun _ => true)) c.name false = some v →
    ∀ t, StandsFor input (c.copiesHit input i copies) t.root → Each (fun x (k : MTree) => CopyOf input x k.root) copies t.children → v t = true

/-- The verdict of the validators depends on what the hit and the copies tell: on the input, the span, the rank, the value, the name and the tags of the match, and on the places,
names, tags, numbers and patterns of its children (all of which are public matches without value of their own). -/
def Config.JudgingCopies (c : Config) (input : Str) : Prop :=
  ∀ i copies v, chosen c.validator (some (fun _ => true)) c.name false = some v →
    ∀ t t', StandsFor input (c.copiesHit input i copies) t.root → StandsFor input (c.copiesHit input i copies) t'.root →
      Each (fun x (k : MTree) => CopyOf input x k.root) copies t.children → Each (fun x (k : MTree) => CopyOf input x k.root) copies t'.children → v t = v t'

/-- The hits of these runs, counted from `i`: what the validator leaves of each. -/
inductive TrimmedHits (c : Config) (input : Str) : Nat → List (List Placed) → List Hit → Prop where
  | nil {i} : TrimmedHits c input i [] []
  | kept {i run copies l hits} : Trims (c.AgreesOn input i) (visible run) (some copies) → TrimmedHits c input (i + 1) l hits →
      TrimmedHits c input i (run :: l) (c.copiesHit input i copies :: hits)
  | refused {i run l hits} : Trims (c.AgreesOn input i) (visible run) none → TrimmedHits c input (i + 1) l hits → TrimmedHits c input i (run :: l) hits

end Rebulk.Spec
