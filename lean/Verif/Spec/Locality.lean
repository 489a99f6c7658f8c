import Verif.Spec.Rebulk
/-!
# Specification: the default rules act locally (`C125`)
-/
namespace Rebulk.Spec

/-- What a conflict solver may say of two matches. -/
inductive Verdict where
  | default
  | keepBoth
  | dropFirst
  | dropSecond

/-- The answer of the solver. -/
def Verdict.answer (a b : Match) : Verdict → SolverRet
  | .default => .default
  | .keepBoth => .keepBoth
  | .dropFirst => .drop a
  | .dropSecond => .drop b

/-- The conflict solvers of matches judge two matches from what these are, not from which objects they are: they answer `"__default__"`, `None`, the first
one or the second one, or raise. -/
def Impartial (custom : Nat → Match → Match → Except PyErr SolverRet) : Prop :=
  ∃ v : Nat → Match → Match → Except PyErr Verdict, (∀ k a b, custom k a b = (v k a b).map (Verdict.answer a b)) ∧
    ∀ k a b a' b', content a = content a' → content b = content b' → v k a b = v k a' b'

/-- No match of one list shares a character with a match of the other, or is equal to it. -/
def Apart (l l' : List Match) : Prop := ∀ a ∈ l, ∀ b ∈ l', ¬ Overlap a b ∧ a.eqv b = false

/-- A list is made of two lists, each in its own order. -/
inductive Shuffle {α : Type} : List α → List α → List α → Prop where
  | nil : Shuffle [] [] []
  | left {x l l1 l2} : Shuffle l l1 l2 → Shuffle (x :: l) (x :: l1) l2
  | right {x l l1 l2} : Shuffle l l1 l2 → Shuffle (x :: l) l1 (x :: l2)

end Rebulk.Spec
