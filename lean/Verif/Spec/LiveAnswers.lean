import Verif.Model.LiveAnswers
import Verif.Spec.Consequences
/-!
# Sharing out an answer
-/
namespace Rebulk.Spec

/-- What is left of a list, and whether there were enough elements, when `n` times the element at a position is taken out and the next position is gone
to: one of two stays. -/
def everyOther {α : Type} : Nat → List α → List α × Bool
  | 0, l => (l, true)
  | _ + 1, [] => ([], false)
  | n + 1, [_] => everyOther n []
  | n + 1, _ :: y :: l => (y :: (everyOther n l).1, (everyOther n l).2)

/-- Each consequence is run on what its position of the answer holds at that moment; `i` is the position of the first one. -/
inductive RunsNow {σ ρ : Type} (read : σ → List ρ) : List (Consequence σ ρ) → Nat → σ → σ → Option PyErr → Prop where
  | done (i : Nat) (s : σ) : RunsNow read [] i s s none
  | tooFew (c : Consequence σ ρ) (cs : List (Consequence σ ρ)) {i : Nat} {s : σ} : (read s).length ≤ i → RunsNow read (c :: cs) i s s (some .stopIteration)
  | next {c cs a i s s1 s' e} : (read s)[i]? = some a → c a s = (s1, none) → RunsNow read cs (i + 1) s1 s' e → RunsNow read (c :: cs) i s s' e
  | raises {c cs a i s s1 e} : (read s)[i]? = some a → c a s = (s1, some e) → RunsNow read (c :: cs) i s s1 (some e)

end Rebulk.Spec
