import Verif.Model.Consequences
import Verif.Model.Iteration
/-!
# `rebulk/rules.py`: answers that change while the consequences are run

With several consequences, `Rule.then` (`rules.py:117-131`) makes an iterator of the answer and asks it for the next element before each consequence. The
answer of `when` may be an object that the consequences change: the container itself, the list of an index (`at_index`, `match.py:759`); or a generator, whose
body runs as it is asked. (A single consequence makes a list of its answer first, `rules.py:144`, `165`.)
-/
namespace Rebulk

/-- The loop of `Rule.then` (`rules.py:123-126`) with an iterator in the state `g`; `next g s` is what `next(iterator)` gives when the matches are `s`:
nothing for `StopIteration`. -/
def runFrom {σ ρ γ : Type} (next : γ → σ → γ × Option ρ) : List (Consequence σ ρ) → γ → σ → σ × Option PyErr
  | [], _, s => (s, none)
  | c :: cs, g, s => match next g s with
    | (_, none) => (s, some .stopIteration)
    | (g', some a) => match c a s with
      | (s', some e) => (s', some e)
      | (s', none) => runFrom next cs g' s'

/-- The iterator of a list object whose contents, the matches being `s`, are `read s`: the element at its position. (It stops for good at the end; `Rule.then`
asks no more then.) -/
def nextIn {σ ρ : Type} (read : σ → List ρ) (i : Nat) (s : σ) : Nat × Option ρ := (i + 1, (read s)[i]?)

/-- `Rule.then` with several consequences and an answer that is such an object. -/
def ruleThenLive {σ ρ : Type} (cs : List (Consequence σ ρ)) (read : σ → List ρ) (s : σ) : σ × Option PyErr :=
  if cs.isEmpty then (s, some .assertionError) else runFrom (nextIn read) cs 0 s

/-- The consequence `RemoveMatch` on one match (`rules.py:139-154`). -/
def removeOne (m : Match) (s : Matches) : Matches × Option PyErr :=
  match thenRemove (.one m) s with
  | (s', .ok _) => (s', none)
  | (s', .error e) => (s', some e)

end Rebulk
