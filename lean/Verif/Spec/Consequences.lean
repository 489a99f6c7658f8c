import Verif.Spec.Container
import Verif.Model.Consequences
/-!
# Specification of the consequences, on plain lists
-/
namespace Rebulk.Spec

/-- Removing the answers `ms` from `l` one after the other leaves `l'` and returns `ret`: each answer takes out the first match equal to it, if
there is one. -/
inductive Removes : List Match → List Match → List Match → List Match → Prop where
  | done (l : List Match) : Removes l [] l []
  | absent {l ms l' ret m} : ¬ Holds l m → Removes l ms l' ret → Removes l (m :: ms) l' ret
  | present {before x after ms l' ret m} : ¬ Holds before m → x.eqv m = true → Removes (before ++ after) ms l' ret →
      Removes (before ++ x :: after) (m :: ms) l' (m :: ret)

/-- Appending the answers `ms` to `l` one after the other, changed by `f`, leaves `l'` and returns `ret`: an answer equal to a match already there is
skipped. -/
inductive Appends (f : Match → Match) : List Match → List Match → List Match → List Match → Prop where
  | done (l : List Match) : Appends f l [] l []
  | present {l ms l' ret m} : Holds l m → Appends f l ms l' ret → Appends f l (m :: ms) l' ret
  | absent {l ms l' ret m} : ¬ Holds l m → Appends f (l ++ [f m]) ms l' ret → Appends f l (m :: ms) l' (f m :: ret)

/-- The matches of `l` equal to none of `ms`. -/
def without (l ms : List Match) : List Match := l.filter (fun x => !ms.any (fun m => x.eqv m))

/-- Two matches with the same identity are the same object, hence have the same content. -/
def Identified (l ms : List Match) : Prop := ∀ m ∈ ms, ∀ x ∈ l ++ ms, x.id = m.id → x = m

/-- The tag lists of the answers `ms` are shared with no other match. -/
def Unshared (refs : Nat → Nat) (l ms : List Match) : Prop := ∀ m ∈ ms, ∀ x ∈ l ++ ms, refs x.id = refs m.id → x.id = m.id

/-- `l'` is `l` less one occurrence of each of `ts`, as far as `l` has them. -/
def DropsOnce (ts l l' : List String) : Prop := l'.Sublist l ∧ ∀ t, l'.count t = l.count t - ts.count t

/-- Every lookup lists exactly the contained matches it should, in order. -/
def LookupsRight (s : Matches) : Prop :=
  (∀ n, n ≠ "" → (s.step (.named [n])).2 = .list (named s.delegate n)) ∧
  (∀ t, (s.step (.tagged t)).2 = .list (taggedTimes s.delegate t)) ∧
  (∀ i, (s.step (.starting i)).2 = .list (starting s.delegate i)) ∧
  (∀ i, (s.step (.ending i)).2 = .list (ending s.delegate i)) ∧
  (∀ i, (s.step (.atIndex i)).2 = .list (covering s.delegate i))

/-- `d` ends with the calls of the consequences given: the `i`-th consequence is run on the `i`-th answer, until one raises. -/
inductive RunsAll {σ ρ : Type} : List (Consequence σ ρ) → List ρ → σ → σ → Option PyErr → Prop where
  | done (as : List ρ) (s : σ) : RunsAll [] as s s none
  | tooFew (c : Consequence σ ρ) (cs : List (Consequence σ ρ)) (s : σ) : RunsAll (c :: cs) [] s s (some .stopIteration)
  | next {c cs a as s s1 s' e} : c a s = (s1, none) → RunsAll cs as s1 s' e → RunsAll (c :: cs) (a :: as) s s' e
  | raises {c cs a as s s1 e} : c a s = (s1, some e) → RunsAll (c :: cs) (a :: as) s s1 (some e)

/-- The match with the name replaced, everything else as it was. -/
def renamedAs (n : String) (m : Match) : Match := { m with name := some n }

end Rebulk.Spec
