import Verif.Model.KeyViews
import Verif.Spec.History
/-!
# What the views of names and tags show
-/
namespace Rebulk.Spec
open Matches

/-- What the view shows when the iterator is asked for the `i`-th time (from 0). -/
def shownAt (s : Matches) (kind : KeyKind) (calls : List (List SOp)) (i : Nat) : List String :=
  (s.runS ((calls.take (i + 1)).flatten)).viewKeys kind

/-- By the `k`-th time the iterator over the keys `l` was asked, a new key had shown up before the iterator was at its end. -/
def NewKeyBy (s : Matches) (kind : KeyKind) (l : List String) (calls : List (List SOp)) (k : Nat) : Prop :=
  ∃ i, i ≤ k ∧ i ≤ l.length ∧ ∃ x ∈ shownAt s kind calls i, x ∉ l

/-- The match has the key: the name, or one of its tags. -/
def HasKey : KeyKind → String → Match → Prop
  | .names, n, m => HasName n m
  | .tags, t, m => t ∈ m.tags

/-- The call asks for the key. -/
def AsksKey : KeyKind → Op → String → Prop
  | .names, op, n => AsksName op n
  | .tags, op, t => AsksTag op t

end Rebulk.Spec
