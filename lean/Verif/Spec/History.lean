import Verif.Spec.Container
/-!
# What a container remembers of its past
-/
namespace Rebulk.Spec
open Matches

/-- The container after the first `k` calls. -/
def after (s : Matches) (ops : List Op) (k : Nat) : Matches := s.runOps (ops.take k)

/-- The call makes the container look at names; the names it asks for. -/
def LooksAtNames : Op → Prop
  | .named ns => ns ≠ []
  | .names => True
  | _ => False
/-- See `LooksAtNames`. -/
def AsksName (op : Op) (n : String) : Prop := ∃ ns, op = .named ns ∧ n ∈ ns

/-- The call makes the container look at tags; the tag it asks for. -/
def LooksAtTags : Op → Prop
  | .tagged _ => True
  | .tags => True
  | _ => False
/-- See `LooksAtTags`. -/
def AsksTag (op : Op) (t : String) : Prop := op = .tagged t

/-- The call asks for the matches that end at `i`: `ending(i)`, or `previous(m)` for a match that starts at `i` or later. -/
def AsksEnd (op : Op) (i : Int) : Prop := op = .ending i ∨ ∃ m, op = .previous m ∧ 0 ≤ i ∧ i ≤ m.start

/-- The match has the (non-empty) name `n`. -/
def HasName (n : String) (m : Match) : Prop := n ≠ "" ∧ m.name = some n

/-- From the `j`-th call on, some match for which `P` holds has been in the container. -/
def HeldSince (s : Matches) (ops : List Op) (j : Nat) (P : Match → Prop) : Prop :=
  ∃ k, j ≤ k ∧ k ≤ ops.length ∧ ∃ m ∈ (after s ops k).delegate, P m

/-- One of the calls from the `j`-th on. -/
def AskedSince (ops : List Op) (j : Nat) (P : Op → Prop) : Prop := ∃ k, ∃ op, j ≤ k ∧ ops[k]? = some op ∧ P op

/-- The `j`-th call is the first one for which `P` holds; `j` is the number of calls when there is none. -/
def FirstCall (ops : List Op) (P : Op → Prop) (j : Nat) : Prop :=
  j ≤ ops.length ∧ (∀ k op, k < j → ops[k]? = some op → ¬ P op) ∧ ∀ op, ops[j]? = some op → P op

/-- The matches of the sequence `l` that a call overwrites: the one at the assigned position; for `reverse()`, made of
assignments, both members of every pair it swaps. -/
def overwritten (l : List Match) : Op → List Match
  | .setItem i _ => (pyGet l i).toList
  | .reverse => (List.range (l.length / 2)).flatMap (fun i => l[i]?.toList ++ l[l.length - 1 - i]?.toList)
  | _ => []

/-- All the matches overwritten from the `j`-th call on. -/
def overwrittenSince (s : Matches) (ops : List Op) (j : Nat) : List Match :=
  ((List.range ops.length).drop j).flatMap (fun k => (ops[k]?.toList).flatMap (overwritten (after s ops k).delegate))

end Rebulk.Spec
