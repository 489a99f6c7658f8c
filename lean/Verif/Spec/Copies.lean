import Verif.Model.Copies
/-!
# Specification: objects, what they look like and what can be reached from them
-/
namespace Rebulk.Spec
open Rebulk

/-- Following attributes: `o.k1.k2.…`; `none` when there is no such attribute. -/
def walk (h : GHeap) : GV → List String → Option GV
  | v, [] => some v
  | .atom _, _ :: _ => none
  | .ref a, k :: ks => match Dict.get? (h.obj a) k with
    | none => none
    | some v => walk h v ks

/-- The atom found, if it is one. -/
def atomOf : GV → Option Val
  | .atom v => some v
  | .ref _ => none

/-- `x`, among the objects `h`, looks like `y` among the objects `h'`: the same attributes exist, the same atoms are found, and the same attributes hold
one and the same object. -/
structure LooksLike (h : GHeap) (x : Nat) (h' : GHeap) (y : Nat) : Prop where
  same : ∀ path, (walk h (.ref x) path).map atomOf = (walk h' (.ref y) path).map atomOf
  shared : ∀ p q, walk h (.ref x) p = walk h (.ref x) q ↔ walk h' (.ref y) p = walk h' (.ref y) q

/-- The object `b` is reached from `a`. -/
def Reaches (h : GHeap) (a b : Nat) : Prop := ∃ path, walk h (.ref a) path = some (.ref b)

/-- Attributes refer to objects there are. -/
def NoDangling (h : GHeap) : Prop := ∀ a k b, (k, .ref b) ∈ h.obj a → b < h.length

/-- The match at `a` with another span. -/
def withSpan (h : GHeap) (a : Nat) (sp : Int × Int) : GHeap := (h.setStart a sp.1).setEnd a sp.2

/-- A match object with this span. -/
structure HasSpan (h : GHeap) (a : Nat) (sp : Int × Int) : Prop where
  here : a < h.length
  starts : Dict.get? (h.obj a) "start" = some (.atom (.int sp.1))
  ends : Dict.get? (h.obj a) "end" = some (.atom (.int sp.2))

/-- `pieces`, among the objects `h'`, are copies of `a` (one of the objects `h`) with the spans given: the objects there were have not changed, each piece
looks like `a` with its span, no object there was can be reached from a piece, and no object can be reached from two pieces. -/
structure OwnCopies (h : GHeap) (a : Nat) (h' : GHeap) (pieces : List Nat) (spans : List (Int × Int)) : Prop where
  kept : ∀ x, x < h.length → h'[x]? = h[x]?
  many : pieces.length = spans.length
  looks : ∀ (i : Nat) p sp, pieces[i]? = some p → spans[i]? = some sp → LooksLike h' p (withSpan h a sp) a
  fresh : ∀ p, p ∈ pieces → ∀ x, Reaches h' p x → h.length ≤ x
  apart : ∀ (i j : Nat) p q, i ≠ j → pieces[i]? = some p → pieces[j]? = some q → ∀ x, Reaches h' p x → ¬ Reaches h' q x

/-- Assignments `o.k = v` made by someone who holds the object `p` only: `o` is reached from `p`, `v` is an atom or reached from `p`, at that time. -/
inductive ChangedThrough (p : Nat) : GHeap → GHeap → Prop where
  | none (h) : ChangedThrough p h h
  | atom {h h'} (o k v) : ChangedThrough p h h' → Reaches h' p o → ChangedThrough p h (h'.assign o k (.atom v))
  | ref {h h'} (o k b) : ChangedThrough p h h' → Reaches h' p o → Reaches h' p b → ChangedThrough p h (h'.assign o k (.ref b))

end Rebulk.Spec
