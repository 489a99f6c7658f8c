import Verif.Spec.Consequences
import Verif.Model.Processors
/-!
# Specification of conflict resolution
-/
namespace Rebulk.Spec

/-- Two matches share an index. -/
def Overlap (a b : Match) : Prop := ∃ i, Covers a i ∧ Covers b i

/-- What the solvers would answer about `m` and the conflicting `c`, in the order they are asked. -/
def solversInOrder (sv : Solvers) (m c : Match) : List (Except PyErr SolverRet) :=
  (c.solver.map (fun k => sv.custom k c m)).toList ++ (m.solver.map (fun k => sv.custom k m c)).toList ++ [sv.fallback m c]

/-- The answer `"__default__"`. -/
def isDefault : Except PyErr SolverRet → Bool
  | .ok .default => true
  | _ => false

/-- The first answer that is not `"__default__"`. -/
def decision (sv : Solvers) (m c : Match) : Except PyErr SolverRet :=
  ((solversInOrder sv m c).find? (fun a => !isDefault a)).getD (.ok .default)

/-- Two public matches of `l` sharing an index. -/
structure Conflict (l : List Match) (a b : Match) : Prop where
  left : a ∈ l
  right : b ∈ l
  leftPublic : a.priv = false
  rightPublic : b.priv = false
  different : a ≠ b
  overlap : Overlap a b

/-- The matches of `l` are pairwise different objects, no two of them equal, and the public ones are not empty. -/
structure DistinctMatches (l : List Match) : Prop where
  noEqual : NoEqual l
  identities : (l.map Match.id).Nodup
  nonEmpty : ∀ m ∈ l, m.priv = false → m.start < m.stop

/-- The solvers do not raise, and name only matches of the pair they are asked about. -/
def SaneSolvers (sv : Solvers) (l : List Match) : Prop := ∀ a b, Conflict l a b →
  decision sv a b = .ok .default ∨ decision sv a b = .ok .keepBoth ∨ decision sv a b = .ok (.drop a) ∨ decision sv a b = .ok (.drop b)

/-- `log` tells which matches are removed, each with the match in favour of which it is, in the order this is decided. -/
structure RemovalLog (sv : Solvers) (l : List Match) (log : List (Match × Match)) : Prop where
  /-- A removed match was named by the first solver with an opinion about it and the match that is kept. -/
  justified : ∀ e ∈ log, Conflict l e.1 e.2 ∧ (decision sv e.1 e.2 = .ok (.drop e.1) ∨ decision sv e.2 e.1 = .ok (.drop e.1))
  /-- A match is removed once. -/
  once : log.Pairwise (fun e f => e.1 ≠ f.1)
  /-- Nothing is removed in favour of a match that is already being removed. -/
  keeperStays : log.Pairwise (fun e f => f.2 ≠ e.1)
  /-- A conflict where a match is named ends with one of the two removed. -/
  complete : ∀ a b r, Conflict l a b → decision sv a b = .ok (.drop r) → a ∈ log.map Prod.fst ∨ b ∈ log.map Prod.fst

/-- No match of `l` has a conflict solver of its own; the length of initiators is not negative. -/
structure Plain (l : List Match) : Prop where
  noSolver : ∀ m ∈ l, m.priv = false → m.solver = none
  initLen : ∀ m ∈ l, m.priv = false → 0 ≤ m.initLen

/-- `l'` is `l` less the matches of `removed`. -/
def KeepsExcept (l l' removed : List Match) : Prop := l'.Sublist l ∧ ∀ m ∈ l, m ∈ l' ↔ m ∉ removed

/-- `c` is a public match of `l` that shares an index with `m` and has a longer initiator. -/
structure LongerConflict (l : List Match) (m c : Match) : Prop where
  mem : c ∈ l
  isPublic : c.priv = false
  overlap : Overlap m c
  longer : m.initLen < c.initLen

/-- A chain of longer and longer conflicting public matches, from `m` to `c`. -/
inductive LongerChain (l : List Match) : Match → Match → Prop where
  | one {m c} : LongerConflict l m c → LongerChain l m c
  | more {m c d} : LongerConflict l m c → LongerChain l c d → LongerChain l m d

/-- `m` is a public match of `l` sharing an index with a longer public match of `l`. -/
def LosesToLonger (l : List Match) (m : Match) : Prop := m.priv = false ∧ ∃ c ∈ l, c.priv = false ∧ Overlap m c ∧ m.stop - m.start < c.stop - c.start

/-- The matches of `l` are pairwise different objects, the public ones are not empty, have no conflict solver and no parent; equal matches are allowed
if they are all public or all private. -/
structure Ordinary (l : List Match) : Prop where
  identities : (l.map Match.id).Nodup
  nonEmpty : ∀ m ∈ l, m.priv = false → m.start < m.stop
  noSolver : ∀ m ∈ l, m.priv = false → m.solver = none
  noParent : ∀ m ∈ l, m.priv = false → m.initLen = m.stop - m.start
  equalAlike : ∀ a ∈ l, ∀ b ∈ l, a.eqv b = true → a.priv = b.priv

/-- Conflict solvers that do not raise, and answer one of the two matches, nothing, or "default". -/
def PoliteSolvers (custom : Nat → Match → Match → Except PyErr SolverRet) : Prop := ∀ k a b,
  custom k a b = .ok .default ∨ custom k a b = .ok .keepBoth ∨ custom k a b = .ok (.drop a) ∨ custom k a b = .ok (.drop b)

/-- What the engine is left with after running one rule that did not raise. -/
structure RanFine {ρ : Type} (x : RuleRun Matches ρ) (s' : Matches) : Prop where
  state : x.state = s'
  err : x.err = none

end Rebulk.Spec
