import Verif.Spec.Pattern
import Verif.Spec.Registry
/-!
# Specification of what a whole pattern returns
-/
namespace Rebulk.Spec

/-- What a pattern emits for its raw match `t` of rank `idx`: nothing when a processor drops or empties it or a validator refuses it or one of its
children, else the emission of what the processor of emitted matches leaves of the configured match. -/
inductive Emits (o : PatternOpts) (idx : Nat) (t : MTree) : List MTree → Prop where
  | dropped : After o.preMatch t none → Emits o idx t []
  | emptied {t1} : After o.preMatch t (some t1) → t1.root.start = t1.root.stop → Emits o idx t []
  | refused {t1 V T} : After o.preMatch t (some t1) → t1.root.start < t1.root.stop → ParentConfigured o idx t1 V → ChildrenConfigured o idx V T →
      ¬ Accepted o V T → Emits o idx t []
  | droppedAfter {t1 V T} : After o.preMatch t (some t1) → t1.root.start < t1.root.stop → ParentConfigured o idx t1 V → ChildrenConfigured o idx V T →
      Accepted o V T → After o.postMatch T none → Emits o idx t []
  | emptiedAfter {t1 V T r} : After o.preMatch t (some t1) → t1.root.start < t1.root.stop → ParentConfigured o idx t1 V → ChildrenConfigured o idx V T →
      Accepted o V T → After o.postMatch T (some r) → r.root.start = r.root.stop → Emits o idx t []
  | emitted {t1 V T r} : After o.preMatch t (some t1) → t1.root.start < t1.root.stop → ParentConfigured o idx t1 V → ChildrenConfigured o idx V T →
      Accepted o V T → After o.postMatch T (some r) → r.root.start < r.root.stop → Emits o idx t (emission o r)

/-- What is emitted for the raw matches of one sub-pattern, counted from `i`. -/
inductive EmitsAll (o : PatternOpts) : Nat → List MTree → List MTree → Prop where
  | nil {i} : EmitsAll o i [] []
  | cons {i t ts l ls} : Emits o i t l → EmitsAll o (i + 1) ts ls → EmitsAll o i (t :: ts) (l ++ ls)

/-- What a pattern returns, given the raw matches of each of its sub-patterns: what is emitted for each of them in order, seen by the post-processor. -/
def Returns (o : PatternOpts) (raws : List (List MTree)) (out : List MTree) : Prop :=
  ∃ parts : List (List MTree), Each (fun rs l => EmitsAll o 0 rs l) raws parts ∧
    out = (match o.postProcessor with | none => parts.flatten | some f => f parts.flatten)

/-- A match ends before it starts: one of the raw matches `l` (as the first processor leaves it), or one the second processor was given in order. -/
def Reversed (o : PatternOpts) (l : List MTree) : Prop :=
  (∃ t ∈ l, ∃ r, After o.preMatch t (some r) ∧ r.root.stop < r.root.start) ∨
  ∃ x r, x.root.start < x.root.stop ∧ After o.postMatch x (some r) ∧ r.root.stop < r.root.start

/-- The processor returns no match that ends before it starts. -/
def KeepsOrder (f : Option (MTree → ProcRet)) : Prop := ∀ g, f = some g → ∀ t r, g t = .tree r → r.root.start ≤ r.root.stop

/-- The raw matches of a string: its occurrences. -/
def StringRaws (id : Nat) (o : PatternOpts) (lower : Str → Str) (so : StringOpts) (input sub : Str) (l : List MTree) : Prop :=
  ∃ positions, Occurrences (if so.ignoreCase then lower input else input) (if so.ignoreCase then lower sub else sub) so.start so.stop positions ∧
    Each (fun (pos : Nat) t => MadeBy id o.opts input pos (pos + sub.length) t.root ∧ t.children = []) positions l

/-- The raw matches of a regular expression: one for each non-empty match object. -/
def RegexRaws (id : Nat) (o : PatternOpts) (rc : Bool) (input : Str) (re : Regex) (l : List MTree) : Prop :=
  Each (RegexMatch id o.opts rc re.names input) ((re.finditer input).filter (fun obj => decide (obj.start ≠ obj.stop))) l

/-- The raw matches of a function: one for each result that stands for a non-empty match. -/
def FunctionRaws (id : Nat) (o : PatternOpts) (input : Str) (rs : List (FRet × (Int × Int) × MatchArgs)) (l : List MTree) : Prop :=
  Each (fun x t => MadeWith id o.opts input x.2.1.1 x.2.1.2 x.2.2 t.root ∧ t.children = []) (rs.filter (fun x => decide (x.2.1.1 ≠ x.2.1.2))) l

/-- The function returns the results `rs`: none, a single one, or several in a list or a generator. -/
def ReturnsResults (named : Bool) (r : FRet) (rs : List (FRet × (Int × Int) × MatchArgs)) : Prop :=
  (∀ x ∈ rs, Describes named x.1 x.2.1.1 x.2.1.2 x.2.2 ∧ x.2.1.1 ≤ x.2.1.2) ∧
  (r = .none ∧ rs = [] ∨ (∃ x, rs = [x] ∧ r = x.1) ∨ r = .seq (rs.map (fun x => x.1)) ∨ r = .gen (rs.map (fun x => x.1)))

end Rebulk.Spec
