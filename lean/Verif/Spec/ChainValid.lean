import Verif.Spec.ChainScan
import Verif.Spec.ChainOrder
import Verif.Spec.PatternRun
/-!
# What a chain with validators returns
-/
namespace Rebulk.Spec

/-- The validator accepts the match, configured as a parent. -/
def Passes (o : PatternOpts) (idx : Nat) (t : MTree) : Prop := ∃ V, ParentConfigured o idx t V ∧ Accepts o false V
/-- The validator refuses the match, configured as a parent. -/
def Fails (o : PatternOpts) (idx : Nat) (t : MTree) : Prop := ∃ V, ParentConfigured o idx t V ∧ ¬ Accepts o false V

/-- Some child of the pattern of `last` is repetition number `k`. -/
def HasRepetition (t last : MTree) (k : Nat) : Prop := ∃ c ∈ t.children, c.root.pattern = last.root.pattern ∧ c.root.matchIndex = k

/-- What a chain emits for its raw match `t` of rank `idx`: as any pattern if the validator accepts the match; else the same for the match without the
repetitions of its last part from number `n` on, as few as necessary for the validator to accept it; nothing if the validator never does. -/
inductive ChainEmits (o : PatternOpts) (idx : Nat) (t : MTree) : List MTree → Prop where
  | whole {l} : Passes o idx t → Emits o idx t l → ChainEmits o idx t l
  | shortened {last n l} : Fails o idx t → t.children.getLast? = some last → HasRepetition t last n → Passes o idx (shortened t last.root.pattern n) →
      (∀ k, HasRepetition t last k → n < k → Fails o idx (shortened t last.root.pattern k)) → Emits o idx (shortened t last.root.pattern n) l →
      ChainEmits o idx t l
  | refused : Fails o idx t → (∀ last, t.children.getLast? = some last → ∀ k, HasRepetition t last k → Fails o idx (shortened t last.root.pattern k)) →
      ChainEmits o idx t []

/-- What is emitted for the raw matches, counted from `i`. -/
inductive ChainEmitsAll (o : PatternOpts) : Nat → List MTree → List MTree → Prop where
  | nil {i} : ChainEmitsAll o i [] []
  | cons {i t ts l ls} : ChainEmits o i t l → ChainEmitsAll o (i + 1) ts ls → ChainEmitsAll o i (t :: ts) (l ++ ls)

/-- What a chain returns, given its raw matches: what is emitted for each of them in order, seen by the post-processor. -/
def ChainReturns (o : PatternOpts) (ts out : List MTree) : Prop :=
  ∃ l, ChainEmitsAll o 0 ts l ∧ out = (match o.postProcessor with | none => l | some f => f l)

/-- A chain without processor of single matches, with a validator that never refuses a child. -/
structure Gentle (o : PatternOpts) : Prop where
  formatter : Proper o.formatter
  validator : Proper o.validator
  pre : o.preMatch = none
  post : o.postMatch = none
  kids : ∀ t, Accepts o true t

/-- A part whose matches have neither children nor parents, do not overlap, and come from left to right. -/
structure PlainPart (part : Part) : Prop where
  tidy : TidyPart part
  leaf : ∀ s em raws, part.search s = .ok (em, raws) → ∀ e ∈ em, e.children = [] ∧ e.root.ancestors = []
  ordered : ∀ s em raws, part.search s = .ok (em, raws) → LeftToRight em

end Rebulk.Spec
