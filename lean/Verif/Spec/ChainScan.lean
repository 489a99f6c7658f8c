import Verif.Spec.Chain
import Verif.Spec.Origin
/-!
# The search of a chain, from left to right
-/
namespace Rebulk.Spec

/-- The part is repeated too few times in the text: it has a smallest number of repetitions, which no kept occurrence reaches. -/
def TooFew (part : Part) (first : Bool) (text : Str) : Prop :=
  ∃ em rs raws, part.search text = .ok (em, rs) ∧ KeptOf text first part.stop rs raws ∧ 0 < part.start ∧
    ∀ r ∈ raws, (r.root.matchIndex : Int) + 1 < part.start

/-- The parts are looked for one after the other in the text, taken to start at `pos` of the input; each one behind the last occurrence of those before it. The
steps are those of the parts found (as often as they should). The boolean tells whether all are found, the last two indexes what is left of the text and where it
is taken to start. -/
inductive Tried (input : Str) : Bool → Str → Int → List Part → List Step → Bool → Str → Int → Prop where
  | all (first : Bool) (text : Str) (pos : Int) : Tried input first text pos [] [] true text pos
  | missing {first text part} (pos : Int) (parts : List Part) : TooFew part first text → Tried input first text pos (part :: parts) [] false text pos
  | found {first text pos part parts kept raws steps whole text' pos'} : Keeps part first text kept raws →
      Tried input false (Step.nextText input ⟨part, text, pos, kept, raws⟩) (Step.nextPos ⟨part, text, pos, kept, raws⟩) parts steps whole text' pos' →
      Tried input first text pos (part :: parts) (⟨part, text, pos, kept, raws⟩ :: steps) whole text' pos'

/-- The matches collected along the steps, at their places in the input. -/
def Gathers (breaker : Option (List MTree → Bool)) (input : Str) (steps : List Step) (cur : List MTree) : Prop :=
  ∃ moved : List (List MTree), moved.length = steps.length ∧
    (∀ (i : Nat) (s : Step) (l : List MTree), steps[i]? = some s → moved[i]? = some l → MovedList input s.pos s.kept l) ∧
    cur = collect breaker [] ((steps.zip moved).flatMap (fun x => x.1.groups x.2))

/-- Where the rest of the text is taken to start when a part is missing: the end of the first collected match. (The text itself starts behind the last
occurrence.) -/
def resumeAt (cur : List MTree) (pos : Int) : Int := match cur with | [] => pos | x :: _ => x.root.stop

/-- The search of the chain in the text, taken to start at `pos` of the input, gives these matches. -/
inductive Scans (c : Chain) (input : Str) : Str → Int → List MTree → Prop where
  /-- The end is reached. -/
  | over (text : Str) {pos : Int} : (input.length : Int) ≤ pos → Scans c input text pos []
  /-- No part has an occurrence. -/
  | nothing {text pos steps whole text' pos'} : pos < (input.length : Int) → Tried input true text pos c.parts steps whole text' pos' →
      (∀ s ∈ steps, s.raws = []) → Scans c input text pos []
  /-- All parts are found: the collected matches make a match. The search goes on behind the last occurrence. -/
  | matched {text pos steps text' pos' cur t ts} : pos < (input.length : Int) → Tried input true text pos c.parts steps true text' pos' →
      (∃ s ∈ steps, s.raws ≠ []) → Gathers c.breaker input steps cur → cur ≠ [] → BuiltFrom cur t →
      MadeBy c.pattern.id c.pattern.opts input t.root.start t.root.stop t.root → Scans c input text' pos' ts → Scans c input text pos (t :: ts)
  /-- All parts are found, but none of their matches is collected. -/
  | unseen {text pos steps text' pos' ts} : pos < (input.length : Int) → Tried input true text pos c.parts steps true text' pos' →
      (∃ s ∈ steps, s.raws ≠ []) → Gathers c.breaker input steps [] → Scans c input text' pos' ts → Scans c input text pos ts
  /-- Some part is missing, after others were found. -/
  | failed {text pos steps text' pos' cur ts} : pos < (input.length : Int) → Tried input true text pos c.parts steps false text' pos' →
      (∃ s ∈ steps, s.raws ≠ []) → Gathers c.breaker input steps cur → Scans c input text' (resumeAt cur pos') ts → Scans c input text pos ts

/-- A part whose search always gives an answer, without markers. -/
structure Answers (part : Part) : Prop where
  ok : ∀ s, ∃ em raws, part.search s = .ok (em, raws)
  unmarked : ∀ s em raws, part.search s = .ok (em, raws) → ∀ e ∈ em, ∀ m, NodeOf m e → m.marker = false

end Rebulk.Spec
