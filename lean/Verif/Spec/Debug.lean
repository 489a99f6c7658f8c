import Verif.Model.Debug
import Verif.Spec.Container
/-!
# Specification: length of matches, debugging switches
-/
namespace Rebulk.Spec

/-- A frame of rebulk's own code. -/
def OwnFrame (own : Option String) (f : StackFrame) : Prop := f.package = some own

/-- The stack has `f` as its innermost frame outside of rebulk. -/
def InnermostOutside (own : Option String) (stack : List StackFrame) (f : StackFrame) : Prop :=
  ∃ inner outer, stack = inner ++ f :: outer ∧ (∀ g ∈ inner, OwnFrame own g) ∧ ¬ OwnFrame own f

/-- A blank character. -/
def BlankChar (c : Char) : Prop := c = ' ' ∨ c = '\t' ∨ c = '\n' ∨ c = '\r' ∨ c = '\x0b' ∨ c = '\x0c'

/-- The word is one of those that switch on, in any case. -/
def Affirmative (w : Str) : Prop :=
  w.map Char.toLower = ['1'] ∨ w.map Char.toLower = ['t', 'r', 'u', 'e'] ∨ w.map Char.toLower = ['y', 'e', 's'] ∨ w.map Char.toLower = ['o', 'n']

/-- The text is an affirmative word, with blanks around it or not. -/
def SwitchesOn (s : Str) : Prop := ∃ before w after, s = before ++ w ++ after ∧ (∀ c ∈ before, BlankChar c) ∧ (∀ c ∈ after, BlankChar c) ∧ Affirmative w

/-- The indexes a match covers, each once. -/
def CoveredBy (m : Match) (l : List Int) : Prop := l.Nodup ∧ ∀ i, i ∈ l ↔ Covers m i

end Rebulk.Spec
