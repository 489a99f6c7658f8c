import Verif.Spec.ChainScan
import Verif.Spec.Registry
/-!
# What a chain of strings finds (`C117`)
-/
namespace Rebulk.Spec

/-- A string of a chain, with the name and the tags it is given. -/
structure Word where
  text : Str
  name : Option String := none
  tags : List String := []

/-- The options of a string of a chain. -/
def Word.opts (w : Word) : PatternOpts := { opts := { name := w.name, tags := w.tags } }

/-- The strings one after the other. -/
def spell (ws : List Word) : Str := (ws.map Word.text).flatten

/-- The words the text begins with, one right after the other, until one is missing. -/
def wordsFound : List Word → Str → List Word
  | [], _ => []
  | w :: ws, text => if w.text.isPrefixOf text then w :: wordsFound ws (text.drop w.text.length) else []

/-- The first occurrence of the word in the text. -/
def FirstAt (text w : Str) (i : Nat) : Prop := OccursIn text w none none i ∧ ∀ j < i, ¬ OccursIn text w none none j

/-- A place in the input, with a name and tags. -/
structure Piece where
  start : Int
  stop : Int
  name : Option String
  tags : List String

/-- The words laid down one right after the other from `p` on. -/
def layout : Nat → List Word → List Piece
  | _, [] => []
  | p, w :: ws => ⟨p, (p : Int) + w.text.length, w.name, w.tags⟩ :: layout (p + w.text.length) ws

/-- Where a chain of strings is found. `text` is what is left to search, taken to start at `pos` of the input. The first string is searched for in the text;
the others have to follow it in the input. When they do, this is a match, and both go on behind it. When they do not, the text goes on behind the strings that
were found, but is taken to start behind the first one. -/
inductive WordScan (w : Word) (rest : List Word) (input : Str) : Str → Nat → List (Nat × Nat) → Prop where
  | over {text pos} : input.length ≤ pos → WordScan w rest input text pos []
  | nothing {text pos} : (∀ i, ¬ OccursIn text w.text none none i) → WordScan w rest input text pos []
  | matched {text pos l} (i : Nat) : pos < input.length → FirstAt text w.text i → spell rest <+: input.drop (pos + i + w.text.length) →
      WordScan w rest input (input.drop (pos + i + (spell (w :: rest)).length)) (pos + i + (spell (w :: rest)).length) l →
      WordScan w rest input text pos ((pos + i, pos + i + (spell (w :: rest)).length) :: l)
  | failed {text pos l} (i : Nat) : pos < input.length → FirstAt text w.text i → ¬ spell rest <+: input.drop (pos + i + w.text.length) →
      WordScan w rest input
        (input.drop (pos + i + w.text.length + (spell (wordsFound rest (input.drop (pos + i + w.text.length)))).length)) (pos + i + w.text.length) l →
      WordScan w rest input text pos l

/-- The match is at this place, with this name and these tags. -/
structure PieceOf (x : Piece) (m : Match) : Prop where
  span : m.span = (x.start, x.stop)
  name : m.name = x.name
  tags : m.tags = x.tags

/-- The match has this span, and its children are the words. -/
def WordMatch (words : List Word) (sp : Nat × Nat) (t : MTree) : Prop :=
  t.root.span = ((sp.1 : Int), (sp.2 : Int)) ∧ (∀ k ∈ t.children, ∃ x ∈ layout sp.1 words, PieceOf x k.root) ∧
    ∀ x ∈ layout sp.1 words, ∃ k ∈ t.children, PieceOf x k.root

end Rebulk.Spec
