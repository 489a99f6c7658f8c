import Verif.Spec.WordChain
import Verif.Spec.WordSearch
/-!
# What a chain of repeated strings finds (`C121`)
-/
namespace Rebulk.Spec

/-- A string of a chain: the identity of its pattern, the word with name and tags, the least and the greatest number of repetitions (`none`: no limit), and
whether it is hidden. -/
structure Repeated where
  id : Nat
  word : Word
  least : Nat := 1
  most : Option Nat := some 1
  hidden : Bool := false

/-- The string `k` times, one right after the other. -/
def times (k : Nat) (w : Str) : Str := (List.replicate k w).flatten

/-- The text begins with `k` copies of the word, and `k` is as great as the limit `most` allows. -/
structure CopiesAt (w : Str) (most : Option Nat) (text : Str) (k : Nat) : Prop where
  there : times k w <+: text
  limit : ∀ m, most = some m → k ≤ m
  longest : times (k + 1) w <+: text → most = some k

/-- The repetitions a part takes in the text: `k` copies at `i`. The first part of a chain is looked for anywhere, and starts with its first occurrence; the others
have to be at the beginning of the text. -/
inductive Takes (x : Repeated) (text : Str) : Bool → Nat → Nat → Prop where
  | searched {i k} : FirstAt text x.word.text i → CopiesAt x.word.text x.most (text.drop i) k → Takes x text true i k
  | absent : (∀ i, ¬ OccursIn text x.word.text none none i) → Takes x text true 0 0
  | behind {k} : CopiesAt x.word.text x.most text k → Takes x text false 0 k

/-- The copies of a string found by a part. -/
structure Placed where
  part : Repeated
  start : Nat
  count : Nat

/-- One of these copies: its number and where it starts. -/
structure Copy where
  part : Repeated
  number : Nat
  start : Nat

/-- Where the copy stops. -/
def Copy.stop (x : Copy) : Nat := x.start + x.part.word.text.length

/-- Copy number `j`. -/
def Placed.copy (p : Placed) (j : Nat) : Copy := ⟨p.part, j, p.start + j * p.part.word.text.length⟩

/-- The copies, none if the part is hidden. -/
def Placed.copies (p : Placed) : List Copy := if p.part.hidden then [] else (List.range p.count).map p.copy

/-- All the visible copies. -/
def visible (run : List Placed) : List Copy := run.flatMap Placed.copies

/-- The parts are taken one after the other, from a text taken to start at `pos` of the input. The boolean before the last indexes tells whether each part
is repeated often enough; if one is not, those before it are listed. Then what is left of the text and where it is taken to start. -/
inductive Laid (input : Str) : Bool → Str → Nat → List Repeated → List Placed → Bool → Str → Nat → Prop where
  | all {first text pos} : Laid input first text pos [] [] true text pos
  | short {first text pos x xs i k} : Takes x text first i k → k < x.least → Laid input first text pos (x :: xs) [] false text pos
  | none {first text pos x xs i run whole text' pos'} : Takes x text first i 0 → x.least = 0 → Laid input false text pos xs run whole text' pos' →
      Laid input first text pos (x :: xs) (⟨x, pos + i, 0⟩ :: run) whole text' pos'
  | some {first text pos x xs i k run whole text' pos'} : Takes x text first i (k + 1) → x.least ≤ k + 1 →
      Laid input false (input.drop (pos + i + (k + 1) * x.word.text.length)) (pos + i + (k + 1) * x.word.text.length) xs run whole text' pos' →
      Laid input first text pos (x :: xs) (⟨x, pos + i, k + 1⟩ :: run) whole text' pos'

/-- Where the search goes on after an attempt that failed: behind the first visible copy. -/
def resumption (copies : List Copy) (pos : Nat) : Nat := match copies with | [] => pos | x :: _ => x.stop

/-- Where a chain of repeated strings is found: for each match, the copies found by the parts. `text` is what is left to search, taken to start at `pos` of the input. -/
inductive RepeatScan (parts : List Repeated) (input : Str) : Str → Nat → List (List Placed) → Prop where
  | over {text pos} : input.length ≤ pos → RepeatScan parts input text pos []
  /-- No string is found: the search is over. -/
  | nothing {text pos run whole text' pos'} : Laid input true text pos parts run whole text' pos' → (∀ p ∈ run, p.count = 0) → RepeatScan parts input text pos []
  /-- All parts are found: this is a match, if any of them is visible. -/
  | matched {text pos run text' pos' l} : pos < input.length → Laid input true text pos parts run true text' pos' → (∃ p ∈ run, p.count ≠ 0) →
      RepeatScan parts input text' pos' l → RepeatScan parts input text pos (if visible run = [] then l else run :: l)
  /-- Some part is not repeated often enough: the text goes on behind the last string found, but is taken to start behind the first visible one. -/
  | failed {text pos run text' pos' l} : pos < input.length → Laid input true text pos parts run false text' pos' → (∃ p ∈ run, p.count ≠ 0) →
      RepeatScan parts input text' (resumption (visible run) pos') l → RepeatScan parts input text pos l

/-- Where the first copy starts and where the last one stops. -/
def extent (copies : List Copy) : Int × Int := ((copies.head?.map (fun x => (x.start : Int))).getD 0, (copies.getLast?.map (fun x => (x.stop : Int))).getD 0)

/-- The match is this copy: its place in the input, the name and tags of the string, its number, and its pattern. It is public, no marker, and has neither a value of its own,
nor a solver, nor a raw span. -/
structure CopyOf (input : Str) (x : Copy) (m : Match) : Prop where
  span : m.span = ((x.start : Int), (x.stop : Int))
  name : m.name = x.part.word.name
  tags : m.tags = x.part.word.tags
  number : m.matchIndex = x.number
  pattern : m.pattern = some x.part.id
  input : m.inputString = some input
  isPublic : m.priv = false
  noMarker : m.marker = false
  noSolver : m.solver = none
  noValue : m.lit = .none
  raw : m.rawStart = none ∧ m.rawStop = none

/-- The match reaches from the first visible copy to the last one, and its children are the visible copies, in order. -/
def RunMatch (input : Str) (run : List Placed) (t : MTree) : Prop :=
  t.root.span = extent (visible run) ∧ Each (fun x (k : MTree) => CopyOf input x k.root) (visible run) t.children

/-- The parts of a chain are these strings, with their repeaters. -/
inductive RepeatedParts {Ctx : Type} : PartObjs Ctx → List Repeated → Prop where
  | nil : RepeatedParts .nil []
  | cons {rest xs} (info : PatternInfo Ctx) (x : Repeated) : RepeatedParts rest xs →
      RepeatedParts (.cons (.string info (Pattern.init x.id x.word.opts) {} [x.word.text]) (x.least : Int) (x.most.map (fun (n : Nat) => (n : Int))) x.hidden rest) (x :: xs)

end Rebulk.Spec

namespace Rebulk.Spec

/-- The copies of the strings, one right after the other, are what the input reads from `a` to `b`. -/
inductive Reads (input : Str) : Nat → List Placed → Nat → Prop where
  | done {a} : Reads input a [] a
  | skip {a b run} (x : Repeated) (start : Nat) : Reads input a run b → Reads input a (⟨x, start, 0⟩ :: run) b
  | copies {a b run} (x : Repeated) (k : Nat) : times (k + 1) x.word.text <+: input.drop a → Reads input (a + (k + 1) * x.word.text.length) run b →
      Reads input a (⟨x, a, k + 1⟩ :: run) b

/-- The run consists of these parts, each repeated as its repeater allows. -/
def RepeatsAllowed (parts : List Repeated) (run : List Placed) : Prop :=
  run.map Placed.part = parts ∧ ∀ p ∈ run, p.part.least ≤ p.count ∧ ∀ m, p.part.most = some m → p.count ≤ m

/-- The hits of these runs. -/
noncomputable def Config.runHits (c : Config) (input : Str) (l : List (List Placed)) : List Hit :=
  l.mapIdx (fun i run => ⟨(extent (visible run)).1, (extent (visible run)).2, i,
    c.valueOf c.name .none (textAt input (extent (visible run)).1 (extent (visible run)).2), c.name, c.tags⟩)

end Rebulk.Spec
