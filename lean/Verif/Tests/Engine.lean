import Verif.Model.Rebulk
/-!
# Tests: a small regular expression engine

In the model the engine of the `re` module is a parameter (`Regex.finditer`, `Model/Pattern.lean`), and no theorem depends on this file. To run the
project's own tests (`rebulk/test/*.py`) on the model one engine is needed; this backtracking one covers what the tests use: literals,
`.`, classes, `\d \w \W \s`, groups (also named or non-capturing), `|`, `* + ? *? {m} {m,n}` and case folding. These modules are
tests of the model on literals, not proofs of any property.
-/
namespace Rebulk.Tests

/-- Regular expressions. -/
inductive Re where
  | eps
  | chr (p : Char → Bool)
  | seq (a b : Re)
  | alt (a b : Re)
  | star (greedy : Bool) (a : Re)
  | grp (i : Nat) (a : Re)

/-- The captures made so far: group, start, end. -/
abbrev Caps := List (Nat × Nat × Nat)

/-- Backtracking search of a match of `r` at the beginning of the text (which starts at position `i`), then `k`. -/
def Re.go : Nat → Re → Str → Nat → Caps → (Str → Nat → Caps → Option (Nat × Caps)) → Option (Nat × Caps)
  | 0, _, _, _, _, _ => none
  | _ + 1, .eps, s, i, c, k => k s i c
  | _ + 1, .chr p, s, i, c, k => match s with
    | [] => none
    | x :: s => if p x then k s (i + 1) c else none
  | f + 1, .seq a b, s, i, c, k => a.go f s i c (fun s i c => b.go f s i c k)
  | f + 1, .alt a b, s, i, c, k => match a.go f s i c k with
    | some r => some r
    | none => b.go f s i c k
  | f + 1, .star true a, s, i, c, k =>
    match a.go f s i c (fun s' i' c' => if i' = i then none else (Re.star true a).go f s' i' c' k) with
    | some r => some r
    | none => k s i c
  | f + 1, .star false a, s, i, c, k => match k s i c with
    | some r => some r
    | none => a.go f s i c (fun s' i' c' => if i' = i then none else (Re.star false a).go f s' i' c' k)
  | f + 1, .grp n a, s, i, c, k => a.go f s i c (fun s' i' c' => k s' i' (c' ++ [(n, i, i')]))

/-- Enough for the tests. -/
def fuel : Nat := 2000

/-- The group `n` of a match object. -/
def groupOf (c : Caps) (n : Nat) : ReGroup :=
  let l := (c.filter (fun x => x.1 == n)).map (fun x => ((x.2.1 : Int), (x.2.2 : Int)))
  { span := l.getLast?.getD (-1, -1), spans := l }

/-- `finditer` from position `i`; the last argument bounds the number of steps. -/
def Re.iter (r : Re) (groups : Nat) : Nat → Str → Nat → List ReObj
  | 0, _, _ => []
  | n + 1, s, i =>
    match r.go fuel s i [] (fun _ i c => some (i, c)) with
    | some (j, c) =>
      { start := i, stop := j, groups := (List.range groups).map (fun g => groupOf c (g + 1)) } ::
        (if j = i then (match s with | [] => [] | _ :: s => r.iter groups n s (i + 1)) else r.iter groups n (s.drop (j - i)) j)
    | none => match s with | [] => [] | _ :: s => r.iter groups n s (i + 1)

/-! ## Reading regular expressions -/

def isDigit (c : Char) : Bool := decide ('0' ≤ c ∧ c ≤ '9')
def isWord (c : Char) : Bool := isDigit c || decide ('a' ≤ c ∧ c ≤ 'z') || decide ('A' ≤ c ∧ c ≤ 'Z') || c == '_'
def isSpace (c : Char) : Bool := c == ' ' || c == '\t' || c == '\n'
/-- ASCII lower case. -/
def lowerChar (c : Char) : Char := if 'A' ≤ c ∧ c ≤ 'Z' then Char.ofNat (c.toNat + 32) else c
def lowerStr (s : Str) : Str := s.map lowerChar

/-- `\c`. -/
def escaped (c : Char) : Char → Bool :=
  if c == 'd' then isDigit else if c == 'w' then isWord else if c == 'W' then (fun x => !isWord x) else if c == 's' then isSpace else (fun x => x == c)

/-- One literal character; `fold` ignores case. -/
def literal (fold : Bool) (c : Char) : Char → Bool := fun x => if fold then lowerChar x == lowerChar c else x == c

/-- The inside of `[...]`, up to the closing bracket. -/
def readClass (fold : Bool) : Str → (Char → Bool) → Option ((Char → Bool) × Str)
  | [], _ => none
  | ']' :: s, p => some (p, s)
  | '\\' :: c :: s, p => readClass fold s (fun x => p x || escaped c x)
  | a :: '-' :: ']' :: s, p => some (fun x => p x || literal fold a x || x == '-', s)
  | a :: '-' :: b :: s, p => readClass fold s (fun x => p x || decide (a ≤ x ∧ x ≤ b))
  | a :: s, p => readClass fold s (fun x => p x || literal fold a x)

/-- At most `n` times. -/
def Re.upTo (a : Re) : Nat → Re
  | 0 => .eps
  | n + 1 => .alt (.seq a (a.upTo n)) .eps

/-- Between `m` and `m + n` times. -/
def Re.times (a : Re) (n : Nat) : Nat → Re
  | 0 => a.upTo n
  | m + 1 => .seq a (a.times n m)

/-- Quantifiers after an atom. -/
def quantified (a : Re) (s : Str) : Re × Str :=
  match s with
  | '*' :: '?' :: s => (.star false a, s)
  | '*' :: s => (.star true a, s)
  | '+' :: s => (.seq a (.star true a), s)
  | '?' :: s => (.alt a .eps, s)
  | '{' :: s =>
    let n := s.takeWhile isDigit
    match s.dropWhile isDigit with
    | '}' :: s => (a.times 0 (numberOf n), s)
    | ',' :: s => let m := s.takeWhile isDigit; (a.times (numberOf m - numberOf n) (numberOf n), (s.dropWhile isDigit).drop 1)
    | s => (a, s)
  | s => (a, s)

/-- What is read so far: the names of the groups. -/
abbrev Names := List (Option String)

/-- Alternatives, up to a closing parenthesis or the end. `acc` is the sequence being read. -/
def readAlt (fold : Bool) : Nat → Names → Str → Re → Option (Re × Names × Str)
  | 0, _, _, _ => none
  | _ + 1, ns, [], acc => some (acc, ns, [])
  | _ + 1, ns, ')' :: s, acc => some (acc, ns, ')' :: s)
  | f + 1, ns, '|' :: s, acc => (readAlt fold f ns s .eps).map (fun r => (.alt acc r.1, r.2))
  | f + 1, ns, '(' :: s, acc =>
    let (n, ns', s) := match s with
      | '?' :: ':' :: s => (none, ns, s)
      | '?' :: 'P' :: '<' :: s => (some (ns.length + 1), ns ++ [some (String.ofList (s.takeWhile (fun c => c != '>')))], (s.dropWhile (fun c => c != '>')).drop 1)
      | s => (some (ns.length + 1), ns ++ [none], s)
    match readAlt fold f ns' s .eps with
    | some (r, ns, ')' :: s) =>
      let q := quantified (match n with | some i => .grp i r | none => r) s
      readAlt fold f ns q.2 (.seq acc q.1)
    | _ => none
  | f + 1, ns, '[' :: s, acc => match readClass fold s (fun _ => false) with
    | none => none
    | some (p, s) => let q := quantified (.chr p) s; readAlt fold f ns q.2 (.seq acc q.1)
  | f + 1, ns, '\\' :: c :: s, acc => let q := quantified (.chr (escaped c)) s; readAlt fold f ns q.2 (.seq acc q.1)
  | f + 1, ns, '.' :: s, acc => let q := quantified (.chr (fun x => x != '\n')) s; readAlt fold f ns q.2 (.seq acc q.1)
  | f + 1, ns, c :: s, acc => let q := quantified (.chr (literal fold c)) s; readAlt fold f ns q.2 (.seq acc q.1)

/-- `re.compile(text, re.IGNORECASE if fold else 0)`. -/
def compile (text : String) (fold : Bool := false) : Regex :=
  match readAlt fold 500 [] text.toList .eps with
  | some (r, ns, []) => { names := ns, finditer := fun s => r.iter ns.length (s.length + 1) s 0 }
  | _ => { names := [], finditer := fun _ => [] }

/-! ## Helpers -/

/-- Fails the build when the assertion is false. -/
def check (p : Prop) [Decidable p] : IO Unit := if p then pure () else throw (IO.userError "the assertion does not hold")

/-- The spans of the match objects. -/
def spansOf (re : Regex) (s : String) : List (Int × Int) := (re.finditer s.toList).map (fun o => (o.start, o.stop))

/-- The text of a value. -/
def txt (s : String) : Val := .str s.toList

/-- `int` as a formatter. -/
def toInt : Val → Val
  | .str s => match pyInt? s with | some i => .int i | none => .none
  | v => v

/-- A functional pattern of the tests: `i = input_string.find(word); return i, i + len(word)`. -/
def finder (word : String) : Str → FRet := fun s =>
  match pyFind s word.toList none none with
  | some i => .seq [.val (.int i), .val (.int (i + word.length))]
  | none => .none

/-- The matches of a list of patterns one after the other, numbered, or none if one raises. -/
def found (l : List (Except PyErr (List MTree))) : List Match :=
  ((l.map (fun r => match r with | .ok ts => ts | .error _ => [])).flatMap (fun ts => ts.map MTree.root)).mapIdx (fun i m => { m with id := i })

/-- No exception. -/
def fine {α} : Except PyErr α → Bool
  | .ok _ => true
  | .error _ => false

end Rebulk.Tests
