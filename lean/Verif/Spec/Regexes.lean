import Verif.Model.Regexes
import Verif.Spec.Registry
/-!
# Specification of the expansion of abbreviations
-/
namespace Rebulk.Spec

/-- The second text is the first one with every occurrence of `key`, from the left and without overlap, replaced by `repl`. (The empty text occurs before every
character and at the end.) -/
inductive Replaced (key repl : Str) : Str → Str → Prop where
  | emptyEnd : key = [] → Replaced key repl [] repl
  | emptyChar {c : Char} {s s' : Str} : key = [] → Replaced key repl s s' → Replaced key repl (c :: s) (repl ++ c :: s')
  | none {s : Str} : (∀ p t, s ≠ p ++ key ++ t) → Replaced key repl s s
  | first {p t t' : Str} : key ≠ [] → (∀ p' u, p ++ key ++ t = p' ++ key ++ u → p.length ≤ p'.length) → Replaced key repl t t' →
      Replaced key repl (p ++ key ++ t) (p ++ repl ++ t')

/-- The text after the abbreviations, one after the other. -/
inductive Expanded : List (Str × Str) → Str → Str → Prop where
  | nil (s : Str) : Expanded [] s s
  | cons {key repl : Str} {rest : List (Str × Str)} {s s' s'' : Str} : Replaced key repl s s' → Expanded rest s' s'' →
      Expanded ((key, repl) :: rest) s s''

/-- The text and the flags a call asks for, by argument: those of the pattern count for every argument that is not compiled already, its own flags count
first. -/
def WantedExpr (o : ReOpts) (h : List ReDict) : ReArg → Str → Int → Prop
  | .text s, t, f => Expanded o.abbreviations s t ∧ f = o.flags.getD 0
  | .dict a, t, f => ∃ d s, h[a]? = some d ∧ d.text = some s ∧ Expanded o.abbreviations s t ∧ f = d.flags.getD (o.flags.getD 0)
  | .items s own, t, f => Expanded o.abbreviations s t ∧ f = own.getD (o.flags.getD 0)
  | .compiled _, _, _ => False

/-- The text and the flags that are compiled: those of the pattern count for a string only (an empty one is not expanded), a dict is expanded and has flags of
its own only. -/
def UsedExpr (o : ReOpts) (h : List ReDict) : ReArg → Str → Int → Prop
  | .text s, t, f => (s = [] → t = []) ∧ (s ≠ [] → Expanded o.abbreviations s t) ∧ f = o.flags.getD 0
  | .dict a, t, f => ∃ d s, h[a]? = some d ∧ d.text = some s ∧ d.other = false ∧ Expanded o.abbreviations s t ∧ f = d.flags.getD 0
  | .items s own, t, f => t = s ∧ f = own.getD 0
  | .compiled _, _, _ => False

/-- The expressions compiled, argument by argument. -/
def CompiledAs (engine : Str → Int → Except PyErr Regex) (expr : ReArg → Str → Int → Prop) (arg : ReArg) (r : Regex) : Prop :=
  arg = .compiled r ∨ ∃ t f, expr arg t f ∧ engine t f = .ok r

/-- The dicts among the arguments. -/
def dictsOf (args : List ReArg) : List Nat := args.filterMap (fun a => match a with | .dict a => some a | _ => none)

/-- Abbreviations of one character, none of which occurs in a replacement. -/
def PlainAbbreviations (l : List (Char × Str)) : Prop := ∀ a ∈ l, ∀ b ∈ l, b.1 ∉ a.2

/-- What a character stands for. -/
def standsFor (l : List (Char × Str)) (c : Char) : Str :=
  match l.find? (fun a => a.1 == c) with
  | some a => a.2
  | none => [c]

end Rebulk.Spec
