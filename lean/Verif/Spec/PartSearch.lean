import Verif.Spec.RepeatChain
import Verif.Spec.GroupSearch
/-!
# What a `Rebulk` finds that looks for the parts of chains of repeated strings (`C123`)
-/
namespace Rebulk.Spec
variable {Ctx : Type}

/-- The capture of a whole match of a chain, number `rank`. -/
noncomputable def GroupConfig.runWhole (g : GroupConfig) (input : Str) (rank : Nat) (run : List Placed) : Capture :=
  g.capture input rank none (extent (visible run)) g.name

/-- The capture of one of its copies: with the name and the tags of its string, but with the value, formatter and privacy that the options of the chain tell, and with the number
of the match of the chain. -/
noncomputable def GroupConfig.copyCapture (g : GroupConfig) (input : Str) (rank : Nat) (run : List Placed) (x : Copy) : Capture :=
  { g with tags := x.part.word.tags }.capture input rank (some (extent (visible run))) ((x.start : Int), (x.stop : Int)) x.part.word.name

open Classical in
/-- The captures of a match of a chain: the whole match if it is wanted (or asked for as private), then its visible copies in order, but for the names left out. -/
noncomputable def GroupConfig.runParts (g : GroupConfig) (input : Str) (rank : Nat) (run : List Placed) : List Capture :=
  ((if g.every || g.hiddenParent then [g.runWhole input rank run] else []) ++ (visible run).map (g.copyCapture input rank run)).filter
    (fun x => decide (∀ n, x.hit.name = some n → n ∉ g.ignored))

/-- The captures of the matches of a chain. -/
noncomputable def GroupConfig.runsParts (g : GroupConfig) (input : Str) (l : List (List Placed)) : List Capture :=
  (l.mapIdx (g.runParts input)).flatten

/-- What a pattern finds: the parts of a chain of repeated strings that has no validator, or captures of `C119`. -/
inductive PiecesOf (lower : Str → Str) (input : Str) (ctx : Ctx) : PatternObj Ctx → List Capture → Prop where
  | other {p xs} : FindsOf lower input ctx p xs → PiecesOf lower input ctx p xs
  | parts {info} (id : Nat) (g : GroupConfig) {parts : PartObjs Ctx} {xs : List Repeated} {l : List (List Placed)} : info.disabled ctx = false → g.validator = .absent →
      RepeatedParts parts xs → RepeatScan xs input input 0 l →
      PiecesOf lower input ctx (.chain info (Pattern.init id g.opts) none parts) (g.runsParts input l)

/-- The same patterns. -/
inductive PiecePattern (lower : Str → Str) (input : Str) (ctx : Ctx) : PatternObj Ctx → Prop where
  | other {p} : GroupPattern lower input ctx p → PiecePattern lower input ctx p
  | parts {info} (id : Nat) (g : GroupConfig) {parts : PartObjs Ctx} {xs : List Repeated} : g.validator = .absent → Proper g.formatter →
      RepeatedParts parts xs → (∀ x ∈ xs, x.word.text ≠ []) → PiecePattern lower input ctx (.chain info (Pattern.init id g.opts) none parts)

end Rebulk.Spec
