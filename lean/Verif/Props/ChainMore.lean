import Verif.Props.Origin
/-!
# Chains: where `C55` and `C81` fail
-/
namespace Rebulk
open Spec

/-- For the examples: the span of each match, and of its children with their pattern. -/
def exKids (r : Except PyErr (List MTree)) : List ((Int × Int) × List ((Int × Int) × Option Nat)) :=
  match r with
  | .ok out => out.map (fun (t : MTree) => (t.root.span, t.children.map (fun (c : MTree) => (c.root.span, c.root.pattern))))
  | .error _ => []

/-- Rejects a match with a child of pattern 3. -/
def exNotThree : Validator := some (fun t => t.children.all (fun c => c.root.pattern != some 3))

/-- The chain of `a` and of an optional nested chain (pattern 3) of `b`. -/
def exNestedChain (v : Validator) : PatternObj Unit := .chain {} (Pattern.init 1 { validator := .one v }) none
  (.cons (exPattern 2 {} ["a"]) 1 (some 1) false
    (.cons (.chain {} (Pattern.init 3 {}) none (.cons (exPattern 4 {} ["b"]) 1 (some 1) false .nil)) 0 (some 1) false .nil))

/-- **C55** does not hold when the last part is a chain: its match is dropped and the validator is then satisfied, but the matches of the parts of that chain
stay, and so does the end. Without the validator the match has the dropped child. -/
theorem C55_nested_refuted :
    exKids ((exNestedChain (some (fun _ => true))).matches_ (fun s => s) "ab".toList) = [((0, 2), [((0, 1), some 2), ((1, 2), some 4), ((1, 2), some 3)])] ∧
    exKids ((exNestedChain exNotThree).matches_ (fun s => s) "ab".toList) = [((0, 2), [((0, 1), some 2), ((1, 2), some 4)])] := by
  constructor <;> decide +kernel

/-- **C81** does not hold for a part with two strings: `string("a", "b").repeater("+")` on `abab` keeps the first `a` only, although `b` follows it immediately. On
`aabb` it keeps all four. -/
theorem C81_refuted : let ch : PatternObj Unit := .chain {} (Pattern.init 1 {}) none (.cons (exPattern 2 {} ["a", "b"]) 1 none false .nil)
    (exKids (ch.matches_ (fun s => s) "abab".toList)).head? = some ((0, 1), [((0, 1), some 2)]) ∧
    exKids (ch.matches_ (fun s => s) "aabb".toList) = [((0, 4), [((0, 1), some 2), ((2, 3), some 2), ((1, 2), some 2), ((3, 4), some 2)])] := by
  constructor <;> decide +kernel

end Rebulk
