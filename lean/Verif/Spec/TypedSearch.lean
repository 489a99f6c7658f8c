import Verif.Spec.GroupSearch
/-!
# What typed keys give from end to end (`C120`)
-/
namespace Rebulk.Spec
variable {Ctx : Type}

/-- The pattern was given `conv` as the formatter of the matches of this name, and no value for them; if it is a function, it gives no value to them either. -/
structure Converts (input : Str) (name : String) (conv : Val → Val) (p : PatternObj Ctx) : Prop where
  options : ∃ id o, p.base = Pattern.init id o ∧ ∀ child, chosen o.formatter (some (fun v => v)) (some name) child = some conv ∧
    ¬ IsTrue (chosen o.value .none (some name) child)
  results : ∀ info base functions, p = .functional info base functions → ∀ f ∈ functions, ∀ rs, ReturnsResults base.opts.name.isSome (f input) rs →
    ∀ x ∈ rs, x.2.2.name.getD base.opts.name = some name → ¬ IsTrue (x.2.2.value.getD .none)

/-- Every pattern that finds something of this name converts it with `conv`. -/
def AllConvert (lower : Str → Str) (input : Str) (ctx : Ctx) (name : String) (conv : Val → Val) (ps : List (PatternObj Ctx)) : Prop :=
  ∀ p ∈ ps, ∀ xs, FindsOf lower input ctx p xs → (∃ x ∈ xs, x.hit.name = some name) → Converts input name conv p

/-- The text of a capture, converted. -/
def Capture.converted (input : Str) (conv : Val → Val) (x : Capture) : Val := conv (.str (textAt input x.hit.start x.hit.stop))

/-- A match that contradicts the declared keys: it has the name of one, is public, was not given a value, and its value is not `None` and no instance of the type. -/
def Contradicts (isinstance : Val → Nat → Bool) (declared : Dict String Key) (m : Match) : Prop :=
  ∃ n k, m.name = some n ∧ n ≠ "" ∧ declared.get? n = some k ∧ m.priv = false ∧ ¬ IsTrue m.lit ∧ m.value ≠ .none ∧ isinstance m.value k.valueType = false

end Rebulk.Spec
