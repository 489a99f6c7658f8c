import Verif.Model.Callable
/-!
# Specification: when Python accepts a call

The rules of the language reference ("Calls"), for the callables of `Model/Callable.lean`. Nothing here mentions `call`.
-/
namespace Rebulk.Spec

/-- The number of positional arguments fits. -/
def FewEnough {α : Type} (sig : Signature) (args : List α) : Prop := sig.varargs = true ∨ args.length ≤ sig.params.length

/-- No keyword is unknown: it names a parameter that can be named, or there is a `**kwargs`. -/
def NoUnknown {α : Type} (sig : Signature) (kwargs : Dict String α) : Prop :=
  sig.varkw = true ∨ ∀ kv ∈ kwargs, kv.1 ∈ sig.params.drop sig.posOnly ∨ kv.1 ∈ sig.kwonly

/-- No parameter is given twice. -/
def NoTwice {α : Type} (sig : Signature) (args : List α) (kwargs : Dict String α) : Prop :=
  ∀ p ∈ (sig.params.take args.length).drop sig.posOnly, ∀ kv ∈ kwargs, kv.1 ≠ p

/-- No required parameter is missing: each is reached by the positional arguments or named. -/
def NoneMissing {α : Type} (sig : Signature) (args : List α) (kwargs : Dict String α) : Prop :=
  ∀ p ∈ sig.required, p ∈ sig.params.take args.length ∨ ∃ kv ∈ kwargs, kv.1 = p

/-- The call is accepted: no `TypeError`. -/
def AcceptsCall {α : Type} (sig : Signature) (args : List α) (kwargs : Dict String α) : Prop :=
  FewEnough sig args ∧ NoUnknown sig kwargs ∧ NoTwice sig args kwargs ∧ NoneMissing sig args kwargs

end Rebulk.Spec
