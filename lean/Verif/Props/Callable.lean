import Verif.Spec.Callable
import Verif.Props.Utils
/-!
# C40: the calls `call` makes
-/
namespace Rebulk
open Spec

/-- **C40 is false of methods**: `getfullargspec` counts the `self` of a bound method, so that a method of one parameter, called through
`call` with two arguments, is given both, and raises. (`functional(obj.method)` calls it with the input and the context.) And it is false of
parameters that can only be given by position: a keyword of that name is passed on. -/
theorem C40_method_refuted :
    (∃ (sig : Signature) (args : List Nat), sig.params = ["string"] ∧ sig.required = ["string"] ∧ args = [10, 11] ∧
      let passed := callWith .method sig 1 args []
      passed.1 = [10, 11] ∧ ¬ FewEnough sig passed.1 ∧ ¬ AcceptsCall sig passed.1 passed.2 ∧
      let fromFunction := callWith .function sig 1 args []
      AcceptsCall sig fromFunction.1 fromFunction.2) ∧
    (∃ (sig : Signature) (kwargs : Dict String Nat), sig.params = ["string"] ∧ sig.posOnly = 1 ∧
      let passed := callWith .function sig 1 [10] kwargs
      ¬ NoUnknown sig passed.2) := by
  refine ⟨⟨{ params := ["string"], required := ["string"] }, [10, 11], rfl, rfl, rfl, by decide, ?_, ?_, ?_⟩,
    ⟨{ params := ["string"], posOnly := 1 }, [("string", 5)], rfl, rfl, ?_⟩⟩
  · intro h; rcases h with h | h <;> revert h <;> decide
  · intro h; rcases h.1 with h | h <;> revert h <;> decide
  · refine ⟨Or.inr (by decide), Or.inr (by decide), ?_, ?_⟩
    · intro p _ kv hkv
      have : kv ∈ (callWith .function { params := ["string"], required := ["string"] } 1 [10, 11] []).2 := hkv
      simp [callWith, callArgs, argspecArgs, fullArgSpec] at this
    · intro p hp
      have : p = "string" := by simpa using hp
      subst this
      exact Or.inl (by decide)
  · intro passed h
    rcases h with h | h
    · exact absurd h (by decide)
    · have := h ("string", 5) (by decide)
      revert this; decide

/-- **C40, of functions and classes** whose parameters can all be named and none of which is called `ignore_unused`, when no given keyword
is called `self`: `call` never passes too many positional arguments nor an unknown keyword. The call it makes is accepted by Python
exactly when no given keyword names a parameter taken by the given positional arguments, and each required parameter is reached by the
given positional arguments or is, not being keyword-only unless there is `**kwargs`, named by a given keyword. (Missing: methods, parameters given only by position.) -/
theorem C40_accepted_partial {α : Type} (kind : CallKind) (sig : Signature) (true_ : α) (args : List α) (kwargs : Dict String α)
    (hm : kind ≠ .method) (hp : sig.posOnly = 0) (hi : "ignore_unused" ∉ sig.params ∧ "ignore_unused" ∉ sig.required)
    (hs : ∀ kv ∈ kwargs, kv.1 ≠ "self") :
    let passed := callWith kind sig true_ args kwargs
    FewEnough sig passed.1 ∧ NoUnknown sig passed.2 ∧
    (AcceptsCall sig passed.1 passed.2 ↔
      (∀ p ∈ sig.params.take args.length, ∀ kv ∈ kwargs, kv.1 ≠ p) ∧
      (∀ p ∈ sig.required, p ∈ sig.params.take args.length ∨
        ((p ∈ sig.params ∨ sig.varkw = true) ∧ ∃ kv ∈ kwargs, kv.1 = p))) := by
  intro passed
  have hself : kind.isClass = true → (fullArgSpec kind sig).args ≠ [] := by
    cases kind <;> simp [CallKind.isClass, fullArgSpec]
  have hlen : ((fullArgSpec kind sig).args.length : Int) - (if kind.isClass then 1 else 0) = (sig.params.length : Int) := by
    cases kind with
    | function => simp [fullArgSpec, CallKind.isClass]
    | class_ => simp [fullArgSpec, CallKind.isClass]
    | method => exact absurd rfl hm
  have h1 : passed.1 = if sig.varargs then args else args.take sig.params.length := by
    simp only [passed, callWith, callArgs, argspecArgs]
    rw [show (fullArgSpec kind sig).varargs = sig.varargs from rfl, hlen]
    cases sig.varargs with
    | true => rfl
    | false =>
      simp only [Bool.false_eq_true, if_false]
      unfold pySlice clampIdx
      simp only
      rw [if_neg (by omega)]
      simp [← List.take_eq_take_min]
  have hreach : sig.params.take passed.1.length = sig.params.take args.length := by
    rw [h1]
    cases sig.varargs with
    | true => rfl
    | false =>
      simp only [Bool.false_eq_true, if_false]
      rw [List.length_take, ← List.take_take]
      exact List.take_of_length_le (by rw [List.length_take]; omega)
  have hnames : ∀ kv ∈ kwargs, kv.1 ∈ (fullArgSpec kind sig).args ↔ kv.1 ∈ sig.params := by
    intro kv hkv
    cases kind with
    | function => rfl
    | class_ => simp [fullArgSpec, hs kv hkv]
    | method => exact absurd rfl hm
  have hi' : "ignore_unused" ∉ (fullArgSpec kind sig).args := by
    cases kind <;> simp [fullArgSpec, hi.1]
  have h2 : sig.varkw = false → ∀ kv, kv ∈ passed.2 ↔ kv ∈ kwargs ∧ kv.1 ∈ sig.params := by
    intro hv kv
    have := ((C40_call_partial (fullArgSpec kind sig) kind.isClass true_ args kwargs hself hi').2.2.1 hv).1 kv
    rw [show passed.2 = (callArgs (fullArgSpec kind sig) kind.isClass true_ args kwargs).2 from rfl, this]
    constructor
    · rintro ⟨a, b⟩; exact ⟨a, (hnames kv a).1 b⟩
    · rintro ⟨a, b⟩; exact ⟨a, (hnames kv a).2 b⟩
  have h3 : sig.varkw = true → passed.2 = ("ignore_unused", true_) :: kwargs := by
    intro hv
    exact (C40_call_partial (fullArgSpec kind sig) kind.isClass true_ args kwargs hself hi').2.2.2 hv
  have hfew : FewEnough sig passed.1 := by
    unfold FewEnough
    rw [h1]
    cases sig.varargs with
    | true => exact Or.inl rfl
    | false => right; simp only [Bool.false_eq_true, if_false]; rw [List.length_take]; omega
  have hunk : NoUnknown sig passed.2 := by
    unfold NoUnknown
    cases hv : sig.varkw with
    | true => exact Or.inl rfl
    | false =>
      right
      intro kv hkv
      left
      rw [hp, List.drop_zero]
      exact ((h2 hv kv).1 hkv).2
  refine ⟨hfew, hunk, ?_⟩
  have htwice : NoTwice sig passed.1 passed.2 ↔ ∀ p ∈ sig.params.take args.length, ∀ kv ∈ kwargs, kv.1 ≠ p := by
    unfold NoTwice
    rw [hreach, hp, List.drop_zero]
    cases hv : sig.varkw with
    | true =>
      rw [h3 hv]
      constructor
      · intro h p hpp kv hkv; exact h p hpp kv (List.mem_cons_of_mem _ hkv)
      · intro h p hpp kv hkv
        rcases List.mem_cons.1 hkv with rfl | hkv
        · intro he; exact hi.1 (by simp only at he; rw [he]; exact List.mem_of_mem_take hpp)
        · exact h p hpp kv hkv
    | false =>
      constructor
      · intro h p hpp kv hkv he
        exact h p hpp kv ((h2 hv kv).2 ⟨hkv, by rw [he]; exact List.mem_of_mem_take hpp⟩) he
      · intro h p hpp kv hkv; exact h p hpp kv ((h2 hv kv).1 hkv).1
  have hmiss : NoneMissing sig passed.1 passed.2 ↔ ∀ p ∈ sig.required, p ∈ sig.params.take args.length ∨
      ((p ∈ sig.params ∨ sig.varkw = true) ∧ ∃ kv ∈ kwargs, kv.1 = p) := by
    unfold NoneMissing
    rw [hreach]
    cases hv : sig.varkw with
    | true =>
      rw [h3 hv]
      constructor
      · intro h p hpp
        rcases h p hpp with h | ⟨kv, hkv, he⟩
        · exact Or.inl h
        · rcases List.mem_cons.1 hkv with rfl | hkv
          · exact absurd (by rw [show "ignore_unused" = p from he]; exact hpp) hi.2
          · exact Or.inr ⟨Or.inr rfl, kv, hkv, he⟩
      · intro h p hpp
        rcases h p hpp with h | ⟨_, kv, hkv, he⟩
        · exact Or.inl h
        · exact Or.inr ⟨kv, List.mem_cons_of_mem _ hkv, he⟩
    | false =>
      constructor
      · intro h p hpp
        rcases h p hpp with h | ⟨kv, hkv, he⟩
        · exact Or.inl h
        · have := (h2 hv kv).1 hkv
          exact Or.inr ⟨Or.inl (he ▸ this.2), kv, this.1, he⟩
      · intro h p hpp
        rcases h p hpp with h | ⟨hin, kv, hkv, he⟩
        · exact Or.inl h
        · rcases hin with hin | hin
          · exact Or.inr ⟨kv, (h2 hv kv).2 ⟨hkv, he ▸ hin⟩, he⟩
          · exact absurd hin (by decide)
  rw [← htwice, ← hmiss]
  exact ⟨fun h => ⟨h.2.2.1, h.2.2.2⟩, fun h => ⟨hfew, hunk, h.1, h.2⟩⟩

/-- A functional pattern `def find(string, context=None, *, strict=False)` created with `strict=True, name="x"`. -/
example :
    let sig : Signature := { params := ["string", "context"], required := ["string"], kwonly := ["strict"] }
    CallKind.function ≠ .method ∧ sig.posOnly = 0 ∧ ("ignore_unused" ∉ sig.params ∧ "ignore_unused" ∉ sig.required) ∧
    (∀ kv ∈ [("strict", 1), ("name", 2)], kv.1 ≠ "self") ∧
    callWith .function sig 1 [10, 11, 12] [("strict", 1), ("name", 2)] = ([10, 11], []) ∧
    callWith .class_ { params := ["start", "end", "name"] } 1 [10, 11] [("strict", 1), ("name", 2)] = ([10, 11], [("name", 2)]) := by decide

end Rebulk
