import Verif.Lemmas.Raising
import Verif.Props.Rebulk
/-!
# C97: exceptions of user functions

Claim: an exception raised by a validator, a processor, a functional pattern or a chain breaker is never swallowed: the call of `matches` raises it,
unchanged, and a call that returns returns what it would have with any functions that agree on the calls that did not raise.
-/
namespace Rebulk
open Spec
variable {Ctx ρ : Type}

/-- The exceptions that the patterns in use can cause. -/
def Spec.Foreseen (r : RRebulkObj Ctx) (ctx : Ctx) (e : PyErr) : Prop := ∃ p ∈ r.effectivePatterns ctx, CausedBy (UserRaises p) e

theorem foreseen_leave {r : RRebulkObj Ctx} {ctx : Ctx} (e : PyErr) (h : Foreseen r ctx e) : Foreseen r ctx (leaveGenerator e) := by
  obtain ⟨p, hp, h⟩ := h
  refine ⟨p, hp, ?_⟩
  rcases h with h | ⟨rfl, h⟩
  · by_cases he : e = .stopIteration
    · subst he; exact Or.inr ⟨rfl, h⟩
    · have : leaveGenerator e = e := by cases e <;> first | rfl | exact absurd rfl he
      rw [this]; exact Or.inl h
  · exact Or.inr ⟨rfl, h⟩

/-- A call that returns returns what it would have returned whatever the raising calls had returned instead (`total f`); a call that raises raises an
exception of a user function (`RuntimeError` for a `StopIteration`), or the other one raises too. No user function raises the private
`_InvalidChainException` of `chain.py`. Missing: a `StopIteration` does not come out unchanged (`C97_refuted`). -/
theorem C97_partial (env : Env ρ) (r : RRebulkObj Ctx) (input : Str) (ctx : Ctx)
    (hpriv : ∀ p ∈ r.effectivePatterns ctx, ¬ UserRaises p .invalidChain) :
    (∀ found, r.matches_ env input ctx = .ok found → ∀ f, (r.total f).matches_ env input ctx = .ok found) ∧
    (∀ e, r.matches_ env input ctx = .error e →
      Foreseen r ctx e ∨ ∀ f, ∃ e', (r.total f).matches_ env input ctx = .error e') := by
  have hI : ¬ Foreseen r ctx .invalidChain := by
    rintro ⟨p, hp, h | ⟨h, _⟩⟩
    · exact hpriv p hp h
    · cases h
  have main := fun f => matches_follows (ρ := ρ) f hI foreseen_leave env r input ctx (fun p hp e he => ⟨p, hp, Or.inl he⟩)
  refine ⟨fun found h f => (main f).1 found h, ?_⟩
  intro e he
  by_cases hu : Foreseen r ctx e
  · exact Or.inl hu
  · exact Or.inr (fun f => ((main f).2 e he).resolve_left hu)

/-- Nothing is swallowed: when it matters what the raising calls would have returned, `matches` raises. -/
theorem C97_not_swallowed (env : Env ρ) (r : RRebulkObj Ctx) (input : Str) (ctx : Ctx)
    (hpriv : ∀ p ∈ r.effectivePatterns ctx, ¬ UserRaises p .invalidChain) (f g : Fill)
    (h : (r.total f).matches_ env input ctx ≠ (r.total g).matches_ env input ctx) (hf : ∃ x, (r.total f).matches_ env input ctx = .ok x) :
    ∃ e, r.matches_ env input ctx = .error e ∧ Foreseen r ctx e := by
  obtain ⟨h1, h2⟩ := C97_partial env r input ctx hpriv
  cases hr : r.matches_ env input ctx with
  | ok x => exact absurd ((h1 x hr f).trans (h1 x hr g).symm) h
  | error e =>
    refine ⟨e, rfl, (h2 e hr).resolve_right ?_⟩
    intro hx
    obtain ⟨e', he'⟩ := hx f
    obtain ⟨x, hx⟩ := hf
    rw [hx] at he'; cases he'

/-- When no user function raises, the call is the one of the other models: all their theorems apply. -/
theorem C97_silent (env : Env ρ) (r : RRebulkObj Ctx) (input : Str) (ctx : Ctx)
    (hs : ∀ p ∈ r.effectivePatterns ctx, ∀ e, ¬ UserRaises p e) (f : Fill) (found : Found) :
    r.matches_ env input ctx = .ok found ↔ (r.total f).matches_ env input ctx = .ok found := by
  obtain ⟨h1, h2⟩ := C97_partial env r input ctx (fun p hp => hs p hp _)
  refine ⟨fun h => h1 found h f, ?_⟩
  intro h
  cases hr : r.matches_ env input ctx with
  | ok x => have := h1 x hr f; rw [h] at this; injection this with this; rw [this]
  | error e =>
    exfalso
    rcases h2 e hr with ⟨p, hp, hu | ⟨_, hu⟩⟩ | hx
    · exact hs p hp _ hu
    · exact hs p hp _ hu
    · obtain ⟨e', he'⟩ := hx f; rw [h] at he'; cases he'

/-! ## Examples -/

/-- A pattern for a string, with a validator. -/
def raisingString (s : String) (v : MTree → Except PyErr Bool) : RPatternObj Unit :=
  .string {} { base := Pattern.init 0 {}, validators := [], defaultValidator := some v, preMatch := none, postMatch := none, postProcessor := none } {} [s.toList]

theorem raisingString_raises {s : String} {v : MTree → Except PyErr Bool} {e : PyErr} (h : UserRaises (raisingString s v) e) : ∃ t, v t = .error e := by
  simp only [raisingString, UserRaises, ConfigRaises] at h
  rcases h with ⟨_, _, _, h, _⟩ | ⟨v', t, h1, h2⟩ | ⟨_, _, h, _⟩ | ⟨_, _, h, _⟩ | ⟨_, _, h, _⟩
  · cases h
  · injection h1 with h1; subst h1; exact ⟨t, h2⟩
  · cases h
  · cases h
  · cases h

/-- Where the raising calls return: the values of the refutation and the examples below. -/
def fillWith (b : Bool) : Fill where
  validator := fun _ => b
  processor := fun _ => .none
  postProcessor := fun l => l
  function := fun _ => .none
  breaker := fun _ => b

/-- A `StopIteration` raised by a validator does not reach the caller: `matches` raises `RuntimeError`, though nothing else than this validator raises. -/
theorem C97_refuted : ∃ (r : RRebulkObj Unit), (∀ p ∈ r.effectivePatterns (), ∀ e, UserRaises p e → e = .stopIteration) ∧
    r.matches_ exEnv "a".toList () = .error .runtimeError ∧ ∀ b, ∃ x, (r.total (fillWith b)).matches_ exEnv "a".toList () = .ok x := by
  refine ⟨{ patterns := [raisingString "a" (fun _ => .error .stopIteration)] }, ?_, rfl, ?_⟩
  · intro p hp e he
    have : p = raisingString "a" (fun _ => .error .stopIteration) := by
      simpa [RRebulkObj.effectivePatterns, RRebulkObj.addPatterns] using hp
    subst this
    obtain ⟨_, h⟩ := raisingString_raises he
    injection h with h; exact h.symm
  · intro b
    cases b with
    | false => exact ⟨_, rfl⟩
    | true => exact ⟨_, rfl⟩

/-- A validator that raises its own exception on the second match only: it matters, and comes out unchanged; on a text with a single match the call
returns. -/
def raisesLate (t : MTree) : Except PyErr Bool := if t.root.start = 0 then .ok true else .error (.user 7)

example :
    let r : RRebulkObj Unit := { patterns := [raisingString "a" raisesLate], rules := [conflictSolverRule 0, privateRemoverRule 1] }
    (∀ p ∈ r.effectivePatterns (), ¬ UserRaises p .invalidChain) ∧
    r.matches_ exEnv "aba".toList () = .error (.user 7) ∧
    ((r.total (fillWith true)).matches_ exEnv "aba".toList () ≠ (r.total (fillWith false)).matches_ exEnv "aba".toList ()) ∧
    (∃ x, (r.total (fillWith true)).matches_ exEnv "aba".toList () = .ok x) ∧
    ∃ x, r.matches_ exEnv "ab".toList () = .ok x ∧ x.found.delegate.map Match.span = [(0, 1)] := by
  refine ⟨?_, rfl, ?_, ⟨_, rfl⟩, _, rfl, by decide⟩
  · intro p hp he
    have : p = raisingString "a" raisesLate := by simpa [RRebulkObj.effectivePatterns, RRebulkObj.addPatterns] using hp
    subst this
    obtain ⟨t, h⟩ := raisingString_raises he
    unfold raisesLate at h
    split at h
    · cases h
    · injection h with h; cases h
  · intro h
    have := congrArg (fun x : Except PyErr Found => match x with | .ok f => f.found.delegate.length | .error _ => 0) h
    revert this
    decide

/-- A silent one. -/
example :
    let r : RRebulkObj Unit := { patterns := [raisingString "a" (fun t => .ok (decide (t.root.start = 0)))] }
    (∀ p ∈ r.effectivePatterns (), ∀ e, ¬ UserRaises p e) ∧ ∃ x, r.matches_ exEnv "aba".toList () = .ok x ∧ x.found.delegate.map Match.span = [(0, 1)] := by
  refine ⟨?_, _, rfl, by decide⟩
  intro p hp e he
  have : p = raisingString "a" (fun t => .ok (decide (t.root.start = 0))) := by simpa [RRebulkObj.effectivePatterns, RRebulkObj.addPatterns] using hp
  subst this
  obtain ⟨t, h⟩ := raisingString_raises he
  cases h

/-- A chain whose breaker raises `StopIteration` (not inside a generator): it comes out as it is. A functional pattern whose iterator raises after its
first item. -/
example :
    let part := raisingString "a" (fun _ => .ok true)
    let base : RPattern := { base := Pattern.init 1 {}, validators := [], defaultValidator := none, preMatch := none, postMatch := none, postProcessor := none }
    let c : RRebulkObj Unit := { patterns := [.chain {} base (some (fun _ => .error .stopIteration)) (.cons part 1 none false .nil)] }
    let g : RRebulkObj Unit := { patterns := [.functional {} base
      [fun _ => .ok { ret := .gen [.seq [.val (.int 0), .val (.int 1)]], after := some (.user 3) }]] }
    c.matches_ exEnv "aa".toList () = .error .stopIteration ∧ g.matches_ exEnv "aa".toList () = .error (.user 3) := by
  exact ⟨rfl, rfl⟩

end Rebulk
