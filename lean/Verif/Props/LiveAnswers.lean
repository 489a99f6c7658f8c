import Verif.Model.LiveAnswers
import Verif.Spec.LiveAnswers
import Verif.Props.Consequences
import Verif.Props.Iteration
/-!
# C111: sharing out an answer that changes

C83 says what a rule with several consequences does with a fixed list. Here the answer is an object that the consequences themselves change.
-/
namespace Rebulk
open Spec Matches

theorem runFrom_runsNow {σ ρ : Type} (read : σ → List ρ) : ∀ (cs : List (Consequence σ ρ)) (i : Nat) (s : σ),
    RunsNow read cs i s (runFrom (nextIn read) cs i s).1 (runFrom (nextIn read) cs i s).2
  | [], i, s => .done i s
  | c :: cs, i, s => by
    cases ha : (read s)[i]? with
    | none =>
      simp only [runFrom, nextIn, ha]
      exact .tooFew c cs (List.getElem?_eq_none_iff.1 ha)
    | some a =>
      cases hc : c a s with
      | mk s1 e =>
        cases e with
        | some e => simp only [runFrom, nextIn, ha, hc]; exact .raises ha hc
        | none => simp only [runFrom, nextIn, ha, hc]; exact .next ha hc (runFrom_runsNow read cs (i + 1) s1)

theorem Spec.RunsNow.unique {σ ρ : Type} {read : σ → List ρ} {cs : List (Consequence σ ρ)} {i : Nat} {s s' : σ} {e : Option PyErr}
    (h : RunsNow read cs i s s' e) : runFrom (nextIn read) cs i s = (s', e) := by
  induction h with
  | done i s => rfl
  | tooFew c cs hl => simp only [runFrom, nextIn, List.getElem?_eq_none_iff.2 hl]
  | next ha hc _ ih => simp only [runFrom, nextIn, ha, hc, ih]
  | raises ha hc => simp only [runFrom, nextIn, ha, hc]

/-- **C111, what the code does**: with several consequences, each one is run on what its position of the answer holds at that moment — after the consequences
before it — until one raises or there is nothing at the position. -/
theorem C111_exact {σ ρ : Type} (read : σ → List ρ) (cs : List (Consequence σ ρ)) (hne : cs ≠ []) (s s' : σ) (e : Option PyErr) :
    ruleThenLive cs read s = (s', e) ↔ RunsNow read cs 0 s s' e := by
  have hif : ruleThenLive cs read s = runFrom (nextIn read) cs 0 s := by
    simp only [ruleThenLive]; rw [if_neg]; simpa using hne
  rw [hif]
  constructor
  · intro h
    have := runFrom_runsNow read cs 0 s
    rw [h] at this; exact this
  · exact Spec.RunsNow.unique

theorem runsNow_runsAll {σ ρ : Type} {read : σ → List ρ} {l : List ρ} : ∀ {cs : List (Consequence σ ρ)} {i : Nat} {s s' : σ} {e : Option PyErr},
    (∀ c ∈ cs, ∀ a s s', read s = l → c a s = (s', none) → read s' = l) → read s = l →
    RunsNow read cs i s s' e → RunsAll cs (l.drop i) s s' e := by
  intro cs i s s' e hk hl h
  induction h with
  | done i s => exact .done _ _
  | tooFew c cs hi =>
    rw [hl] at hi
    rw [List.drop_eq_nil_of_le hi]; exact .tooFew _ _ _
  | next ha hc _ ih =>
    rw [hl] at ha
    obtain ⟨hi, rfl⟩ := List.getElem?_eq_some_iff.1 ha
    rw [List.drop_eq_getElem_cons hi]
    exact .next hc (ih (fun c hc => hk c (List.mem_cons_of_mem _ hc)) (hk _ List.mem_cons_self _ _ _ hl hc))
  | raises ha hc =>
    rw [hl] at ha
    obtain ⟨hi, rfl⟩ := List.getElem?_eq_some_iff.1 ha
    rw [List.drop_eq_getElem_cons hi]
    exact .raises hc

/-- **C111, if no consequence changes the answer**: the `i`-th consequence is run on the `i`-th element the answer had when `when` returned. -/
theorem C111_partial {σ ρ : Type} (read : σ → List ρ) (cs : List (Consequence σ ρ)) (hne : cs ≠ []) (s s' : σ) (e : Option PyErr)
    (hk : ∀ c ∈ cs, ∀ a s1 s2, read s1 = read s → c a s1 = (s2, none) → read s2 = read s) (h : ruleThenLive cs read s = (s', e)) :
    RunsAll cs (read s) s s' e := by
  have := runsNow_runsAll hk rfl ((C111_exact read cs hne s s' e).1 h)
  simpa using this

theorem removeOne_at {s : Matches} (hi : Inv s) {done rest : List Match} {m : Match} (hd : s.delegate = done ++ m :: rest) (hno : NoEqual s.delegate) :
    (removeOne m s).2 = none ∧ Inv (removeOne m s).1 ∧ (removeOne m s).1.delegate = done ++ rest := by
  obtain ⟨q1, q2, q3⟩ := remove_at hi hd hno
  have hh : s.has m = true := by
    simp only [Matches.has, List.any_eq_true]
    exact ⟨m, by rw [hd]; exact List.mem_append_right _ List.mem_cons_self, Match.eqv_refl m⟩
  have hr : s.remove m = ((s.remove m).1, none) := by rw [← q1]
  have e1 : removeOne m s = ((s.remove m).1, none) := by
    simp only [removeOne, thenRemove, hh, if_true]
    rw [hr]; rfl
  rw [e1]
  exact ⟨rfl, q2, q3⟩

/-- What `everyOther` says as an exception. -/
def shortage : Bool → Option PyErr
  | true => none
  | false => some .stopIteration

theorem runFrom_removeOne : ∀ (n : Nat) (s : Matches) (done rest : List Match), Inv s → NoEqual s.delegate → s.delegate = done ++ rest →
    ∃ s', runFrom (nextIn Matches.delegate) (List.replicate n removeOne) done.length s = (s', shortage (everyOther n rest).2) ∧
      Inv s' ∧ s'.delegate = done ++ (everyOther n rest).1
  | 0, s, done, rest, hi, _, hd => ⟨s, rfl, hi, by simpa [everyOther] using hd⟩
  | n + 1, s, done, [], hi, _, hd => by
    refine ⟨s, ?_, hi, by simpa [everyOther] using hd⟩
    have : s.delegate[done.length]? = none := by rw [hd]; simp
    simp only [List.replicate_succ, runFrom, nextIn, this, everyOther, shortage]
  | n + 1, s, done, x :: rest, hi, hno, hd => by
    have hx : s.delegate[done.length]? = some x := by rw [hd]; simp
    obtain ⟨q1, q2, q3⟩ := removeOne_at hi hd hno
    have hno' : NoEqual (removeOne x s).1.delegate := by rw [q3]; rw [hd] at hno; exact noEqual_remove hno
    have hr : removeOne x s = ((removeOne x s).1, none) := by rw [← q1]
    simp only [List.replicate_succ, runFrom, nextIn, hx]
    rw [hr]
    simp only
    cases rest with
    | nil =>
      cases n with
      | zero => exact ⟨_, rfl, q2, by rw [q3]; rfl⟩
      | succ n =>
        refine ⟨(removeOne x s).1, ?_, q2, by rw [q3]; rfl⟩
        have : (removeOne x s).1.delegate[done.length + 1]? = none := by rw [q3]; simp
        simp only [List.replicate_succ, runFrom, nextIn, this, everyOther, shortage]
    | cons y rest =>
      obtain ⟨s', g1, g2, g3⟩ := runFrom_removeOne n (removeOne x s).1 (done ++ [y]) rest q2 hno' (by rw [q3]; simp)
      rw [show (done ++ [y]).length = done.length + 1 by simp] at g1
      exact ⟨s', by simpa [everyOther, nextIn] using g1, g2, by rw [g3]; simp [everyOther]⟩

/-- **C111, the container as answer**: with `n` times `RemoveMatch` as consequences and the container itself as answer, the first, the third, the fifth … of its
matches are removed (no two being equal), and `StopIteration` is raised when there is none left for a consequence. -/
theorem C111_container_remove {b : Bool} {input : Option Str} {s : Matches} (h : Reachable b input s) (hno : NoEqual s.delegate) (n : Nat) :
    ∃ s', ruleThenLive (List.replicate (n + 1) removeOne) Matches.delegate s = (s', shortage (everyOther (n + 1) s.delegate).2) ∧
      s'.delegate = (everyOther (n + 1) s.delegate).1 := by
  obtain ⟨s', h1, _, h3⟩ := runFrom_removeOne (n + 1) s [] s.delegate h.inv hno rfl
  refine ⟨s', ?_, h3⟩
  rw [← h1]
  simp only [ruleThenLive]
  rw [if_neg]
  · rfl
  · simp

/-- Where `everyOther` puts things: with `n` steps, the elements at even positions below `2 * n` are gone, and there were enough elements iff the last step's
position was there. -/
theorem everyOther_enough {α : Type} : ∀ (n : Nat) (l : List α), (everyOther n l).2 = true ↔ n = 0 ∨ 2 * n - 1 ≤ l.length
  | 0, l => by simp [everyOther]
  | n + 1, [] => by simp [everyOther]; omega
  | 1, [x] => by simp [everyOther]
  | n + 2, [x] => by simp [everyOther]
  | n + 1, x :: y :: l => by
    simp only [everyOther, everyOther_enough n l, List.length_cons]
    omega

/-- A container of which three matches cover the position 2. -/
def coverSample : Matches := (Matches.empty false none).runOps [.append (cm 0 0 3), .append (cm 1 1 5), .append (cm 2 2 8), .append (cm 3 9 10)]

/-- **C111 is false** when the answer is the container, or the list `at_index` gives, and a consequence changes it: with two `RemoveMatch` the second one gets
the third match; with a copy of the same answer the first two are removed. -/
theorem C111_refuted :
    ((ruleThenLive [removeOne, removeOne] Matches.delegate loopSample).1.delegate.map Match.id,
      (ruleThenLive [removeOne, removeOne] Matches.delegate loopSample).2) = ([1, 3], none) ∧
    ((ruleThenLive [removeOne, removeOne] (fun _ => loopSample.delegate) loopSample).1.delegate.map Match.id,
      (ruleThenLive [removeOne, removeOne] (fun _ => loopSample.delegate) loopSample).2) = ([2, 3], none) ∧
    ((ruleThenLive [removeOne, removeOne] (fun s => s.indexDict.getList 2) (coverSample.lookIndex 2).1).1.delegate.map Match.id,
      (ruleThenLive [removeOne, removeOne] (fun s => s.indexDict.getList 2) (coverSample.lookIndex 2).1).2) = ([1, 3], none) := by decide

/-- `C111_container_remove` on four matches: two removals leave two, a third one has nothing to do. -/
example : Reachable false none loopSample ∧ NoEqual loopSample.delegate ∧
    (everyOther 2 loopSample.delegate).1.map Match.id = [1, 3] ∧ (everyOther 2 loopSample.delegate).2 = true ∧
    (ruleThenLive (List.replicate 3 removeOne) Matches.delegate loopSample).1.delegate.map Match.id = [1, 3] ∧
    (ruleThenLive (List.replicate 3 removeOne) Matches.delegate loopSample).2 = some .stopIteration :=
  ⟨⟨_, by decide, rfl⟩, by decide, by decide, by decide, by decide, by decide⟩

/-- `C111_partial`: a list made by the rule is not changed. -/
example : ∀ c ∈ [removeOne, removeOne], ∀ a s1 s2, (fun _ : Matches => loopSample.delegate) s1 = loopSample.delegate → c a s1 = (s2, none) →
    (fun _ : Matches => loopSample.delegate) s2 = loopSample.delegate := fun _ _ _ _ _ _ _ => rfl

end Rebulk
