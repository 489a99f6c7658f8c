import Verif.Model.Chain
import Verif.Spec.Initiator
namespace Rebulk
open Spec

theorem initiatorFrom_climb : ∀ (ps : List Core) (c : Core),
    Match.initiatorFrom c ps = ((ps.takeWhile (fun p => decide (p.start ≠ p.stop))).getLast?).getD c
  | [], c => rfl
  | p :: ps, c => by
    unfold Match.initiatorFrom
    by_cases h : p.start = p.stop
    · rw [if_pos (by simp; omega), List.takeWhile_cons, if_neg (by simpa using h)]; rfl
    · rw [if_neg (by simp; omega), List.takeWhile_cons, if_pos (by simpa using h), initiatorFrom_climb ps p]
      cases ps.takeWhile (fun p => decide (p.start ≠ p.stop)) with
      | nil => rfl
      | cons q l => simp [List.getLast?_cons]

theorem initiator_top (m : Match) : m.initiator = topOf m := initiatorFrom_climb _ _

theorem initRaw_climb (m : Match) : m.initRawStart = (topRaw m).1 ∧ m.initRawEnd = (topRaw m).2 := by
  unfold Match.initRawStart Match.initRawEnd topRaw
  rw [initiator_top]
  unfold topOf climbed
  cases m.ancestors with
  | nil => exact ⟨rfl, rfl⟩
  | cons p ps =>
    by_cases h : p.start = p.stop
    · rw [List.takeWhile_cons, if_neg (c := decide (p.start ≠ p.stop) = true) (by simpa using h)]
      have h0 : (p.stop - p.start == 0) = true := by simp; omega
      simp only [h0, if_pos]
      exact ⟨rfl, rfl⟩
    · rw [List.takeWhile_cons, if_pos (c := decide (p.start ≠ p.stop) = true) (by simpa using h)]
      have h0 : (p.stop - p.start == 0) = false := by simp; omega
      simp only [h0, List.getLast?_cons, Option.getD_some, Bool.false_eq_true, if_false, and_self]

end Rebulk
