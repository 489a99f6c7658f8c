import Verif.Lemmas.HolesExact
import Verif.Props.Holes
/-!
# Properties of `holes`: C15 and C16, exactly
-/
namespace Rebulk
open Matches Spec

/-- **C16, exactly.** What `holes(start, end, seps=...)` returns for `0 ≤ start` and every end inside the input: with `p` the place where the last counted match that starts
before `start` starts (0 if there is none), the holes of `[p, e)` cut at the separators, each beginning before `start` moved up to `start` (even when it ends before it). Both
`p` and these holes are unique (`LastStart.unique`, `CutHoles.unique`). -/
theorem C16_exact {b : Bool} {str : Str} {s : Matches} (h : Reachable b (some str) s) (start : Int)
    (stop : Option Int) (ignore : Match → Bool) (hp : RespectsEq ignore) (seps : Str)
    (hne : ∀ x ∈ s.delegate, ignore x = false → x.start < x.stop) (hstr : str ≠ [])
    (e : Int) (he : e = min (stop.getD s.maxEndP) s.maxEndP) (h0 : 0 ≤ start) (h2 : e ≤ str.length) :
    ∃ p full, LastStart s.delegate ignore start p ∧
      CutHoles (Free s.delegate ignore) (fun i => 0 ≤ i ∧ ∃ c ∈ seps, str[i.toNat]? = some c) p e full ∧
      (s.step (.holes start stop ignore (some seps))).2 = .spans (full.map (fun ab => (max start ab.1, ab.2))) := by
  have hce : s.clampEnd stop = e := by
    cases stop with
    | none => have : s.clampEnd none = s.maxEndP := rfl
              rw [this, he]; simp
    | some x => have : s.clampEnd (some x) = min s.maxEndP x := rfl
                rw [this, he]; simp only [Option.getD_some]; omega
  have hin := h.input.1
  obtain ⟨ls, full, g1, g2, g3⟩ := holes_exact h.inv (start := start) (stop := stop) hp (seps := some seps) h0
    hne (Or.inr ⟨str, hin, hstr, by omega⟩)
  rw [hce] at g2
  refine ⟨ls, full, g1, ?_, by simp only [step, g3]; rfl⟩
  have hls := g1.nonneg
  have hsep : ∀ i, 0 ≤ i → (sepAt (some seps) s.inputString i = true ↔ (0 ≤ i ∧ ∃ c ∈ seps, str[i.toNat]? = some c)) := by
    intro i hi
    simp only [sepAt, hin]
    by_cases hlt : i.toNat < str.length
    · have : pyGet str i = some str[i.toNat] := by
        unfold pyGet normIdx; rw [if_pos hi, if_pos (by omega)]; exact List.getElem?_eq_getElem hlt
      rw [this, List.getElem?_eq_getElem hlt]
      simp [hi]
    · have : pyGet str i = none := by
        unfold pyGet normIdx; rw [if_pos hi, if_neg (by omega)]
      rw [this, List.getElem?_eq_none (by omega)]
      simp
  refine ⟨⟨g2.inside, g2.free, ?_, ?_, ?_, g2.ordered, ?_⟩, g2.skipped⟩
  · intro ab hab i h3 h4 hc
    have := g2.inside ab hab
    exact g2.noSep ab hab i h3 h4 ((hsep i (by omega)).2 hc)
  · intro ab hab
    have := g2.inside ab hab
    rcases g2.left ab hab with h | h | h
    · exact Or.inl h
    · exact Or.inr (Or.inl h)
    · by_cases hlo : ab.1 = ls
      · exact Or.inl hlo
      · exact Or.inr (Or.inr ((hsep _ (by omega)).1 h))
  · intro ab hab
    have := g2.inside ab hab
    exact (g2.right ab hab).imp id (Or.imp id (hsep _ (by omega)).1)
  · intro i h3 h4 h5 h6
    exact g2.complete i h3 h4 h5 (fun hc => h6 ((hsep i (by omega)).1 hc))

/-- **C16**, the usual call: `holes(seps=...)` and `holes(0, end, seps=...)`. -/
theorem C16_from_zero {b : Bool} {str : Str} {s : Matches} (h : Reachable b (some str) s)
    (stop : Option Int) (ignore : Match → Bool) (hp : RespectsEq ignore) (seps : Str)
    (hne : ∀ x ∈ s.delegate, ignore x = false → x.start < x.stop) (hstr : str ≠ [])
    (e : Int) (he : e = min (stop.getD s.maxEndP) s.maxEndP) (h2 : e ≤ str.length) (r : List (Int × Int)) :
    (s.step (.holes 0 stop ignore (some seps))).2 = .spans r ↔
      CutHoles (Free s.delegate ignore) (fun i => 0 ≤ i ∧ ∃ c ∈ seps, str[i.toNat]? = some c) 0 e r := by
  obtain ⟨p, full, h1, h3, h4⟩ := C16_exact h 0 stop ignore hp seps hne hstr e he (by omega) h2
  have hp0 : p = 0 := by have := h1.nonneg; have := h1.le; omega
  subst hp0
  have hid : full.map (fun ab => (max 0 ab.1, ab.2)) = full := by
    conv => rhs; rw [← List.map_id full]
    apply List.map_congr_left
    intro ab hab
    have := h3.inside ab hab
    rw [show max 0 ab.1 = ab.1 by omega]; rfl
  rw [hid] at h4
  rw [h4]
  exact ⟨fun hx => by cases hx; exact h3, fun hx => by rw [h3.unique hx]⟩

example : ("a--b".toList : Str) ≠ [] ∧ ((empty false (some "a--b".toList)).step (.holes 0 none (fun _ => false) (some "-".toList))).2 = .spans [(0, 1), (2, 4)] ∧
    (sample.step (.holes 6 none (fun m => decide (m.name ≠ some "b")) (some "- ".toList))).2 = .spans [(6, 8)] ∧ LastStart sample.delegate (fun m => decide (m.name ≠ some "b")) 6 3 :=
  ⟨by decide, rfl, rfl, by decide, by decide, by decide, by decide⟩

end Rebulk
