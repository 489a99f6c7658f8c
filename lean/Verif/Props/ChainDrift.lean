import Verif.Props.ChainOrder
import Verif.Lemmas.ChainDrift
/-!
# Where the children of a chain match were found (`C53`)
-/
namespace Rebulk
open Spec

theorem Spec.TidyPart.endsInside {part : Part} (h : TidyPart part) : EndsInside part := by
  intro s em raws hs e he
  obtain ⟨r, hr, hi, hw⟩ := h.within s em raws hs e he
  exact ⟨r, hr, hi, hw.2⟩

/-- **C53**, whatever attempts failed before. Each child is a match (or a child of a match) of a part, found by searching the rest of the
input from some place `q` on. It is reported at its place, except for the first part found in the attempt, which may be reported too
early (`C53_refuted`), never too late. Missing: nothing can be said of the distance; parts with several sub-patterns. -/
theorem C53_drift_partial {c : Chain} {input : Str} {ts : List MTree} (hp : ∀ p ∈ c.parts, RegularPart p) (he : ∀ p ∈ c.parts, EndsInside p)
    (h : c.rawMatches input = .ok ts) :
    ∀ t ∈ ts, ∃ steps, Attempt c input steps t ∧ ∀ k ∈ t.children, ∃ (i : Nat) (s : Step) (q : Nat) (pos : Int) (emitted raws : List MTree),
      steps[i]? = some s ∧ q ≤ input.length ∧ s.part.search (input.drop q) = .ok (emitted, raws) ∧
      (∃ e ∈ emitted, MovedTo input pos e.root k.root ∨ ∃ y ∈ e.children, MovedTo input pos y.root k.root) ∧
      0 ≤ pos ∧ pos ≤ q ∧ ((∃ i' < i, ∃ s', steps[i']? = some s' ∧ s'.raws ≠ []) → pos = q) := by
  intro t ht
  rcases loop_late c input (fun p h => ⟨hp p h, he p h⟩) _ _ _ _ ts (Or.inl ⟨rfl, rfl⟩)
    ⟨0, by omega, by simp, by omega, by omega⟩ h t ht with h | ⟨steps, ha, hl⟩
  · cases h
  · refine ⟨steps, ha, fun k hk => ?_⟩
    obtain ⟨s, hs, _, e, hek, hor⟩ := attempt_children ha k hk
    obtain ⟨i, hi⟩ := List.getElem?_of_mem hs
    obtain ⟨q, q1, q2, q3, q4, q5⟩ := hl i s hi
    obtain ⟨text, pos, hlk⟩ := ha.linked
    obtain ⟨f, hm⟩ := steps_each hlk s hs
    obtain ⟨em, raws, h1, h2, _, _⟩ := matchesOf_ok hm
    exact ⟨i, s, q, s.pos, em, raws, hi, q1, q2 ▸ h1, ⟨e, truncate_sub.subset (h2 ▸ hek), hor⟩, q3, q4, q5⟩

/-- The chain of strings `a`, `a`, `c` on `aaXac` meets the hypotheses, and its only match has a child that is reported too early. -/
example : (∀ p ∈ (stringChain [['a'], ['a'], ['c']]).parts, RegularPart p ∧ EndsInside p) ∧
    spansOf ((stringChain [['a'], ['a'], ['c']]).rawMatches ['a', 'a', 'X', 'a', 'c']) = some [((2, 5), [(2, 3), (3, 4), (4, 5)])] := by
  refine ⟨fun p hp => ?_, by decide +kernel⟩
  have hp : p ∈ [stringPart 1 [['a']], stringPart 2 [['a']], stringPart 3 [['c']]] := hp
  have key : TidyPart p := by
    simp only [List.mem_cons, List.not_mem_nil, or_false] at hp
    rcases hp with rfl | rfl | rfl
    · exact tidy_string 1 {} rfl rfl rfl _ {} rfl _ (by simp) _ _ _
    · exact tidy_string 2 {} rfl rfl rfl _ {} rfl _ (by simp) _ _ _
    · exact tidy_string 3 {} rfl rfl rfl _ {} rfl _ (by simp) _ _ _
  exact ⟨key.regular, key.endsInside⟩

end Rebulk
