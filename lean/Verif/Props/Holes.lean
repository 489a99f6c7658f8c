import Verif.Lemmas.Holes
import Verif.Props.Queries
/-!
# Properties of `holes`: C14 – C16

The requested range is `[start, e)` where `e` is the given end, at most `max_end`, or `max_end` when no end is given.
-/
namespace Rebulk
open Matches Spec

/-- **C14.** `holes()` and `holes(0, end)`: exactly the maximal uncovered runs of `[0, e)`, in order. `ignore` must not
distinguish equal matches; counted matches are not empty. -/
theorem C14_holes {b : Bool} {input : Option Str} {s : Matches} (h : Reachable b input s) (stop : Option Int)
    (ignore : Match → Bool) (hp : RespectsEq ignore) (hne : ∀ x ∈ s.delegate, ignore x = false → x.start < x.stop)
    (e : Int) (he : e = min (stop.getD s.maxEndP) s.maxEndP) :
    ∃ r, (s.step (.holes 0 stop ignore none)).2 = .spans r ∧ ListsMaxRuns (Free s.delegate ignore) 0 e r := by
  have hce : s.clampEnd stop = e := by
    cases stop with
    | none => have : s.clampEnd none = s.maxEndP := rfl
              rw [this, he]; simp
    | some x => have : s.clampEnd (some x) = min s.maxEndP x := rfl
                rw [this, he]; simp only [Option.getD_some]; omega
  rcases Int.lt_or_le e 0 with hneg | hpos
  · -- empty range: the loop does not run
    refine ⟨[], ?_, ?_, by simp⟩
    · have hls : (s.holeStart 0 ignore).2 = 0 := by unfold holeStart; rw [pyRange_eq_nil (by omega)]; rfl
      obtain ⟨s', _, heq⟩ := holes_eq (s := s) (start := 0) (stop := stop) (ignore := ignore) (seps := none) (Or.inl rfl)
      simp only [step]
      rw [heq, hls, hce, pyRange_eq_nil (by omega)]; rfl
    · intro ab
      constructor
      · intro h; cases h
      · rintro ⟨h1, h2, h3, _⟩; omega
  · obtain ⟨junk, good, h1, _, h3, _, h5⟩ := holes_spec h.inv (start := 0) (stop := stop) hp (seps := none) (by omega)
      (by omega) hne (Or.inl rfl)
    rw [h3 rfl, List.nil_append] at h1
    refine ⟨good, by simp only [step, h1]; rfl, ?_⟩
    rw [hce] at h5
    have hfalse : (fun i : Int => sepAt none s.inputString i = true) = fun _ => False := by
      funext i; simp [sepAt]
    rw [hfalse] at h5
    exact h5.maxRuns

/-- The maximal runs are non-empty, disjoint, and cover exactly the uncovered indexes of the range (so that holes and matches
together cover `[0, e)`). -/
theorem C14_holes_cover {P : Int → Prop} {lo hi : Int} {r : List (Int × Int)} (h : ListsMaxRuns P lo hi r)
    (i : Int) (h1 : lo ≤ i) (h2 : i < hi) : P i ↔ ∃ ab ∈ r, ab.1 ≤ i ∧ i < ab.2 := by
  constructor
  · intro hi'
    -- extend to the left
    have left : ∀ n : Nat, n = (i - lo).toNat → ∃ a, lo ≤ a ∧ a ≤ i ∧ (∀ j, a ≤ j → j ≤ i → P j) ∧ (a = lo ∨ ¬ P (a - 1)) := by
      suffices H : ∀ n : Nat, ∀ i, lo ≤ i → (i - lo).toNat = n → P i →
          ∃ a, lo ≤ a ∧ a ≤ i ∧ (∀ j, a ≤ j → j ≤ i → P j) ∧ (a = lo ∨ ¬ P (a - 1)) by
        intro n hn; exact H n i h1 hn.symm hi'
      intro n
      induction n with
      | zero => intro i h1 hn hp; exact ⟨i, h1, by omega, fun j hj1 hj2 => by have : j = i := by omega
                                                                              rw [this]; exact hp, Or.inl (by omega)⟩
      | succ n ih =>
        intro i h1 hn hp
        by_cases hprev : P (i - 1)
        · obtain ⟨a, ha1, ha2, ha3, ha4⟩ := ih (i - 1) (by omega) (by omega) hprev
          refine ⟨a, ha1, by omega, ?_, ha4⟩
          intro j hj1 hj2
          by_cases hji : j = i
          · rw [hji]; exact hp
          · exact ha3 j hj1 (by omega)
        · exact ⟨i, h1, by omega, fun j hj1 hj2 => by have : j = i := by omega
                                                      rw [this]; exact hp, Or.inr hprev⟩
    have right : ∀ n : Nat, n = (hi - i).toNat → ∃ b, i < b ∧ b ≤ hi ∧ (∀ j, i ≤ j → j < b → P j) ∧ (b = hi ∨ ¬ P b) := by
      suffices H : ∀ n : Nat, ∀ i, i < hi → (hi - i).toNat = n → P i →
          ∃ b, i < b ∧ b ≤ hi ∧ (∀ j, i ≤ j → j < b → P j) ∧ (b = hi ∨ ¬ P b) by
        intro n hn; exact H n i h2 hn.symm hi'
      intro n
      induction n with
      | zero => intro i h1 hn hp; omega
      | succ n ih =>
        intro i h1 hn hp
        by_cases hnext : i + 1 < hi ∧ P (i + 1)
        · obtain ⟨b, hb1, hb2, hb3, hb4⟩ := ih (i + 1) hnext.1 (by omega) hnext.2
          refine ⟨b, by omega, hb2, ?_, hb4⟩
          intro j hj1 hj2
          by_cases hji : j = i
          · rw [hji]; exact hp
          · exact hb3 j (by omega) hj2
        · refine ⟨i + 1, by omega, by omega, fun j hj1 hj2 => by have : j = i := by omega
                                                                 rw [this]; exact hp, ?_⟩
          by_cases he : i + 1 = hi
          · exact Or.inl he
          · exact Or.inr (fun hc => hnext ⟨by omega, hc⟩)
    obtain ⟨a, ha1, ha2, ha3, ha4⟩ := left _ rfl
    obtain ⟨b, hb1, hb2, hb3, hb4⟩ := right _ rfl
    refine ⟨(a, b), (h.1 _).2 ⟨ha1, by simp only; omega, hb2, ?_, ha4, hb4⟩, ha2, hb1⟩
    intro j hj1 hj2
    rcases Int.lt_or_le j i with hlt | hle
    · exact ha3 j hj1 (by omega)
    · exact hb3 j hle hj2
  · rintro ⟨ab, hab, h3, h4⟩
    exact ((h.1 ab).1 hab).2.2.2.1 i h3 h4

example : RespectsEq (fun m => decide (m.name = some "a")) ∧
    (∀ x ∈ sample.delegate, (fun m => decide (m.name = some "a")) x = false → x.start < x.stop) ∧
    ∃ r, (sample.step (.holes 0 none (fun m => decide (m.name = some "a")) none)).2 = .spans r ∧ r = [(0, 3)] := by
  refine ⟨?_, by decide, _, rfl, by decide⟩
  intro a b h; simp only [Match.eqv_name h]

/-- **C15 is false**: `holes(7)` may return an empty hole, `holes(7, 5)` an inverted one. -/
theorem C15_subrange_refuted :
    (∃ s r, Reachable false (some "abcdefghijkl".toList) s ∧ (∀ x ∈ s.delegate, x.start < x.stop) ∧
      (s.step (.holes 7 none (fun _ => false) none)).2 = .spans r ∧ (7, 7) ∈ r) ∧
    (∃ s r, Reachable false (some "abcdefghijkl".toList) s ∧ (∀ x ∈ s.delegate, x.start < x.stop) ∧
      (s.step (.holes 7 (some 5) (fun _ => false) none)).2 = .spans r ∧ (7, 5) ∈ r) := by
  constructor
  · refine ⟨(empty false (some "abcdefghijkl".toList)).runOps [.append (mk 0 2), .append (mk 7 9)], _, ⟨_, by decide, rfl⟩, by decide, rfl, by decide⟩
  · refine ⟨(empty false (some "abcdefghijkl".toList)).runOps [.append (mk 0 2)], _, ⟨_, by decide, rfl⟩, by decide, rfl, by decide⟩

/-- **C15, partial**: for `0 ≤ start ≤ e`, the result is exactly the maximal uncovered runs of `[start, e)`, possibly preceded by
one empty span at `start` (missing: that extra span is excluded, and ranges with `start` after the end; both false). -/
theorem C15_subrange_partial {b : Bool} {input : Option Str} {s : Matches} (h : Reachable b input s) (start : Int)
    (stop : Option Int) (ignore : Match → Bool) (hp : RespectsEq ignore)
    (hne : ∀ x ∈ s.delegate, ignore x = false → x.start < x.stop)
    (e : Int) (he : e = min (stop.getD s.maxEndP) s.maxEndP) (h0 : 0 ≤ start) (h1 : start ≤ e) :
    ∃ runs, ListsMaxRuns (Free s.delegate ignore) start e runs ∧
      ((s.step (.holes start stop ignore none)).2 = .spans runs ∨
       (s.step (.holes start stop ignore none)).2 = .spans ((start, start) :: runs)) := by
  have hce : s.clampEnd stop = e := by
    cases stop with
    | none => have : s.clampEnd none = s.maxEndP := rfl
              rw [this, he]; simp
    | some x => have : s.clampEnd (some x) = min s.maxEndP x := rfl
                rw [this, he]; simp only [Option.getD_some]; omega
  obtain ⟨junk, good, h2, _, _, h4, h5⟩ := holes_spec h.inv (start := start) (stop := stop) hp (seps := none) h0
    (by omega) hne (Or.inl rfl)
  rw [hce] at h5
  have hfalse : (fun i : Int => sepAt none s.inputString i = true) = fun _ => False := by
    funext i; simp [sepAt]
  rw [hfalse] at h5
  refine ⟨good, h5.maxRuns, ?_⟩
  simp only [step, h2]
  rcases h4 rfl with ⟨hj, _⟩ | ⟨hj, _⟩
  · left; rw [hj]; rfl
  · right; rw [hj]; rfl

/-- **C15, exactly.** What `holes(start, end)` returns, for `0 ≤ start` and every end. Up to the end of the range: the maximal uncovered runs, after an empty span at
`start` exactly when the index before `start` is uncovered and `start` is covered or the end. When the end is before `start`: the inverted span from `start` to it, exactly
when the index before it is uncovered and no counted match starts between the two; otherwise nothing. -/
theorem C15_exact {b : Bool} {input : Option Str} {s : Matches} (h : Reachable b input s) (start : Int)
    (stop : Option Int) (ignore : Match → Bool) (hp : RespectsEq ignore)
    (hne : ∀ x ∈ s.delegate, ignore x = false → x.start < x.stop)
    (e : Int) (he : e = min (stop.getD s.maxEndP) s.maxEndP) (h0 : 0 ≤ start) :
    (start ≤ e → ∃ runs, ListsMaxRuns (Free s.delegate ignore) start e runs ∧
      ((¬ EmptyFirst (Free s.delegate ignore) start e ∧ (s.step (.holes start stop ignore none)).2 = .spans runs) ∨
       (EmptyFirst (Free s.delegate ignore) start e ∧ (s.step (.holes start stop ignore none)).2 = .spans ((start, start) :: runs)))) ∧
    (e < start →
      (¬ InvertedHole s.delegate ignore start e ∧ (s.step (.holes start stop ignore none)).2 = .spans []) ∨
      (InvertedHole s.delegate ignore start e ∧ (s.step (.holes start stop ignore none)).2 = .spans [(start, e)])) := by
  have hce : s.clampEnd stop = e := by
    cases stop with
    | none => have : s.clampEnd none = s.maxEndP := rfl
              rw [this, he]; simp
    | some x => have : s.clampEnd (some x) = min s.maxEndP x := rfl
                rw [this, he]; simp only [Option.getD_some]; omega
  constructor
  · intro h1
    obtain ⟨junk, good, h2, _, _, h4, h5⟩ := holes_spec h.inv (start := start) (stop := stop) hp (seps := none) h0
      (by omega) hne (Or.inl rfl)
    rw [hce] at h4 h5
    have hfalse : (fun i : Int => sepAt none s.inputString i = true) = fun _ => False := by
      funext i; simp [sepAt]
    rw [hfalse] at h5
    refine ⟨good, h5.maxRuns, ?_⟩
    simp only [step, h2]
    rcases h4 rfl with ⟨hj, hx⟩ | ⟨hj, hx⟩
    · exact Or.inl ⟨hx, by rw [hj]; rfl⟩
    · exact Or.inr ⟨hx, by rw [hj]; rfl⟩
  · intro h1
    rcases holes_inverted h.inv (start := start) (stop := stop) hp h0 (by omega) hne with ⟨hx, h2⟩ | ⟨hx, h2⟩
    · rw [hce] at hx h2
      exact Or.inr ⟨hx, by simp only [step, h2]; rfl⟩
    · rw [hce] at hx
      exact Or.inl ⟨hx, by simp only [step, h2]; rfl⟩

/-- Both cases happen: the two witnesses of `C15_subrange_refuted`. -/
example : EmptyFirst (Free [mk 0 2, mk 7 9] (fun _ => false)) 7 9 ∧ InvertedHole [mk 0 2] (fun _ => false) 7 5 := by
  refine ⟨⟨by decide, ?_, Or.inr ?_⟩, by decide, ?_, ?_⟩
  · intro x hx _ hc
    simp only [List.mem_cons, List.not_mem_nil, or_false] at hx
    rcases hx with rfl | rfl
    · exact absurd hc.2 (by decide)
    · exact absurd hc.1 (by decide)
  · intro h
    exact h (mk 7 9) (by simp) rfl ⟨by decide, by decide⟩
  · intro x hx _ hc
    rw [List.mem_singleton] at hx; subst hx
    exact absurd hc.2 (by decide)
  · intro x hx _
    rw [List.mem_singleton] at hx; subst hx
    decide

example : (∀ x ∈ sample.delegate, (fun _ => false) x = false → x.start < x.stop) ∧ (1 : Int) ≤ min ((some 4).getD sample.maxEndP) sample.maxEndP ∧
    (sample.step (.holes 1 (some 4) (fun _ => false) none)).2 = .spans [(2, 3)] := ⟨by decide, by decide, rfl⟩

/-- **C16 is false**: a separator right after another one starts a hole. -/
theorem C16_separators_refuted :
    ∃ s r, Reachable false (some "a--b".toList) s ∧
      (s.step (.holes 0 none (fun _ => false) (some "-".toList))).2 = .spans r ∧
      ∃ ab ∈ r, ∃ i, ab.1 ≤ i ∧ i < ab.2 ∧ "a--b".toList[i.toNat]? = some '-' := by
  refine ⟨empty false (some "a--b".toList), _, ⟨[], by simp, rfl⟩, rfl, (2, 4), by decide, 2, by decide⟩

/-- **C16, partial**: for `0 ≤ start ≤ e` inside the input, the returned spans are some spans `(start, b)` with `b ≤ start` (none
when `start = 0`), then holes inside the range, non-empty, uncovered, without separator except possibly as first character, ending at
a separator, a covered index or the end, ordered, disjoint, and containing every uncovered non-separator index (missing: no
separator at all, false). -/
theorem C16_separators_partial {b : Bool} {str : Str} {s : Matches} (h : Reachable b (some str) s) (start : Int)
    (stop : Option Int) (ignore : Match → Bool) (hp : RespectsEq ignore) (seps : Str)
    (hne : ∀ x ∈ s.delegate, ignore x = false → x.start < x.stop) (hstr : str ≠ [])
    (e : Int) (he : e = min (stop.getD s.maxEndP) s.maxEndP) (h0 : 0 ≤ start) (h1 : start ≤ e) (h2 : e ≤ str.length) :
    ∃ junk good, (s.step (.holes start stop ignore (some seps))).2 = .spans (junk ++ good) ∧
      (∀ x ∈ junk, x.1 = start ∧ x.2 ≤ start) ∧ (start = 0 → junk = []) ∧
      HolesWithSeps (Free s.delegate ignore) (fun i => 0 ≤ i ∧ ∃ c ∈ seps, str[i.toNat]? = some c) start e good := by
  have hce : s.clampEnd stop = e := by
    cases stop with
    | none => have : s.clampEnd none = s.maxEndP := rfl
              rw [this, he]; simp
    | some x => have : s.clampEnd (some x) = min s.maxEndP x := rfl
                rw [this, he]; simp only [Option.getD_some]; omega
  have hin := h.input.1
  obtain ⟨junk, good, g1, g2, g3, _, g5⟩ := holes_spec h.inv (start := start) (stop := stop) hp (seps := some seps) h0
    (by omega) hne (Or.inr ⟨str, hin, hstr, by omega⟩)
  rw [hce] at g5
  refine ⟨junk, good, by simp only [step, g1]; rfl, g2, g3, ?_⟩
  have hsep : ∀ i, 0 ≤ i → (sepAt (some seps) s.inputString i = true ↔ (0 ≤ i ∧ ∃ c ∈ seps, str[i.toNat]? = some c)) := by
    intro i hi
    simp only [sepAt, hin]
    by_cases hlt : i.toNat < str.length
    · have : pyGet str i = some str[i.toNat] := by
        unfold pyGet normIdx; rw [if_pos hi, if_pos (by omega)]; exact List.getElem?_eq_getElem hlt
      rw [this, List.getElem?_eq_getElem hlt]
      simp [hi]
    · have : pyGet str i = none := by
        unfold pyGet normIdx; rw [if_pos hi, if_neg (by omega)]
      rw [this, List.getElem?_eq_none (by omega)]
      simp
  refine ⟨g5.inside, g5.free, ?_, ?_, ?_, g5.ordered, ?_⟩
  · intro ab hab i h3 h4 hc
    have := g5.inside ab hab
    exact g5.noSep ab hab i h3 h4 ((hsep i (by omega)).2 hc)
  · intro ab hab
    have := g5.inside ab hab
    rcases g5.left ab hab with h | h | h
    · exact Or.inl h
    · exact Or.inr (Or.inl h)
    · by_cases hlo : ab.1 = start
      · exact Or.inl hlo
      · exact Or.inr (Or.inr ((hsep _ (by omega)).1 h))
  · intro ab hab
    have := g5.inside ab hab
    exact (g5.right ab hab).imp id (Or.imp id (hsep _ (by omega)).1)
  · intro i h3 h4 h5 h6
    exact g5.complete i h3 h4 h5 (fun hc => h6 ((hsep i (by omega)).1 hc))

example : ("ab-cd ef".toList : Str) ≠ [] ∧ sample.maxEndP ≤ "ab-cd ef".toList.length ∧
    (sample.step (.holes 0 none (fun m => decide (m.name ≠ some "b")) (some "- ".toList))).2 = .spans [(0, 2), (5, 8)] :=
  ⟨by decide, by decide, rfl⟩

end Rebulk
