import Verif.Props.Refused
import Verif.Lemmas.Sequence
import Verif.Lemmas.Slices
/-!
# C118: containers built from matches
-/
namespace Rebulk
open Spec Matches

theorem freshc_append {s : Matches} (h : Fresh s) (m : Match) : Fresh (s.append m).1 := by
  obtain ⟨h1, h2, h3, h4, h5⟩ := h
  unfold Matches.append Matches.insert addMatch
  simp only []
  split
  · unfold addMatchBase
    simp only [h1, h2, h3, h4, h5]
    exact ⟨rfl, rfl, rfl, rfl, rfl⟩
  · exact ⟨h1, h2, h3, h4, h5⟩

theorem freshc_extend : ∀ (ms : List Match) {s : Matches}, Fresh s → Fresh (s.extend ms).1
  | [], _, h => h
  | m :: ms, s, h => by
    have h' := freshc_append h m
    unfold extend
    cases ha : s.append m with
    | mk s' e =>
      rw [ha] at h'
      cases e with
      | none => exact freshc_extend ms h'
      | some e => exact h'

theorem fresh_right {s : Matches} (h : Fresh s) : LookupsRight s := by
  obtain ⟨h1, h2, h3, h4, h5⟩ := h
  refine exact_lookups ⟨?_, ?_, ?_, ?_, ?_⟩
  · rw [h1]; exact LitO_none _ _
  · rw [h2]; exact LitO_none _ _
  · rw [h3]; exact LitO_none _ _
  · rw [h4]; exact LitO_none _ _
  · rw [h5]; exact LitO_none _ _

theorem extend_err : ∀ (ms : List Match) (s : Matches) {e : PyErr}, (s.extend ms).2 = some e → e = .assertionError
  | [], _, _, h => by cases h
  | m :: ms, s, e, h => by
    unfold extend at h
    cases ha : s.append m with
    | mk s' e' =>
      rw [ha] at h
      cases e' with
      | none => exact extend_err ms s' h
      | some e' =>
        cases h
        unfold Matches.append Matches.insert addMatch at ha
        split at ha
        · cases ha
        · cases ha; rfl

/-- **C118** for `Matches(ms, input)`: it raises exactly when a marker is given; else it is a container holding the given matches in this order, with right lookups,
as any history of calls on an empty one could have made it. -/
theorem C118_matches (input : Option Str) (ms : List Match) :
    ((ofList false input ms).2 = some .assertionError ↔ ∃ m ∈ ms, m.marker = true) ∧
    ((∀ m ∈ ms, m.marker = false) → (ofList false input ms).2 = none ∧ (ofList false input ms).1.delegate = ms ∧
      LookupsRight (ofList false input ms).1 ∧ Reachable false input (ofList false input ms).1 ∧ (ofList false input ms).1.inputString = input) := by
  have hk := (C18_kinds_partial (empty false input)).2.2.1 ms
  have hstep : ∀ {e}, ((empty false input).step (.extend ms)).2 = .raised e ↔ ((empty false input).extend ms).2 = some e := by
    intro e
    show (Out.ofErr _) = _ ↔ _
    cases ((empty false input).extend ms).2 with
    | none => simp [Out.ofErr]
    | some e' => simp [Out.ofErr]
  have hall : ∀ e, (empty false input).extend ms = e → ofList false input ms = e := fun _ h => h
  refine ⟨?_, fun hm => ?_⟩
  · rw [hall _ rfl, ← hstep, hk]
    constructor
    · rintro ⟨m, h1, h2⟩
      refine ⟨m, h1, ?_⟩
      cases h : m.marker with
      | true => rfl
      | false => exact absurd h h2
    · rintro ⟨m, h1, h2⟩
      refine ⟨m, h1, ?_⟩
      rw [h2]
      intro h; cases h
  · rw [hall _ rfl]
    have hn : ((empty false input).extend ms).2 = none := by
      cases he : ((empty false input).extend ms).2 with
      | none => rfl
      | some e =>
        have hx : e = .assertionError := extend_err ms _ he
        subst hx
        obtain ⟨m, h1, h2⟩ := hk.1 (hstep.2 he)
        exact absurd (hm m h1) h2
    refine ⟨hn, ?_, fresh_right (freshc_extend ms ⟨rfl, rfl, rfl, rfl, rfl⟩), ⟨[.extend ms], ?_, ?_⟩, (same_extend _ ms).1⟩
    · rw [extend_delegate ms _ hn]; rfl
    · intro op hop
      rw [List.mem_singleton] at hop
      subst hop
      exact ⟨rfl, fun m h => hm m h⟩
    · rfl

/-- **C118 is false** for `Markers(ms)`: the markers given are dropped. -/
theorem C118_markers_refuted : ¬ ∀ (input : Option Str) (ms : List Match), (∀ m ∈ ms, m.marker = true) → (ofList true input ms).1.delegate = ms := by
  intro h
  have := h none [{ start := 0, stop := 1, marker := true }] (by simp)
  cases this

/-- **C118**, partial, for `Markers(ms, input)`: whatever is given, it never raises and is an empty container of markers (which it accepts, refusing anything else). -/
theorem C118_markers_partial (input : Option Str) (ms : List Match) :
    (ofList true input ms).2 = none ∧ (ofList true input ms).1.delegate = [] ∧ LookupsRight (ofList true input ms).1 ∧
    Reachable true input (ofList true input ms).1 ∧ (ofList true input ms).1.inputString = input ∧
    ∀ m, ((ofList true input ms).1.step (.append m)).2 = .raised .assertionError ↔ m.marker = false := by
  refine ⟨rfl, rfl, fresh_right ⟨rfl, rfl, rfl, rfl, rfl⟩, ⟨[], by simp, rfl⟩, rfl, fun m => ?_⟩
  have := (C18_kinds_partial (ofList true input ms).1).1 m
  rw [this]
  show m.marker ≠ true ↔ _
  cases m.marker <;> simp

/-- **C118 is false** for slices: `matches[a:b]` does not have the input string of `matches`. -/
theorem C118_slice_input_refuted : ¬ ∀ (s s' : Matches) (a b step : Option Int), s.getStep a b step = .ok s' → s'.inputString = s.inputString := by
  intro h
  have := h (empty false (some [])) _ none none none rfl
  cases this

/-- **C118**, what a slice is: a container built from the elements of the slice, without input string. -/
theorem C118_slice (s s' : Matches) (a b step : Option Int) (h : s.getStep a b step = .ok s') :
    step ≠ some 0 ∧ ∃ l, l = elementsAt s.delegate (positions s.delegate.length a b (step.getD 1)) ∧
      s' = (ofList false none l).1 ∧ (ofList false none l).2 = none ∧ LookupsRight s' ∧ s'.delegate = l := by
  unfold getStep at h
  split at h
  · cases h
  · rename_i l hl
    rw [listGetSlice_eq] at hl
    have hz : step.getD 1 ≠ 0 := by intro hz; rw [if_pos hz] at hl; cases hl
    rw [if_neg hz] at hl
    injection hl with hl
    refine ⟨by rintro rfl; exact hz rfl, ?_⟩
    have hf := freshc_extend l (s := empty false none) ⟨rfl, rfl, rfl, rfl, rfl⟩
    split at h
    · rename_i s2 he
      cases h
      have hd := extend_delegate l (empty false none) (by rw [he])
      rw [he] at hf hd
      refine ⟨l, hl.symm, ?_, ?_, fresh_right hf, hd⟩
      · show _ = ((empty false none).extend l).1
        rw [he]
      · show ((empty false none).extend l).2 = none
        rw [he]
    · cases h

/-- Two matches given to `Matches`, one of them twice. -/
example : (ofList false none [{ start := 0, stop := 1 }, { start := 2, stop := 3 }, { start := 0, stop := 1 }]).1.delegate.map Match.span =
    [(0, 1), (2, 3), (0, 1)] := rfl

end Rebulk
