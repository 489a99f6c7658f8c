import Verif.Props.Rebulk
/-!
# C04: `Matches(matches)` and `Markers(matches)`
-/
namespace Rebulk
open Spec Matches

theorem tidy_extend : ∀ (ms : List Match) {s : Matches}, Tidy s → (∀ m ∈ ms, m.marker = s.isMarkers) →
    (s.extend ms).2 = none ∧ Tidy (s.extend ms).1 ∧ (s.extend ms).1.delegate = s.delegate ++ ms ∧ (s.extend ms).1.isMarkers = s.isMarkers ∧
      (s.extend ms).1.inputString = s.inputString
  | [], s, h, _ => ⟨rfl, h, by simp [Matches.extend], rfl, rfl⟩
  | m :: ms, s, h, hm => by
    obtain ⟨h1, h2, h3, h4⟩ := tidy_append h m (hm m List.mem_cons_self)
    have hi := (append_static s m).2
    unfold Matches.extend
    cases ha : s.append m with
    | mk s' e =>
      rw [ha] at h1 h2 h3 h4 hi
      simp only at h1 h2 h3 h4 hi
      subst h1
      obtain ⟨k1, k2, k3, k4, k5⟩ := tidy_extend ms h2 (fun x hx => by rw [h4]; exact hm x (List.mem_cons_of_mem _ hx))
      exact ⟨k1, k2, (by simp only [k3, h3]; simp), k4.trans h4, k5.trans hi⟩

/-- **C04**, the constructors: `Matches(ms, input_string)` holds the matches given, in order, with right lookups, provided that none is a marker;
`Markers(ms, input_string)` is empty, whatever is given. -/
theorem C04_construct (input : Option Str) (ms : List Match) :
    ((∀ m ∈ ms, m.marker = false) → (ofList false input ms).2 = none ∧ (ofList false input ms).1.delegate = ms ∧
      (ofList false input ms).1.inputString = input ∧ LookupsRight (ofList false input ms).1) ∧
    ((ofList true input ms).2 = none ∧ (ofList true input ms).1.delegate = [] ∧ (ofList true input ms).1.inputString = input ∧
      LookupsRight (ofList true input ms).1) := by
  refine ⟨fun h => ?_, rfl, rfl, rfl, exact_lookups (exact_empty _ _)⟩
  obtain ⟨h1, h2, h3, _, h5⟩ := tidy_extend ms (s := empty false input) ⟨inv_empty _ _, exact_empty _ _⟩ h
  exact ⟨h1, by rw [show (ofList false input ms).1 = ((empty false input).extend ms).1 from rfl, h3]; rfl, h5, exact_lookups h2.exact_⟩

/-- **C04**, the constructor and a marker: `Matches(ms)` raises `AssertionError` when there is a marker among `ms`. -/
theorem C04_construct_marker (input : Option Str) (ms : List Match) (h : ∃ m ∈ ms, m.marker = true) :
    (ofList false input ms).2 = some .assertionError := by
  have key : ∀ (ms : List Match) (s : Matches), Tidy s → s.isMarkers = false → (∃ m ∈ ms, m.marker = true) → (s.extend ms).2 = some .assertionError := by
    intro ms
    induction ms with
    | nil => rintro s _ _ ⟨m, hm, _⟩; cases hm
    | cons x xs ih =>
      intro s hs hk hm
      unfold Matches.extend
      by_cases hx : x.marker = true
      · have : (s.append x).2 = some .assertionError := by
          simp [Matches.append, Matches.insert, addMatch, hk, hx]
        cases ha : s.append x with
        | mk s' e =>
          rw [ha] at this
          simp only at this
          subst this
          rfl
      · obtain ⟨h1, h2, h3, h4⟩ := tidy_append hs x (by rw [hk]; simpa using hx)
        cases ha : s.append x with
        | mk s' e =>
          rw [ha] at h1 h2 h4
          simp only at h1 h2 h4
          subst h1
          refine ih s' h2 (h4.trans hk) ?_
          obtain ⟨m, hm, hmm⟩ := hm
          rcases List.mem_cons.1 hm with rfl | hm
          · exact absurd hmm hx
          · exact ⟨m, hm, hmm⟩
  exact key ms _ ⟨inv_empty _ _, exact_empty _ _⟩ rfl h

example : ((ofList false none [{ start := 0, stop := 3 }, { start := 2, stop := 4 }]).1.delegate.map Match.span) = [(0, 3), (2, 4)] ∧
    (ofList false none [{ start := 0, stop := 3 }, { start := 1, stop := 2, marker := true }]).2 = some .assertionError := by decide

end Rebulk
