import Verif.Props.Consequences
import Verif.Props.Utils
/-!
# C18, C33: what a refused add leaves, when `find_all` ends
-/
namespace Rebulk
open Spec Matches

/-! ## C18 -/

/-- A lookup by one attribute. -/
def byAttribute : Op → Bool
  | .named _ | .tagged _ | .starting _ | .ending _ | .atIndex _ => true
  | _ => false

theorem refused_insert {s : Matches} {m : Match} (h : m.marker ≠ s.isMarkers) (i : Int) :
    s.insert i m = ({ s with delegate := s.delegate.insertIdx (clampIdx s.delegate.length i) m }, some .assertionError) := by
  unfold Matches.insert addMatch
  simp [h]

theorem refused_append {s : Matches} {m : Match} (h : m.marker ≠ s.isMarkers) :
    s.append m = ({ s with delegate := s.delegate ++ [m] }, some .assertionError) := by
  unfold Matches.append
  rw [refused_insert h]
  have : clampIdx s.delegate.length (s.length : Int) = s.delegate.length := by
    unfold clampIdx Matches.length
    simp
    omega
  rw [this, List.insertIdx_length_self]

theorem namedLoop_looked : ∀ (ns : List String) (s : Matches) (acc : List Match), s.nameD.isSome = true ∨ ns ≠ [] → (namedLoop ns s acc).1.nameD.isSome = true
  | [], s, acc, h => by
    rcases h with h | h
    · exact h
    · exact absurd rfl h
  | n :: ns, s, acc, _ => by
    unfold namedLoop
    exact namedLoop_looked ns _ _ (.inl rfl)

theorem lookup_static (s : Matches) (op : Op) (h : byAttribute op = true) : (s.step op).1.isMarkers = s.isMarkers := by
  cases op <;> first | cases h | skip
  · exact (named_spec s _).1.markers
  · rfl
  · rfl
  · rfl
  · rfl

/-- A lookup made before a refused add gives the same answer after it. -/
theorem refused_unseen (s : Matches) (op : Op) (h : byAttribute op = true) (l : List Match) :
    ({ (s.step op).1 with delegate := l }.step op).2 = (s.step op).2 := by
  cases op <;> first | cases h | skip
  · rename_i ns
    show Out.list (Matches.named _ ns).2 = Out.list (s.named ns).2
    congr 1
    rw [(named_spec _ ns).2, (named_spec s ns).2]
    by_cases hns : fromKeys ns = []
    · rw [hns]; rfl
    · have hl := namedLoop_looked (fromKeys ns) s [] (.inr hns)
      have hsim := (named_spec s ns).1
      congr 1
      funext n
      have e : ({ (s.step (.named ns)).1 with delegate := l } : Matches).nameDict = (s.named ns).1.nameDict := by
        show (Option.getD (s.named ns).1.nameD _) = Option.getD (s.named ns).1.nameD _
        have hl : (s.named ns).1.nameD.isSome = true := hl
        cases hd : (s.named ns).1.nameD with
        | none => rw [hd] at hl; cases hl
        | some d => rfl
      rw [e]
      exact hsim.name n
  · exact congrArg Out.list (Dict.getList_touch _ _ _)
  · exact congrArg Out.list (Dict.getList_touch _ _ _)
  · exact congrArg Out.list (Dict.getList_touch _ _ _)
  · exact congrArg Out.list (Dict.getList_touch _ _ _)

/-- **C18**, what a refused `append` or `insert` does: the match is in the sequence, where it was to be put. A lookup made before gives the same answer as before:
the match is not found by it. In a container not looked at before, it is found by all lookups. -/
theorem C18_refused_add (s : Matches) (m : Match) (i : Int) (h : m.marker ≠ s.isMarkers) :
    (s.step (.append m)).1.delegate = s.delegate ++ [m] ∧
    (s.step (.insert i m)).1.delegate = s.delegate.insertIdx (clampIdx s.delegate.length i) m ∧
    (∀ op, byAttribute op = true →
      (((s.step op).1.step (.append m)).1.step op).2 = (s.step op).2 ∧ (((s.step op).1.step (.insert i m)).1.step op).2 = (s.step op).2) ∧
    (Fresh s → LookupsRight (s.step (.append m)).1 ∧ LookupsRight (s.step (.insert i m)).1) := by
  refine ⟨?_, ?_, ?_, ?_⟩
  · show (s.append m).1.delegate = _
    rw [refused_append h]
  · show (s.insert i m).1.delegate = _
    rw [refused_insert h]
  · intro op hop
    have hm : m.marker ≠ (s.step op).1.isMarkers := by rw [lookup_static s op hop]; exact h
    constructor
    · show (((s.step op).1.append m).1.step op).2 = _
      rw [refused_append hm]
      exact refused_unseen s op hop _
    · show (((s.step op).1.insert i m).1.step op).2 = _
      rw [refused_insert hm]
      exact refused_unseen s op hop _
  · intro hf
    have key : ∀ l, LookupsRight { s with delegate := l } := by
      intro l
      obtain ⟨h1, h2, h3, h4, h5⟩ := hf
      refine exact_lookups ⟨?_, ?_, ?_, ?_, ?_⟩
      · show LitO nameKeys s.nameD l
        rw [h1]; exact LitO_none _ _
      · show LitO tagKeys s.tagD l
        rw [h2]; exact LitO_none _ _
      · show LitO startKeys s.startD l
        rw [h3]; exact LitO_none _ _
      · show LitO endKeys s.endD l
        rw [h4]; exact LitO_none _ _
      · show LitO indexKeys s.indexD l
        rw [h5]; exact LitO_none _ _
    constructor
    · show LookupsRight (s.append m).1
      rw [refused_append h]; exact key _
    · show LookupsRight (s.insert i m).1
      rw [refused_insert h]; exact key _

/-- **C18**, what a refused `extend` does: the matches up to the first of the wrong kind are in the sequence, this one included; the others are not. -/
theorem C18_refused_extend : ∀ (good : List Match) (s : Matches) (m : Match) (more : List Match), (∀ x ∈ good, x.marker = s.isMarkers) → m.marker ≠ s.isMarkers →
    (s.step (.extend (good ++ m :: more))).1.delegate = s.delegate ++ good ++ [m]
  | [], s, m, more, _, h => by
    show (s.extend (m :: more)).1.delegate = _
    unfold extend
    rw [refused_append h]
    simp
  | x :: good, s, m, more, hg, h => by
    have hx := hg x (by simp)
    show (s.extend (x :: (good ++ m :: more))).1.delegate = _
    unfold extend
    cases ha : s.append x with
    | mk s' e =>
      have e1 : s.append x = (addMatchBase { s with delegate := s.delegate ++ [x] } x, none) := by
        unfold Matches.append Matches.insert addMatch
        have : clampIdx s.delegate.length (s.length : Int) = s.delegate.length := by
          unfold clampIdx Matches.length
          simp
          omega
        rw [this, List.insertIdx_length_self]
        simp [hx]
      rw [e1] at ha
      cases ha
      have := C18_refused_extend good (addMatchBase { s with delegate := s.delegate ++ [x] } x) m more (fun y hy => hg y (by simp [hy])) h
      refine this.trans ?_
      show (s.delegate ++ [x]) ++ good ++ [m] = _
      simp

/-- A marker given to a container of matches, between two lookups. -/
example : (((((empty false none).step (.named ["a"])).1.step (.append { start := 0, stop := 3, marker := true, name := some "a" })).1.step (.named ["a"])).2 =
    .list []) := rfl

/-! ## C33 -/

/-- **C33**, exactly when `find_all` ends: unless `sub` is empty and the window is not. -/
theorem C33_find_all_exact (lower : Str → Str) (s sub : Str) (start stop : Option Int) (ignoreCase : Bool) :
    (∃ fuel, (findAll lower fuel s sub start stop ignoreCase).isSome) ↔
      (if ignoreCase then lower sub else sub) ≠ [] ∨
        NoPlace (if ignoreCase then lower s else s) start stop := by
  refine ⟨?_, C33_find_all_terminates_partial lower s sub start stop ignoreCase⟩
  have never : ∀ (s : Str) (fuel : Nat) (a : Option Int), findLo s a ≤ findHi s stop → findAllLoop fuel s [] a stop = none := by
    intro s fuel
    induction fuel with
    | zero => intro a _; rfl
    | succ n ih =>
      intro a ha
      unfold findAllLoop
      have hhi : findHi s stop ≤ s.length := by
        unfold findHi
        cases stop with
        | none => exact Nat.le_refl _
        | some i => exact clampIdx_le _ _
      obtain ⟨p, hp⟩ := pyFind_complete (s := s) (sub := []) (a := a) (b := stop) (findLo s a)
        ⟨Nat.le_refl _, by simpa using ha, by simp [occursAt]⟩
      have hin := (pyFind_some hp).1
      simp only [hp, Option.map_eq_none_iff]
      refine ih _ ?_
      have h2 := hin.2.1
      simp only [List.length_nil, Nat.add_zero] at h2
      have : findLo s (some ((p : Int) + (([] : Str).length : Int))) = p := by
        simp only [findLo, List.length_nil]
        rw [if_neg (by omega)]
        omega
      rw [this]; exact h2
  rintro ⟨fuel, h⟩
  by_cases hs : (if ignoreCase then lower sub else sub) = []
  · right
    rw [noPlace_iff]
    refine Nat.lt_of_not_le (fun hle => ?_)
    unfold findAll at h
    cases ignoreCase with
    | true => simp only [if_true] at h hs hle; rw [hs, never _ fuel start hle] at h; cases h
    | false => simp only [Bool.false_eq_true, if_false] at h hs hle; rw [hs, never _ fuel start hle] at h; cases h
  · exact .inl hs

/-- `find_all("abc", "", 1, 2)` does not end, `find_all("abc", "", 2, 1)` does. -/
example : (¬ ∃ fuel, (findAll id fuel "abc".toList [] (some 1) (some 2) false).isSome) ∧ ∃ fuel, (findAll id fuel "abc".toList [] (some 2) (some 1) false).isSome := by
  constructor
  · rw [C33_find_all_exact, noPlace_iff]; decide
  · rw [C33_find_all_exact, noPlace_iff]; decide

end Rebulk
