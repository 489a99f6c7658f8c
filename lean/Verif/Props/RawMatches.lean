import Verif.Props.ChainOrder
import Verif.Model.Rebulk
/-!
# Raw matches along with the matches (`C91`)
-/
namespace Rebulk
open Spec

theorem withRaws_matches (p : Pattern) (raws : List (Except PyErr (List MTree))) :
    (match (match collectRaws raws with | .error e => .error e | .ok l => p.matchesWithRaws p.processMatch l :
        Except PyErr (List MTree × List MTree)) with
      | .error e => .error e | .ok (ms, _) => .ok ms) = p.run raws := by
  unfold Pattern.run
  cases collectRaws raws with
  | error e => rfl
  | ok l =>
    simp only [Pattern.matchesWithRaws, Pattern.matchesOf]
    have : Pattern.processAll (p.processMatchesWith p.processMatch) l = Pattern.processAll p.processMatches l := rfl
    rw [this]
    cases Pattern.processAll p.processMatches l with
    | error e => rfl
    | ok x => rfl

/-- **C91.** Asking for the raw matches too changes nothing about the matches: `matches_` drops the raw matches of
`matches(input, with_raw_matches=True)`; it gives the same matches and the same exceptions as `matches(input)`. -/
theorem C91_same_matches {Ctx : Type} (lower : Str → Str) (i : PatternInfo Ctx) (p : Pattern) (input : Str) :
    (∀ o strings, (PatternObj.string i p o strings).matches_ lower input = p.runString lower o strings input) ∧
    (∀ rc regexes, (PatternObj.regex i p rc regexes).matches_ lower input = p.runRegex rc regexes input) ∧
    (∀ functions, (PatternObj.functional i p functions).matches_ lower input = p.runFunctional functions input) := by
  refine ⟨fun o strings => ?_, fun rc regexes => ?_, fun functions => ?_⟩
  · unfold PatternObj.matches_ PatternObj.run; exact withRaws_matches p _
  · unfold PatternObj.matches_ PatternObj.run; exact withRaws_matches p _
  · unfold PatternObj.matches_ PatternObj.run; exact withRaws_matches p _

/-- The raw matches `raws` are the occurrences found by the sub-patterns, `found`, one sub-pattern after the other: same spans, numbered
from 0 for each sub-pattern. -/
def Spec.RawMatchesOf (found : List (List MTree)) (raws : List MTree) : Prop :=
  raws.map (fun r => (r.root.span, r.root.matchIndex)) = found.flatMap (fun l => l.mapIdx (fun i t => (t.root.span, i)))

theorem rawAfter_span (p : Pattern) (h : p.preMatch = none) (i : Nat) (t : MTree) (ht : t.root.start < t.root.stop) :
    (p.rawAfter p.processMatch i t).root.span = t.root.span ∧ (p.rawAfter p.processMatch i t).root.matchIndex = i := by
  have htr : t.root.truthy? = .ok true := by
    unfold Match.truthy?
    rw [if_neg (by omega)]
    simp; omega
  have : p.rawAfter p.processMatch i t = (p.processMatch i false t).1 := by
    unfold Pattern.rawAfter
    rw [h]
    simp only [Pattern.processProcessor, htr]
  rw [this]
  obtain ⟨_, _, _, hf⟩ := configure_form p i false t.root
  show ((p.configure i false t.root).span = _) ∧ (p.configure i false t.root).matchIndex = i
  rw [hf t.root rfl]
  exact ⟨rfl, rfl⟩

theorem mapIdx_map_congr {α β γ : Type} {f : Nat → α → β} {g : β → γ} {h : Nat → α → γ} : ∀ {l : List α},
    (∀ i, ∀ a ∈ l, g (f i a) = h i a) → (l.mapIdx f).map g = l.mapIdx h := by
  intro l hl
  apply List.ext_getElem
  · simp
  · intro n h1 h2
    rw [List.getElem_map, List.getElem_mapIdx, List.getElem_mapIdx]
    exact hl n _ (List.getElem_mem _)

theorem withRaws_raws {p : Pattern} (h : p.preMatch = none) {l : List (List MTree)} (hl : ∀ ts ∈ l, ∀ t ∈ ts, t.root.start < t.root.stop)
    {ms raws : List MTree} (hr : p.matchesWithRaws p.processMatch l = .ok (ms, raws)) : RawMatchesOf l raws := by
  unfold Pattern.matchesWithRaws at hr
  split at hr
  · cases hr
  · cases hr
    unfold RawMatchesOf
    rw [List.map_flatMap]
    have : ∀ ts ∈ l, (ts.mapIdx (p.rawAfter p.processMatch)).map (fun r => (r.root.span, r.root.matchIndex)) =
        ts.mapIdx (fun i t => (t.root.span, i)) := by
      intro ts hts
      refine mapIdx_map_congr ?_
      intro i t ht
      obtain ⟨h1, h2⟩ := rawAfter_span p h i t (hl ts hts t ht)
      rw [h1, h2]
    rw [List.flatMap_def, List.flatMap_def, List.map_congr_left this]

theorem collectRaws_mem : ∀ {l : List (Except PyErr (List MTree))} {found : List (List MTree)}, collectRaws l = .ok found →
    ∀ ts ∈ found, .ok ts ∈ l
  | [], found, h, ts, hts => by cases h; cases hts
  | .error e :: l, found, h, ts, hts => by cases h
  | .ok x :: l, found, h, ts, hts => by
    unfold collectRaws at h
    split at h
    · cases h
    · rename_i r hr
      cases h
      rcases List.mem_cons.1 hts with rfl | hts
      · exact List.mem_cons_self
      · exact List.mem_cons_of_mem _ (collectRaws_mem hr ts hts)

theorem raws_of {p : Pattern} {c : Except PyErr (List (List MTree))} {ms raws : List MTree} (hp : p.preMatch = none)
    (hc : (match c with | .error e => .error e | .ok l => p.matchesWithRaws p.processMatch l : Except PyErr (List MTree × List MTree)) = .ok (ms, raws))
    (hne : ∀ found, c = .ok found → ∀ ts ∈ found, ∀ t ∈ ts, t.root.start < t.root.stop) :
    ∃ found, c = .ok found ∧ RawMatchesOf found raws := by
  cases c with
  | error e => cases hc
  | ok l => exact ⟨l, rfl, withRaws_raws hp (hne l rfl) hc⟩

/-- **C91**, the raw matches of a string pattern: without a processor of raw matches, they are all the occurrences of the strings, whatever the
validators and the other processors do. -/
theorem C91_raw_strings {Ctx : Type} (lower : Str → Str) {i : PatternInfo Ctx} {p : Pattern} {o : StringOpts} {strings : List Str} {input : Str}
    {ms raws : List MTree} (h : p.preMatch = none) (hr : (PatternObj.string i p o strings).run lower input = .ok (ms, raws)) :
    ∃ found, collectRaws (strings.map (p.matchString lower o input)) = .ok found ∧ RawMatchesOf found raws := by
  unfold PatternObj.run at hr
  refine raws_of h hr ?_
  intro found hf ts hts t ht
  obtain ⟨w, _, hw⟩ := List.mem_map.1 (collectRaws_mem hf ts hts)
  unfold Pattern.matchString at hw
  split at hw
  · cases hw
  · cases hw
    obtain ⟨h1, h2⟩ := List.mem_filter.1 ht
    obtain ⟨n, _, rfl⟩ := List.mem_map.1 h1
    have h2 := of_decide_eq_true h2
    simp only [MTree.root, Pattern.newMatch, Match.len] at h2 ⊢
    omega

theorem matchRegex_go_pos {p : Pattern} {rc : Bool} {re : Regex} {input : Str} : ∀ (os : List ReObj) (out : List MTree),
    (∀ o ∈ os, o.start ≤ o.stop) → Pattern.matchRegex.go p rc re input os = .ok out → ∀ t ∈ out, t.root.start < t.root.stop
  | [], out, _, h, t, ht => by unfold Pattern.matchRegex.go at h; cases h; cases ht
  | o :: os, out, ho, h, t, ht => by
    unfold Pattern.matchRegex.go at h
    split at h
    · cases h
    · rename_i l hl
      split at h
      · cases h
      · rename_i r hr
        cases h
        rcases List.mem_append.1 ht with ht | ht
        · unfold Pattern.reMatch at hl
          simp only at hl
          split at hl
          · cases hl
          · cases hl
            have h0 := ho o (by simp)
            split at ht
            · rename_i hne
              rw [List.mem_singleton] at ht
              subst ht
              simp only [MTree.root, Pattern.newMatch, Match.len] at hne ⊢
              omega
            · cases ht
        · exact matchRegex_go_pos os r (fun o h => ho o (List.mem_cons_of_mem _ h)) hr t ht

/-- **C91**, the raw matches of regular expressions. -/
theorem C91_raw_regexes {Ctx : Type} (lower : Str → Str) {i : PatternInfo Ctx} {p : Pattern} {rc : Bool} {regexes : List Regex} {input : Str}
    {ms raws : List MTree} (h : p.preMatch = none) (hre : ∀ re ∈ regexes, ∀ o ∈ re.finditer input, o.start ≤ o.stop)
    (hr : (PatternObj.regex i p rc regexes).run lower input = .ok (ms, raws)) :
    ∃ found, collectRaws (regexes.map (fun re => p.matchRegex rc re input)) = .ok found ∧ RawMatchesOf found raws := by
  unfold PatternObj.run at hr
  refine raws_of h hr ?_
  intro found hf ts hts t ht
  obtain ⟨re, hmem, hw⟩ := List.mem_map.1 (collectRaws_mem hf ts hts)
  exact matchRegex_go_pos (re.finditer input) ts (hre re hmem) hw t ht

/-- **C91**, the raw matches of functions, provided that the spans they return are not reversed. -/
theorem C91_raw_functions {Ctx : Type} (lower : Str → Str) {i : PatternInfo Ctx} {p : Pattern} {functions : List (Str → FRet)} {input : Str}
    {ms raws : List MTree} (h : p.preMatch = none)
    (hf : ∀ found, collectRaws (functions.map (fun f => p.matchFunctional f input)) = .ok found → ∀ ts ∈ found, ∀ t ∈ ts, t.root.start < t.root.stop)
    (hr : (PatternObj.functional i p functions).run lower input = .ok (ms, raws)) :
    ∃ found, collectRaws (functions.map (fun f => p.matchFunctional f input)) = .ok found ∧ RawMatchesOf found raws := by
  unfold PatternObj.run at hr
  exact raws_of h hr hf

/-- `a` and `b` in `abca`, nothing being valid: no match, but three raw ones. -/
example : (match (PatternObj.string (Ctx := Unit) {} (Pattern.init 1 { validator := .one (some (fun _ => false)) }) {} [['a'], ['b']]).run (fun s => s)
      ['a', 'b', 'c', 'a'] with
    | .ok (ms, raws) => some (ms.length, raws.map (fun (r : MTree) => (r.root.span, r.root.matchIndex)))
    | .error _ => none) = some (0, [((0, 1), 0), ((3, 4), 1), ((1, 2), 0)]) := by decide +kernel

end Rebulk
