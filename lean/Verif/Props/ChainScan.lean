import Verif.Lemmas.ChainScan
import Verif.Props.ChainOrder
import Verif.Props.PatternRun
import Verif.Props.Origin
/-!
# C112: what a whole chain finds
-/
namespace Rebulk
open Spec

/-- **C112**: the matches of a chain are those of the search from left to right that `Scans` describes. -/
theorem C112_scan {c : Chain} {input : Str} (hp : ∀ p ∈ c.parts, RegularPart p) {ts : List MTree} (h : c.rawMatches input = .ok ts) :
    Scans c input input 0 ts := by
  obtain ⟨ts', e, hs⟩ := loop_scans c input hp input.length input 0 [] ts (Or.inl ⟨rfl, rfl⟩) h
  simp only [List.nil_append] at e
  rw [e]; exact hs

/-- **C112**: the description leaves no choice: without breaker, two searches it allows give matches with the same spans. -/
theorem C112_determined {c : Chain} {input : Str} (hp : ∀ p ∈ c.parts, RegularPart p) (hb : c.breaker = none) {ts ts' : List MTree}
    (h : Scans c input input 0 ts) (h' : Scans c input input 0 ts') : ts.map (fun t => t.root.span) = ts'.map (fun t => t.root.span) :=
  scans_unique hp hb h h'

/-- **C112**: when the searches of the parts answer, without markers, the search of the chain ends without exception. -/
theorem C112_answers {c : Chain} (input : Str) (hp : ∀ p ∈ c.parts, RegularPart p) (ha : ∀ p ∈ c.parts, Answers p) :
    ∃ ts, c.rawMatches input = .ok ts ∧ Scans c input input 0 ts := by
  cases h : c.rawMatches input with
  | ok ts => exact ⟨ts, rfl, C112_scan hp h⟩
  | error e =>
    have := loop_ok c input ha _ _ _ _ _ h
    subst this
    exact absurd h (loop_terminates c input (fun p h => (hp p h).forwardSearch) input.length 0 input 0 [] (Or.inl ⟨rfl, rfl⟩) (by simp)).1

theorem tried_kept {input : Str} {first : Bool} {text : Str} {pos : Int} {parts : List Part} {steps : List Step} {v : Bool} {text1 : Str} {pos1 : Int}
    (hp : ∀ p ∈ parts, RegularPart p) (h : Tried input first text pos parts steps v text1 pos1) :
    ∀ s ∈ steps, ∀ e ∈ s.kept, e.root.start < e.root.stop := by
  induction h with
  | all _ _ _ => simp
  | missing _ _ _ => simp
  | found hk _ ih =>
    intro s hs
    rcases List.mem_cons.1 hs with rfl | hs
    · intro e he
      obtain ⟨em, rs, h1, ⟨n, _, h2⟩, _⟩ := hk
      rw [h2] at he
      exact ((hp _ (by simp)).emitted _ _ _ h1 e (List.mem_of_mem_take (List.mem_filter.1 he).1)).1.nonempty
    · exact ih (fun p h => hp p (List.mem_cons_of_mem _ h)) s hs

theorem collects_positive {breaker : Option (List MTree → Bool)} {input : Str} {steps : List Step} {cur : List MTree}
    (hk : ∀ s ∈ steps, ∀ e ∈ s.kept, e.root.start < e.root.stop) (h : Gathers breaker input steps cur) : ∀ x ∈ cur, x.root.start < x.root.stop := by
  obtain ⟨moved, h1, h2, rfl⟩ := h
  intro x hx
  rcases collect_mem _ _ _ hx with hx | ⟨g, hg, hx⟩
  · simp at hx
  · obtain ⟨⟨s, l⟩, hz, hg⟩ := List.mem_flatMap.1 hg
    obtain ⟨i, hi⟩ := List.getElem?_of_mem hz
    obtain ⟨hs, hl⟩ := List.getElem?_zip_eq_some.1 hi
    have hm := h2 i s l hs hl
    unfold Step.groups at hg
    split at hg
    · simp at hg
    · unfold repetitions at hg
      obtain ⟨k, _, rfl⟩ := List.mem_map.1 hg
      obtain ⟨hx, _⟩ := List.mem_filter.1 hx
      obtain ⟨j, hj⟩ := List.getElem?_of_mem hx
      have hlt : j < s.kept.length := by rw [← hm.count]; exact (List.getElem?_eq_some_iff.1 hj).1
      have hmv := hm.root j _ x (List.getElem?_eq_getElem hlt) hj
      have := hk s (List.mem_of_getElem? hs) _ (List.getElem_mem hlt)
      have e1 : x.root.start = _ := congrArg Prod.fst hmv.span
      have e2 : x.root.stop = _ := congrArg Prod.snd hmv.span
      simp only at e1 e2
      omega

theorem scans_positive {c : Chain} {input : Str} (hp : ∀ p ∈ c.parts, RegularPart p) {text : Str} {pos : Int} {ts : List MTree}
    (h : Scans c input text pos ts) : ∀ t ∈ ts, t.root.start < t.root.stop := by
  induction h with
  | over _ _ => simp
  | nothing _ _ _ => simp
  | matched _ ht _ hc _ hb _ _ ih =>
    intro t h
    rcases List.mem_cons.1 h with rfl | h
    · obtain ⟨x, hx, e⟩ := hb.start.2
      have := hb.stop.1 x hx
      have := collects_positive (tried_kept hp ht) hc x hx
      omega
    · exact ih t h
  | unseen _ _ _ _ _ ih => exact ih
  | failed _ _ _ _ _ ih => exact ih

/-- Without validator a chain processes its matches like any pattern. -/
theorem chain_processMatch_plain {p : Pattern} (h : NoValidators p) : Chain.processMatch p = p.processMatch := by
  funext idx child t
  have : p.processMatch idx child t = ((p.processMatch idx child t).1, true) := by
    unfold Pattern.processMatch
    simp only [h child]
  unfold Chain.processMatch
  rw [this]

theorem returned_raw {c : Chain} (id : Nat) (o : PatternOpts) (hpat : c.pattern = Pattern.init id o) (input : Str)
    (hp : ∀ p ∈ c.parts, RegularPart p) (ha : ∀ p ∈ c.parts, Answers p) (hv : o.validator = .absent) (hf : Proper o.formatter)
    (h1 : KeepsOrder o.preMatch) (h2 : KeepsOrder o.postMatch) :
    ∃ ts out raws, c.run input = .ok (out, raws) ∧ c.rawMatches input = .ok ts ∧ Scans c input input 0 ts ∧ Returns o [ts] out := by
  obtain ⟨ts, e, hs⟩ := C112_answers input hp ha
  have hval : Proper o.validator := by rw [hv]; intro a h; cases h
  unfold Chain.run
  simp only [e]
  rw [hpat, chain_processMatch_plain (noValidators_init id o hv)]
  unfold Pattern.matchesWithRaws
  have hpm : (Pattern.init id o).processMatchesWith (Pattern.init id o).processMatch = (Pattern.init id o).processMatches := rfl
  rw [hpm]
  have key := matchesOf_returns id o hf hval [ts]
  unfold Pattern.matchesOf at key
  cases hpa : Pattern.processAll (Pattern.init id o).processMatches [ts] with
  | error er =>
    rw [hpa] at key
    rcases key with ⟨out, h, _⟩ | ⟨_, h⟩
    · cases h
    · exact absurd h (not_reversed h1 h2 (fun t ht => by
        have : t ∈ ts := by simpa using ht
        have := scans_positive hp hs t this
        omega))
  | ok l =>
    rw [hpa] at key
    rcases key with ⟨out, h, hr⟩ | ⟨h, _⟩
    · simp only [Except.ok.injEq] at h
      exact ⟨ts, out, _, by rw [← h], rfl, hs, hr⟩
    · cases h

/-- **C112**: a chain without validator returns what it emits for the matches of that search, exactly as any pattern does for its raw matches (C106). With a
validator: C55. -/
theorem C112_returned {c : Chain} (id : Nat) (o : PatternOpts) (hpat : c.pattern = Pattern.init id o) (input : Str)
    (hp : ∀ p ∈ c.parts, RegularPart p) (ha : ∀ p ∈ c.parts, Answers p) (hv : o.validator = .absent) (hf : Proper o.formatter)
    (h1 : KeepsOrder o.preMatch) (h2 : KeepsOrder o.postMatch) :
    ∃ ts out raws, c.run input = .ok (out, raws) ∧ Scans c input input 0 ts ∧ Returns o [ts] out := by
  obtain ⟨ts, out, raws, e1, _, e2⟩ := returned_raw id o hpat input hp ha hv hf h1 h2
  exact ⟨ts, out, raws, e1, e2⟩

/-! ## Parts that answer -/

theorem lasting_marker : Lasting (fun m => m.marker = false) := by
  intro m m' _ _ h _ _ hm; rw [h]; exact hm

/-- A part that is a pattern of strings. -/
theorem answers_string (id : Nat) (o : PatternOpts) (hm : o.opts.marker = false) (hn : NoProcessor (Pattern.init id o)) (hf : Proper o.formatter)
    (hv : Proper o.validator) (lower : Str → Str) (so : StringOpts) (ws : List Str) (hw : ∀ w ∈ ws, w ≠ [] ∧ (so.ignoreCase = true → lower w ≠ []))
    (start : Int) (stop : Option Int) (hidden : Bool) :
    Answers { search := (Pattern.init id o).partOfString lower so ws, start := start, stop := stop, hidden := hidden } := by
  have h1 : KeepsOrder o.preMatch := by intro g h; rw [show o.preMatch = none from hn.1] at h; cases h
  have h2 : KeepsOrder o.postMatch := by intro g h; rw [show o.postMatch = none from hn.2.1] at h; cases h
  constructor
  · intro s
    obtain ⟨_, out, h, _⟩ := C106_strings (Ctx := Unit) id o {} lower so ws s hf hv h1 h2 hw
    unfold PatternObj.matches_ PatternObj.run at h
    show ∃ em raws, (Pattern.init id o).partOfString lower so ws s = .ok (em, raws)
    unfold Pattern.partOfString
    split at h
    · cases h
    · rename_i ms raws hx
      exact ⟨ms, raws, hx⟩
  · intro s em raws h e he
    have h : (Pattern.init id o).partOfString lower so ws s = .ok (em, raws) := h
    unfold Pattern.partOfString at h
    split at h
    · cases h
    · rename_i L hL
      refine allNodes_withRaws (P := fun m => m.marker = false) hn (fun i b t ht => allNodes_processMatch lasting_marker _ i b ht) ?_ h e he
      refine collectRaws_each _ ws L hL ?_
      intro w _ l hl t ht
      obtain ⟨a, b, rfl⟩ := matchString_from hl t ht
      exact allNodes_leaf hm

/-- A part that is a pattern of regular expressions. -/
theorem answers_regex (id : Nat) (o : PatternOpts) (hm : o.opts.marker = false) (hn : NoProcessor (Pattern.init id o)) (hf : Proper o.formatter)
    (hv : Proper o.validator) (rc : Bool) (res : List Regex)
    (hg : ∀ s : Str, ∀ re ∈ res, ∀ obj ∈ re.finditer s, obj.start ≤ obj.stop ∧ ∀ g ∈ obj.groups, EngineGroup g)
    (start : Int) (stop : Option Int) (hidden : Bool) :
    Answers { search := (Pattern.init id o).partOfRegex rc res, start := start, stop := stop, hidden := hidden } := by
  have h1 : KeepsOrder o.preMatch := by intro g h; rw [show o.preMatch = none from hn.1] at h; cases h
  have h2 : KeepsOrder o.postMatch := by intro g h; rw [show o.postMatch = none from hn.2.1] at h; cases h
  constructor
  · intro s
    obtain ⟨_, out, h, _⟩ := C106_regexes (Ctx := Unit) id o {} (fun s => s) rc res s hf hv h1 h2 hm (hg s)
    unfold PatternObj.matches_ PatternObj.run at h
    show ∃ em raws, (Pattern.init id o).partOfRegex rc res s = .ok (em, raws)
    unfold Pattern.partOfRegex
    split at h
    · cases h
    · rename_i ms raws hx
      exact ⟨ms, raws, hx⟩
  · intro s em raws h e he
    have h : (Pattern.init id o).partOfRegex rc res s = .ok (em, raws) := h
    unfold Pattern.partOfRegex at h
    split at h
    · cases h
    · rename_i L hL
      refine allNodes_withRaws (P := fun m => m.marker = false) hn (fun i b t ht => allNodes_processMatch lasting_marker _ i b ht) ?_ h e he
      refine collectRaws_each _ res L hL ?_
      intro re _ l hl
      exact matchRegex_from hl (fun _ _ => hm) (fun _ _ _ _ _ => hm)

/-- A part that is a chain of parts that answer. -/
theorem answers_chain {c : Chain} (id : Nat) (o : PatternOpts) (hpat : c.pattern = Pattern.init id o) (hm : o.opts.marker = false)
    (hn : NoProcessor (Pattern.init id o)) (hf : Proper o.formatter) (hv : o.validator = .absent)
    (hp : ∀ p ∈ c.parts, RegularPart p) (ha : ∀ p ∈ c.parts, Answers p) (start : Int) (stop : Option Int) (hidden : Bool) :
    Answers (c.part start stop hidden) := by
  have h1 : KeepsOrder o.preMatch := by intro g h; rw [show o.preMatch = none from hn.1] at h; cases h
  have h2 : KeepsOrder o.postMatch := by intro g h; rw [show o.postMatch = none from hn.2.1] at h; cases h
  constructor
  · intro s
    obtain ⟨_, out, raws, h, _⟩ := C112_returned id o hpat s hp ha hv hf h1 h2
    exact ⟨out, raws, h⟩
  · intro s em raws h e he
    exact allNodes_chainRun (P := fun m => m.marker = false) lasting_marker c (by rw [hpat]; exact hn) (by rw [hpat]; exact fun _ _ _ => hm)
      (fun p hp' _ s out raws h x hx => (ha p hp').unmarked s out raws h x hx) s h e he

/-! ## Non-vacuity -/

theorem stringChain_answers (ws : List Str) (h : ∀ w ∈ ws, w ≠ []) : ∀ p ∈ (stringChain ws).parts, Answers p := by
  intro p hp
  obtain ⟨i, hi, rfl⟩ := List.mem_mapIdx.1 hp
  exact answers_string _ {} rfl ⟨rfl, rfl, rfl⟩ (by intro a h; cases h) (by intro a h; cases h) _ _ _
    (by intro w hw; rw [List.mem_singleton] at hw; subst hw; exact ⟨h _ (List.getElem_mem hi), by intro h; cases h⟩) _ _ _

/-- The chain `(ab)* c`, whose first part is a chain, meets the hypotheses. -/
theorem nestedChain_regular : (∀ p ∈ nestedChain.parts, RegularPart p) ∧ ∀ p ∈ nestedChain.parts, Answers p := by
  have hab : ∀ w ∈ [['a'], ['b']], w ≠ ([] : Str) := by
    intro w hw; rcases List.mem_cons.1 hw with rfl | hw
    · simp
    · rw [List.mem_singleton] at hw; subst hw; simp
  constructor
  · intro p hp
    rcases List.mem_cons.1 hp with rfl | hp
    · exact (C90_nested_chain _ (stringChain_tidy _ hab) ⟨rfl, rfl, rfl⟩ (noValidators_init 0 {} rfl) _ _ _).1.regular
    · rw [List.mem_singleton] at hp
      subst hp
      exact (regular_string _ {} rfl rfl rfl _ {} rfl _ (by simp) _ _ _).1
  · intro p hp
    rcases List.mem_cons.1 hp with rfl | hp
    · exact answers_chain 0 {} rfl rfl ⟨rfl, rfl, rfl⟩ (by intro a h; cases h) rfl (stringChain_regular _ hab) (stringChain_answers _ hab) _ _ _
    · rw [List.mem_singleton] at hp
      subst hp
      exact answers_string _ {} rfl ⟨rfl, rfl, rfl⟩ (by intro a h; cases h) (by intro a h; cases h) _ _ _
        (by intro w hw; rw [List.mem_singleton] at hw; subst hw; exact ⟨by simp, by intro h; cases h⟩) _ _ _

/-- It is searched to the end in every text. -/
example (input : Str) : ∃ ts out raws, nestedChain.run input = .ok (out, raws) ∧ Scans nestedChain input input 0 ts ∧ Returns {} [ts] out :=
  C112_returned 10 {} rfl input nestedChain_regular.1 nestedChain_regular.2 rfl (by intro a h; cases h) (by intro g h; cases h) (by intro g h; cases h)

/-- A failed attempt, then a match: `aaXac` for the strings `a`, `a`, `c`. The search goes on in `Xac`… taken to start at 1, the end of the first `a`. -/
example : ∃ ts, Scans (stringChain [['a'], ['a'], ['c']]) ['a', 'a', 'X', 'a', 'c'] ['a', 'a', 'X', 'a', 'c'] 0 ts ∧
    ts.map (fun t => t.root.span) = [(2, 5)] := by
  have hw : ∀ w ∈ [['a'], ['a'], ['c']], w ≠ ([] : Str) := by simp
  obtain ⟨ts, h1, h2⟩ := spansOf_some (show spansOf ((stringChain [['a'], ['a'], ['c']]).rawMatches
    ['a', 'a', 'X', 'a', 'c']) = some [((2, 5), [(2, 3), (3, 4), (4, 5)])] by decide +kernel)
  refine ⟨ts, C112_scan (stringChain_regular _ hw) h1, ?_⟩
  have := congrArg (List.map Prod.fst) h2
  rw [List.map_map] at this
  exact this

end Rebulk
