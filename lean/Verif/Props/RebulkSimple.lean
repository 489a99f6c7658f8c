import Verif.Props.RebulkDefault
import Verif.Props.Pattern
/-!
# End to end for simple patterns (`C74`)
-/
namespace Rebulk
open Spec
variable {Ctx : Type}

/-- A public match without parent and conflict solver, not empty. -/
structure GoodRoot (m : Match) : Prop where
  isPublic : m.priv = false
  noSolver : m.solver = none
  noParent : m.ancestors = []
  nonEmpty : m.start < m.stop

theorem simple_process {id : Nat} {o : PatternOpts} (ho : SimpleOpts o) (idx : Nat) {t : MTree} (ht : GoodRoot t.root) :
    ∃ out, (Pattern.init id o).processMatches idx t = .ok out ∧ ∀ x ∈ out, GoodRoot x.root := by
  obtain ⟨V, T, h1, h2, h3, h4⟩ := C45_validation id o ho.formatter ho.validator ho.noProcessor.1 ho.noProcessor.2.1 idx t ht.nonEmpty
  by_cases ha : Accepted o V T
  · refine ⟨_, h4 ha, ?_⟩
    intro x hx
    have hx : x = T := by
      unfold emission at hx
      rw [if_neg (c := ChildrenIncluded o ∨ o.privateChildren = true) (by
        simp [ChildrenIncluded, ho.parents, ho.isPublic]), List.append_nil] at hx
      split at hx
      · exact List.mem_singleton.1 hx
      · cases hx
    subst hx
    rw [h2.root]
    have hs : V.root.start = t.root.start ∧ V.root.stop = t.root.stop := by
      have := h1.root.span; exact ⟨congrArg Prod.fst this, congrArg Prod.snd this⟩
    refine ⟨?_, ?_, ?_, ?_⟩
    · cases hp : V.root.priv with
      | false => rfl
      | true =>
        rcases h1.root.priv.1 hp with h | ⟨n, _, _, h⟩ | ⟨_, h⟩ | ⟨h, _⟩
        · rw [ht.isPublic] at h; cases h
        · rw [ho.isPublic.2.2.2] at h; cases h
        · rw [ho.isPublic.2.1] at h; cases h
        · cases h
    · rw [h1.root.solver]; exact ht.noSolver
    · rw [h1.rootLink]; exact ht.noParent
    · rw [hs.1, hs.2]; exact ht.nonEmpty
  · exact ⟨[], h3 ha, by simp⟩

theorem processRaws_all {process : Nat → MTree → Except PyErr (List MTree)} {P : MTree → Prop} : ∀ (raws : List MTree) (i : Nat),
    (∀ t ∈ raws, ∀ k, ∃ out, process k t = .ok out ∧ ∀ x ∈ out, P x) → ∃ out, Pattern.processRaws process i raws = .ok out ∧ ∀ x ∈ out, P x
  | [], i, _ => ⟨[], rfl, by simp⟩
  | t :: ts, i, h => by
    obtain ⟨a, h1, h2⟩ := h t List.mem_cons_self i
    obtain ⟨b, g1, g2⟩ := processRaws_all ts (i + 1) (fun x hx => h x (List.mem_cons_of_mem _ hx))
    refine ⟨a ++ b, ?_, ?_⟩
    · unfold Pattern.processRaws; rw [h1]; simp only; rw [g1]
    · intro x hx
      rcases List.mem_append.1 hx with hx | hx
      · exact h2 x hx
      · exact g2 x hx

theorem processAll_all {process : Nat → MTree → Except PyErr (List MTree)} {P : MTree → Prop} : ∀ (L : List (List MTree)),
    (∀ raws ∈ L, ∀ t ∈ raws, ∀ k, ∃ out, process k t = .ok out ∧ ∀ x ∈ out, P x) → ∃ out, Pattern.processAll process L = .ok out ∧ ∀ x ∈ out, P x
  | [], _ => ⟨[], rfl, by simp⟩
  | l :: L, h => by
    obtain ⟨a, h1, h2⟩ := processRaws_all l 0 (h l List.mem_cons_self)
    obtain ⟨b, g1, g2⟩ := processAll_all L (fun x hx => h x (List.mem_cons_of_mem _ hx))
    refine ⟨a ++ b, ?_, ?_⟩
    · unfold Pattern.processAll; rw [h1]; simp only; rw [g1]
    · intro x hx
      rcases List.mem_append.1 hx with hx | hx
      · exact h2 x hx
      · exact g2 x hx

theorem collectRaws_all {α : Type} (g : α → Except PyErr (List MTree)) {P : MTree → Prop} : ∀ (xs : List α),
    (∀ x ∈ xs, ∃ l, g x = .ok l ∧ ∀ t ∈ l, P t) → ∃ L, collectRaws (xs.map g) = .ok L ∧ ∀ raws ∈ L, ∀ t ∈ raws, P t
  | [], _ => ⟨[], rfl, by simp⟩
  | x :: xs, h => by
    obtain ⟨l, h1, h2⟩ := h x List.mem_cons_self
    obtain ⟨L, g1, g2⟩ := collectRaws_all g xs (fun y hy => h y (List.mem_cons_of_mem _ hy))
    refine ⟨l :: L, ?_, ?_⟩
    · rw [List.map_cons, h1]; unfold collectRaws; rw [g1]
    · intro raws hr
      rcases List.mem_cons.1 hr with rfl | hr
      · exact h2
      · exact g2 raws hr

theorem simple_withRaws {id : Nat} {o : PatternOpts} (ho : SimpleOpts o) {L : List (List MTree)} (h : ∀ raws ∈ L, ∀ t ∈ raws, GoodRoot t.root) :
    ∃ out raws, (Pattern.init id o).matchesWithRaws (Pattern.init id o).processMatch L = .ok (out, raws) ∧ ∀ x ∈ out, GoodRoot x.root := by
  obtain ⟨out, h1, h2⟩ := processAll_all (process := (Pattern.init id o).processMatches) (P := fun x => GoodRoot x.root) L
    (fun raws hr t ht k => simple_process ho k (h raws hr t ht))
  have hp : (Pattern.init id o).postProcessor = none := ho.noProcessor.2.2
  have : Pattern.processAll ((Pattern.init id o).processMatchesWith (Pattern.init id o).processMatch) L = .ok out := h1
  unfold Pattern.matchesWithRaws Pattern.postProcess
  rw [this, hp]
  exact ⟨_, _, rfl, h2⟩

theorem getElem?_other {α β : Type} {l : List α} {l' : List β} (h : l.length = l'.length) {i : Nat} {x : α} (hx : l[i]? = some x) :
    ∃ y, l'[i]? = some y := by
  have : i < l.length := by
    rcases Nat.lt_or_ge i l.length with h | h
    · exact h
    · rw [List.getElem?_eq_none h] at hx; cases hx
  exact ⟨_, List.getElem?_eq_getElem (h ▸ this)⟩

/-- A simple pattern does not raise, and all its matches are good. -/
theorem simple_matches {lower : Str → Str} {input : Str} {p : PatternObj Ctx} (hp : SimplePattern lower input p) :
    ∃ out, p.matches_ lower input = .ok out ∧ ∀ x ∈ out, GoodRoot x.root := by
  cases hp with
  | @string info id o so strings ho hs =>
    obtain ⟨L, h1, h2⟩ := collectRaws_all ((Pattern.init id o).matchString lower so input) (P := fun t => GoodRoot t.root) strings (by
      intro s hsm
      obtain ⟨l, ps, q1, q2, q3, q4⟩ := C42_string_occurrences id o lower so input s (hs s hsm).1 (hs s hsm).2
      refine ⟨l, q1, fun t ht => ?_⟩
      obtain ⟨i, hi⟩ := List.getElem?_of_mem ht
      obtain ⟨pos, hpos⟩ := getElem?_other q3 hi
      obtain ⟨hm, _⟩ := q4 i t pos hi hpos
      have hlen : 0 < s.length := List.length_pos_iff.2 (hs s hsm).1
      have e1 : t.root.start = pos := congrArg Prod.fst hm.span
      have e2 : t.root.stop = (pos : Int) + s.length := congrArg Prod.snd hm.span
      exact ⟨hm.priv.trans ho.isPublic.1, hm.solver.trans ho.noSolver, hm.noParent, by omega⟩)
    obtain ⟨out, raws, h3, h4⟩ := simple_withRaws (id := id) ho h2
    refine ⟨out, ?_, h4⟩
    unfold PatternObj.matches_ PatternObj.run Pattern.partOfString
    rw [h1]; simp only; rw [h3]
  | @regex info id o rc regexes ho hmk hs =>
    obtain ⟨L, h1, h2⟩ := collectRaws_all (fun re => (Pattern.init id o).matchRegex rc re input) (P := fun t => GoodRoot t.root) regexes (by
      intro re hre
      obtain ⟨l, q1, q3, q4⟩ := C43_regex_children id o hmk rc re input (fun obj hobj => (hs re hre obj hobj).2)
      refine ⟨l, q1, fun t ht => ?_⟩
      obtain ⟨i, hi⟩ := List.getElem?_of_mem ht
      obtain ⟨obj, hobj⟩ := getElem?_other q3 hi
      have hm := (q4 i obj t hobj hi).main
      have hmem := List.mem_filter.1 (List.mem_of_getElem? hobj)
      have hle := (hs re hre obj hmem.1).1
      have hne : obj.start ≠ obj.stop := of_decide_eq_true hmem.2
      have e1 : t.root.start = obj.start := congrArg Prod.fst hm.span
      have e2 : t.root.stop = obj.stop := congrArg Prod.snd hm.span
      exact ⟨hm.priv.trans ho.isPublic.1, hm.solver.trans ho.noSolver, hm.noParent, by omega⟩)
    obtain ⟨out, raws, h3, h4⟩ := simple_withRaws (id := id) ho h2
    refine ⟨out, ?_, h4⟩
    unfold PatternObj.matches_ PatternObj.run Pattern.partOfRegex
    rw [h1]; simp only; rw [h3]
  | @functional info id o fs ho hs =>
    obtain ⟨L, h1, h2⟩ := collectRaws_all (fun f => (Pattern.init id o).matchFunctional f input) (P := fun t => GoodRoot t.root) fs (by
      intro f hf
      obtain ⟨rs, hrs, hds⟩ := hs f hf
      obtain ⟨l, q1, q3, q4⟩ := C44_functional_many id o f input rs hrs (fun x hx => ⟨(hds x hx).1, (hds x hx).2.1⟩)
      refine ⟨l, q1, fun t ht => ?_⟩
      obtain ⟨i, hi⟩ := List.getElem?_of_mem ht
      obtain ⟨x, hx⟩ := getElem?_other q3 hi
      obtain ⟨hm, _⟩ := q4 i x t hx hi
      have hmem := List.mem_filter.1 (List.mem_of_getElem? hx)
      obtain ⟨_, hle, hp1, hp2⟩ := hds x hmem.1
      have hne : x.2.1.1 ≠ x.2.1.2 := of_decide_eq_true hmem.2
      have e1 : t.root.start = x.2.1.1 := congrArg Prod.fst hm.span
      have e2 : t.root.stop = x.2.1.2 := congrArg Prod.snd hm.span
      refine ⟨?_, ?_, hm.noParent, by omega⟩
      · rw [hm.priv]; rcases hp1 with h | h <;> rw [h]
        · exact ho.isPublic.1
        · rfl
      · rw [hm.solver]; rcases hp2 with h | h <;> rw [h]
        · exact ho.noSolver
        · rfl)
    obtain ⟨out, raws, h3, h4⟩ := simple_withRaws (id := id) ho h2
    refine ⟨out, ?_, h4⟩
    unfold PatternObj.matches_ PatternObj.run
    rw [h1]; simp only; rw [h3]

theorem simple_collects {lower : Str → Str} {ctx : Ctx} {input : Str} : ∀ (ps : List (PatternObj Ctx)),
    (∀ p ∈ ps, p.info.disabled ctx = false → SimplePattern lower input p) → ∃ ts, Collects lower ctx input ps ts ∧ ∀ t ∈ ts, GoodRoot t.root
  | [], _ => ⟨[], .nil, by simp⟩
  | p :: ps, h => by
    obtain ⟨ts, h1, h2⟩ := simple_collects ps (fun x hx => h x (List.mem_cons_of_mem _ hx))
    cases hd : p.info.disabled ctx with
    | true => exact ⟨ts, .disabled hd h1, h2⟩
    | false =>
      obtain ⟨out, g1, g2⟩ := simple_matches (h p List.mem_cons_self hd)
      refine ⟨out ++ ts, .enabled hd g1 h1, fun t ht => ?_⟩
      rcases List.mem_append.1 ht with ht | ht
      · exact g2 t ht
      · exact h2 t ht

open Classical in
/-- **C74** for simple patterns, without any hypothesis on what is found: `matches` never raises, and returns in order the matches found that share no index
with a longer one. -/
theorem C74_simple {env : Env (List Match)} (henv : DefaultEnv env) {r : RebulkObj Ctx} (hr : DefaultRulesOnly r) (input : Str) (ctx : Ctx)
    (hd : r.disabled ctx = false) (hp : ∀ p ∈ r.effectivePatterns ctx, p.info.disabled ctx = false → SimplePattern env.lower input p) :
    ∃ ts f, Collects env.lower ctx input (r.effectivePatterns ctx) ts ∧ r.matches_ env input ctx = .ok f ∧
      f.found.delegate.map content =
        ((rootsOf false ts).filter (fun m => decide (¬ ∃ c ∈ rootsOf false ts, Overlap m c ∧ m.stop - m.start < c.stop - c.start))).map content ∧
      f.markers.delegate.map content = (rootsOf true ts).map content ∧ LookupsRight f.found ∧ LookupsRight f.markers := by
  obtain ⟨ts, h1, h2⟩ := simple_collects (r.effectivePatterns ctx) hp
  have hg : ∀ m ∈ rootsOf false ts, GoodRoot m := by
    intro m hm
    obtain ⟨t, ht, rfl⟩ := List.mem_map.1 (List.mem_filter.1 hm).1
    exact h2 t ht
  obtain ⟨f, g1, g2, g3⟩ := C74_ordinary henv hr input ctx hd h1
    ⟨fun m hm _ => (hg m hm).nonEmpty, fun m hm _ => (hg m hm).noSolver,
      fun m hm _ => by unfold Match.initLen Match.initiator; rw [(hg m hm).noParent]; rfl,
      fun a ha b hb _ => by rw [(hg a ha).isPublic, (hg b hb).isPublic]⟩
  refine ⟨ts, f, h1, g1, ?_, g3⟩
  rw [g2]
  congr 1
  refine List.filter_congr (fun m hm => decide_eq_decide.2 ?_)
  constructor
  · rintro ⟨_, hl⟩ ⟨c, hc, ho, hlt⟩
    exact hl ⟨(hg m hm).isPublic, c, hc, (hg c hc).isPublic, ho, hlt⟩
  · intro hl
    refine ⟨(hg m hm).isPublic, ?_⟩
    rintro ⟨_, c, hc, _, ho, hlt⟩
    exact hl ⟨c, hc, ho, hlt⟩

/-- The hypotheses are met by patterns of the three kinds. -/
example : let own : List (PatternObj Unit) := [exPattern 1 { name := some "a" } ["ab", "e"],
      .regex {} (Pattern.init 2 {}) false [{ names := [none], finditer := fun _ => [⟨1, 4, [⟨(1, 2), []⟩]⟩] }]];
    let child : List (PatternObj Unit) := [.functional {} (Pattern.init 3 {}) [fun _ => .seq [.seq [.val (.int 2), .val (.int 4)]]]];
    let r : RebulkObj Unit := exRebulk own child;
    (∀ p ∈ r.effectivePatterns (), p.info.disabled () = false → SimplePattern exEnv.lower "abcde".toList p) ∧
    ∃ f, r.matches_ exEnv "abcde".toList () = .ok f ∧ f.found.delegate.map Match.span = [(4, 5), (1, 4)] := by
  refine ⟨?_, _, rfl, by decide⟩
  have hs : ∀ mo : MatchOpts, mo.priv = false → mo.solver = none → SimpleOpts { opts := mo } := fun mo h1 h2 =>
    ⟨⟨rfl, rfl⟩, ⟨h1, rfl, rfl, rfl⟩, h2, ⟨rfl, rfl, rfl⟩, (by intro a h; cases h), (by intro a h; cases h)⟩
  intro p hp _
  rcases List.mem_cons.1 hp with rfl | hp
  · exact .string (hs _ rfl rfl) (by intro s hs; revert s; decide)
  · rcases List.mem_cons.1 hp with rfl | hp
    · refine .regex (hs _ rfl rfl) rfl ?_
      intro re hre obj hobj
      rw [List.mem_singleton] at hre; subst hre
      rw [List.mem_singleton] at hobj; subst hobj
      refine ⟨by decide, fun g hg => ?_⟩
      rw [List.mem_singleton] at hg; subst hg
      exact ⟨.inr (by decide), by simp⟩
    · rcases List.mem_cons.1 hp with rfl | hp
      · refine .functional (hs _ rfl rfl) ?_
        intro f hf
        rw [List.mem_singleton] at hf; subst hf
        refine ⟨[(.seq [.val (.int 2), .val (.int 4)], (2, 4), {})], .inl rfl, ?_⟩
        intro x hx
        rw [List.mem_singleton] at hx; subst hx
        exact ⟨.span (.int 2) (.int 4), by decide, .inl rfl, .inl rfl⟩
      · cases hp

end Rebulk
