import Verif.Props.Rebulk
import Verif.Props.ProcessorsEqual
/-!
# End to end with the default rules (`C74`)
-/
namespace Rebulk
open Spec
variable {Ctx ρ : Type}

/-! ## The rules run -/

theorem defaultRules_effective {r : RebulkObj Ctx} (h : DefaultRulesOnly r) (ctx : Ctx) :
    ∃ a b, r.effectiveRules ctx = [conflictSolverRule a, privateRemoverRule b] := by
  obtain ⟨a, b, hab⟩ := h.own
  refine ⟨a, b, ?_⟩
  unfold RebulkObj.effectiveRules
  rw [addRules_spec, hab, distinctFrom_nil_of, List.append_nil]
  intro x hx
  obtain ⟨c, hc, hx⟩ := List.mem_flatMap.1 hx
  rcases h.children c (List.mem_filter.1 hc).1 x hx with h | h <;> simp [sameRule, conflictSolverRule, privateRemoverRule, h]

theorem default_schedule (a b : Nat) :
    schedule [(conflictSolverRule a).info, (privateRemoverRule b).info] = ([⟨a, 0⟩, ⟨b, 1⟩], none) := by
  have h1 : groupBy (fun r : RuleInfo => r.priority) (pySorted (fun a b : RuleInfo => decide (a.priority > b.priority))
      [(conflictSolverRule a).info, (privateRemoverRule b).info]) = [(2048, [(conflictSolverRule a).info]), (-2048, [(privateRemoverRule b).info])] := by
    simp [pySorted, insertSorted, groupBy, groupCons, conflictSolverRule, privateRemoverRule]
  unfold schedule
  rw [h1]
  have h2 : ∀ all : List RuleInfo, ∀ x : RuleInfo, x.dependency = .none → schedulePriority all [x] =
      orderGroups all none [[x.ref]] := by
    rintro all ⟨id, cls, pr, dep⟩ h
    simp only at h; subst h
    simp [schedulePriority, rulesGraph, classDict, Dict.contains, Dict.get?, Dict.set, dependencySet, RuleInfo.dependencies, ruleGroups, classGraph, RuleInfo.ref,
      graphFuel, toposort, topoFrom, discardSelf, extraItems, topoLoop, instanceOf, orderedItems, removeOrdered, dedup]
  rw [schedulePriorities, h2 _ _ rfl]
  simp only [schedulePriorities, h2 _ (privateRemoverRule b).info rfl]
  simp [orderGroups, orderGroup, ruleIndex, RuleInfo.ref, conflictSolverRule, privateRemoverRule, pySorted, insertSorted, List.findIdx?_cons]

theorem ranFine_ref {b : Behaviour Matches ρ} {truthy : ρ → Bool} {r : RuleRef} {s s' : Matches} (h : RanFine (executeRule truthy b r s) s') (x : RuleRef) :
    RanFine (executeRule truthy b x s) s' := by
  have key : (executeRule truthy b x s).state = (executeRule truthy b r s).state ∧ (executeRule truthy b x s).err = (executeRule truthy b r s).err := by
    unfold executeRule
    by_cases he : b.enabled s = true
    · rw [if_pos he, if_pos he]
      cases b.when_ s with
      | mk s1 a =>
        cases a with
        | error e => exact ⟨rfl, rfl⟩
        | ok a =>
          simp only
          by_cases ht : truthy a = true
          · rw [if_pos ht, if_pos ht]
            cases b.then_ s1 a with
            | mk s2 e => cases e <;> exact ⟨rfl, rfl⟩
          · rw [if_neg ht, if_neg ht]; exact ⟨rfl, rfl⟩
    · rw [if_neg he, if_neg he]; exact ⟨rfl, rfl⟩
  exact ⟨key.1.trans h.state, key.2.trans h.err⟩

theorem executeRule_onMatches (truthy : ρ → Bool) (b : Behaviour Matches ρ) (r : RuleRef) (f : Found) :
    (executeRule truthy (onMatches b) r f).state = { f with found := (executeRule truthy b r f.found).state } ∧
    (executeRule truthy (onMatches b) r f).err = (executeRule truthy b r f.found).err := by
  have he : (onMatches b).enabled f = b.enabled f.found := rfl
  have hw : (onMatches b).when_ f = ({ f with found := (b.when_ f.found).1 }, (b.when_ f.found).2) := rfl
  unfold executeRule
  rw [he, hw]
  by_cases h : b.enabled f.found = true
  · rw [if_pos h, if_pos h]
    cases hb : b.when_ f.found with
    | mk s x =>
      cases x with
      | error e => exact ⟨rfl, rfl⟩
      | ok a =>
        simp only
        by_cases ht : truthy a = true
        · rw [if_pos ht, if_pos ht]
          have hthen : (onMatches b).then_ { f with found := s } a = ({ f with found := (b.then_ s a).1 }, (b.then_ s a).2) := rfl
          rw [hthen]
          cases b.then_ s a with
          | mk s' e => cases e <;> exact ⟨rfl, rfl⟩
        · rw [if_neg ht, if_neg ht]; exact ⟨rfl, rfl⟩
  · rw [if_neg h, if_neg h]; exact ⟨rfl, rfl⟩

/-- The default rules: conflict resolution, then removal of the private matches. -/
theorem default_execute {env : Env (List Match)} {custom : Nat → Match → Match → Except PyErr SolverRet} {order : List Match → List Match}
    (hr : env.rule = defaultRule (.withDefault custom) order) (ht : env.truthy = listTruthy) {r : RebulkObj Ctx} (h : DefaultRulesOnly r) (ctx : Ctx)
    (hd : r.disabled ctx = false) (f : Found) {s1 s2 : Matches}
    (h1 : ∀ x, RanFine (executeRule listTruthy (conflictRule (.withDefault custom) order) x f.found) s1)
    (h2 : ∀ x, RanFine (executeRule listTruthy privateRule x s1) s2) :
    r.executeRules env ctx f = .ok { f with found := s2 } := by
  obtain ⟨a, b, hab⟩ := defaultRules_effective h ctx
  unfold RebulkObj.executeRules
  rw [if_pos (by simp [hd]), hab, ht, hr]
  simp only [List.map_cons, List.map_nil]
  unfold executeAll
  rw [default_schedule]
  have e1 : defaultRule (.withDefault custom) order ⟨a, 0⟩ = onMatches (conflictRule (.withDefault custom) order) := rfl
  have e2 : defaultRule (.withDefault custom) order ⟨b, 1⟩ = onMatches privateRule := rfl
  simp only [executeList, e1, e2]
  obtain ⟨q1, q2⟩ := executeRule_onMatches listTruthy (conflictRule (.withDefault custom) order) ⟨a, 0⟩ f
  rw [(h1 ⟨a, 0⟩).state] at q1
  rw [(h1 ⟨a, 0⟩).err] at q2
  rw [q2, q1]
  simp only
  obtain ⟨q3, q4⟩ := executeRule_onMatches listTruthy privateRule ⟨b, 1⟩ { f with found := s1 }
  simp only at q3 q4
  rw [(h2 ⟨b, 1⟩).state] at q3
  rw [(h2 ⟨b, 1⟩).err] at q4
  rw [q4, q3]

/-! ## Matches up to their identity -/

theorem content_mem {l l' : List Match} (h : l.map content = l'.map content) {m : Match} (hm : m ∈ l) : ∃ m' ∈ l', content m' = content m := by
  have : content m ∈ l'.map content := by rw [← h]; exact List.mem_map_of_mem hm
  obtain ⟨m', h1, h2⟩ := List.mem_map.1 this
  exact ⟨m', h1, h2⟩

theorem content_priv {a b : Match} (h : content a = content b) : a.priv = b.priv := by
  have : (content a).priv = (content b).priv := by rw [h]
  exact this
theorem content_start {a b : Match} (h : content a = content b) : a.start = b.start := by
  have : (content a).start = (content b).start := by rw [h]
  exact this
theorem content_stop {a b : Match} (h : content a = content b) : a.stop = b.stop := by
  have : (content a).stop = (content b).stop := by rw [h]
  exact this
theorem content_solver {a b : Match} (h : content a = content b) : a.solver = b.solver := by
  have : (content a).solver = (content b).solver := by rw [h]
  exact this
theorem content_initLen {a b : Match} (h : content a = content b) : a.initLen = b.initLen := by
  have : (content a).initLen = (content b).initLen := by rw [h]
  exact this
theorem content_eqv (a b : Match) : (content a).eqv (content b) = a.eqv b := rfl
theorem content_eqv_congr {a b a' b' : Match} (h : content a = content a') (h' : content b = content b') : a.eqv b = a'.eqv b' := by
  rw [← content_eqv a b, h, h', content_eqv]
theorem content_overlap {a b a' b' : Match} (h : content a = content a') (h' : content b = content b') (ho : Overlap a b) : Overlap a' b' := by
  obtain ⟨i, h1, h2⟩ := ho
  refine ⟨i, ?_, ?_⟩
  · unfold Covers at *; rw [← content_start h, ← content_stop h]; exact h1
  · unfold Covers at *; rw [← content_start h', ← content_stop h']; exact h2

theorem ordinary_of_found {l l' : List Match} (h : l'.map content = l.map content) (hn : (l'.map Match.id).Nodup) (ho : OrdinaryFound l) : Ordinary l' := by
  refine ⟨hn, ?_, ?_, ?_, ?_⟩
  · intro m hm hp
    obtain ⟨x, hx, he⟩ := content_mem h hm
    rw [← content_start he, ← content_stop he]; exact ho.nonEmpty x hx ((content_priv he).trans hp)
  · intro m hm hp
    obtain ⟨x, hx, he⟩ := content_mem h hm
    rw [← content_solver he]; exact ho.noSolver x hx ((content_priv he).trans hp)
  · intro m hm hp
    obtain ⟨x, hx, he⟩ := content_mem h hm
    rw [← content_start he, ← content_stop he, ← content_initLen he]; exact ho.noParent x hx ((content_priv he).trans hp)
  · intro a ha b hb he
    obtain ⟨x, hx, hxa⟩ := content_mem h ha
    obtain ⟨y, hy, hyb⟩ := content_mem h hb
    rw [← content_priv hxa, ← content_priv hyb]
    exact ho.equalAlike x hx y hy (by rw [content_eqv_congr hxa hyb]; exact he)

theorem loses_content (l : List Match) (m : Match) : LosesToLonger l m ↔ LosesToLonger (l.map content) (content m) := by
  constructor
  · rintro ⟨h1, c, h2, h3, h4, h5⟩
    exact ⟨h1, content c, List.mem_map_of_mem h2, h3, h4, h5⟩
  · rintro ⟨h1, c, h2, h3, h4, h5⟩
    obtain ⟨c', h6, rfl⟩ := List.mem_map.1 h2
    exact ⟨h1, c', h6, h3, h4, h5⟩

theorem filter_content (q : Match → Bool) (l : List Match) : (l.filter (fun m => q (content m))).map content = (l.map content).filter q := by
  rw [List.filter_map]; rfl

/-! ## `C74` -/

open Classical in
/-- **C74**: with the default rules only, and ordinary patterns, the result is, in order, the public matches found that share no index with a longer public
one; the markers are those found. -/
theorem C74_ordinary {env : Env (List Match)} (henv : DefaultEnv env) {r : RebulkObj Ctx} (hr : DefaultRulesOnly r) (input : Str) (ctx : Ctx)
    (hd : r.disabled ctx = false) {ts : List MTree} (hc : Collects env.lower ctx input (r.effectivePatterns ctx) ts)
    (ho : OrdinaryFound (rootsOf false ts)) :
    ∃ f, r.matches_ env input ctx = .ok f ∧
      f.found.delegate.map content =
        ((rootsOf false ts).filter (fun m => decide (m.priv = false ∧ ¬ LosesToLonger (rootsOf false ts) m))).map content ∧
      f.markers.delegate.map content = (rootsOf true ts).map content ∧ LookupsRight f.found ∧ LookupsRight f.markers := by
  obtain ⟨custom, order, hrule, hord⟩ := henv.rule
  obtain ⟨f, h1, h2, h3, h4, h5⟩ := searchPatterns_collects hc (gathering_empty input (r.effectiveKeys ctx))
  have h4 : f.found.delegate.map content = (rootsOf false ts).map content := h4
  have h5 : f.markers.delegate.map content = (rootsOf true ts).map content := h5
  have hord' := ordinary_of_found h4 (List.nodup_append.1 h2.nodup).1 ho
  obtain ⟨s1, g1, g2, g3, g4⟩ := C67_equal_matches custom h2.foundTidy hord' order hord ⟨0, 0⟩
  have hsep : ∀ p ∈ s1.delegate, ∀ q ∈ s1.delegate, p.priv = true → q.priv = false → q.eqv p = false := by
    intro p hp q hq hpp hqp
    rw [g4] at hp hq
    cases he : q.eqv p with
    | false => rfl
    | true =>
      have := hord'.equalAlike q (List.mem_filter.1 hq).1 p (List.mem_filter.1 hp).1 he
      rw [hpp, hqp] at this; cases this
  obtain ⟨s2, k1, k2, k3, k4, k5⟩ := C70_lookups g2 hsep ⟨0, 0⟩
  refine ⟨{ f with found := s2 }, ?_, ?_, h5, k3, exact_lookups h2.markersTidy.exact_⟩
  · rw [C73_then_rules]
    have hw : (withoutRules r).matches_ env input ctx = .ok f := by
      obtain ⟨e1, e2, e3⟩ := withoutRules_effective r ctx
      have hd' : (withoutRules r).disabled ctx = false := hd
      unfold RebulkObj.matches_ RebulkObj.matchesPatterns RebulkObj.executeRules RebulkObj.checkFound
      simp only [hd', e1, e2, e3, henv.unchecked, h1, Bool.not_false, if_true, Bool.false_eq_true, if_false]
      rfl
    rw [hw]
    simp only
    refine default_execute hrule henv.truthy hr ctx hd f (s1 := s1) (fun x => ?_) (fun x => ?_)
    · exact ranFine_ref g1 x
    · exact ranFine_ref k1 x
  · show s2.delegate.map content = _
    rw [k5, g4, List.filter_filter]
    have e1 : (fun m : Match => !m.priv && decide (¬ LosesToLonger f.found.delegate m)) =
        fun m => (fun x => !x.priv && decide (¬ LosesToLonger (f.found.delegate.map content) x)) (content m) := by
      funext m
      simp only [loses_content f.found.delegate m]
      rfl
    have e2 : (fun m : Match => decide (m.priv = false ∧ ¬ LosesToLonger (rootsOf false ts) m)) =
        fun m => (fun x => !x.priv && decide (¬ LosesToLonger ((rootsOf false ts).map content) x)) (content m) := by
      funext m
      simp only [loses_content (rootsOf false ts) m, Bool.decide_and]
      show (decide (m.priv = false) && _) = (!m.priv && _)
      cases m.priv <;> simp
    rw [e1, e2]
    have e3 := filter_content (fun x => !x.priv && decide (¬ LosesToLonger (f.found.delegate.map content) x)) f.found.delegate
    have e4 := filter_content (fun x => !x.priv && decide (¬ LosesToLonger ((rootsOf false ts).map content) x)) (rootsOf false ts)
    rw [e3, e4, h4]

theorem withoutRules_found {env : Env ρ} (hk : env.checkKeys = false) {r : RebulkObj Ctx} {input : Str} {ctx : Ctx} (hd : r.disabled ctx = false) {f : Found}
    (h : searchPatterns env.lower ctx input (r.effectivePatterns ctx) { Found.empty input with keys := r.effectiveKeys ctx } = .ok f) :
    (withoutRules r).matches_ env input ctx = .ok f := by
  obtain ⟨e1, e2, e3⟩ := withoutRules_effective r ctx
  have hd' : (withoutRules r).disabled ctx = false := hd
  unfold RebulkObj.matches_ RebulkObj.matchesPatterns RebulkObj.executeRules RebulkObj.checkFound
  simp only [hd', e1, e2, e3, hk, h, Bool.not_false, if_true, Bool.false_eq_true, if_false]
  rfl

theorem noEqual_content {l l' : List Match} (h : l'.map content = l.map content) (hn : NoEqual l) : NoEqual l' := by
  have h1 : (l.map content).Pairwise (fun a b => a.eqv b = false) := by
    rw [List.pairwise_map]; exact hn
  rw [← h, List.pairwise_map] at h1
  exact h1

/-- **C74**: with the default rules only, when no two matches found are equal, parents being allowed: the longest public matches are kept. -/
theorem C74_distinct {env : Env (List Match)} (henv : DefaultEnv env) {r : RebulkObj Ctx} (hr : DefaultRulesOnly r) (input : Str) (ctx : Ctx)
    (hd : r.disabled ctx = false) {ts : List MTree} (hc : Collects env.lower ctx input (r.effectivePatterns ctx) ts)
    (ho : DistinctFound (rootsOf false ts)) :
    ∃ f kept, r.matches_ env input ctx = .ok f ∧ LongestKept (rootsOf false ts) kept ∧ f.found.delegate.map content = kept.map content ∧
      f.markers.delegate.map content = (rootsOf true ts).map content ∧ LookupsRight f.found ∧ LookupsRight f.markers := by
  obtain ⟨custom, order, hrule, hord⟩ := henv.rule
  obtain ⟨f, h1, h2, h3, h4, h5⟩ := searchPatterns_collects hc (gathering_empty input (r.effectiveKeys ctx))
  have h4 : f.found.delegate.map content = (rootsOf false ts).map content := h4
  have h5 : f.markers.delegate.map content = (rootsOf true ts).map content := h5
  have hno : NoEqual f.found.delegate := noEqual_content h4 ho.noEqual
  have hclean : Clean f.found := ⟨h2.foundTidy.inv, h2.foundTidy.exact_, hno⟩
  have hdm : DistinctMatches f.found.delegate := by
    refine ⟨hno, (List.nodup_append.1 h2.nodup).1, ?_⟩
    intro m hm hp
    obtain ⟨x, hx, he⟩ := content_mem h4 hm
    rw [← content_start he, ← content_stop he]; exact ho.nonEmpty x hx ((content_priv he).trans hp)
  have hpl : Plain f.found.delegate := by
    refine ⟨?_, ?_⟩
    · intro m hm hp
      obtain ⟨x, hx, he⟩ := content_mem h4 hm
      rw [← content_solver he]; exact ho.noSolver x hx ((content_priv he).trans hp)
    · intro m hm hp
      obtain ⟨x, hx, he⟩ := content_mem h4 hm
      rw [← content_initLen he]; exact ho.initLen x hx ((content_priv he).trans hp)
  obtain ⟨s1, g1, g2, g3, g4⟩ := C67 custom hclean hdm hpl order hord ⟨0, 0⟩
  obtain ⟨s1', g1', _, g5⟩ := C66 custom hclean hdm hpl order hord ⟨0, 0⟩
  have hs : s1' = s1 := g1'.state.symm.trans g1.state
  rw [hs] at g5
  have hsep : ∀ p ∈ s1.delegate, ∀ q ∈ s1.delegate, p.priv = true → q.priv = false → q.eqv p = false := by
    intro p hp q hq hpp hqp
    cases he : q.eqv p with
    | false => rfl
    | true =>
      have := noEqual_eq g2.noEqual hq hp he
      subst this
      rw [hpp] at hqp; cases hqp
  obtain ⟨s2, k1, k2, k3, k4, k5⟩ := C70_lookups g2.tidy hsep ⟨0, 0⟩
  have hsub : s2.delegate.Sublist f.found.delegate := by rw [k5]; exact List.filter_sublist.trans g3
  have hsub' : (s2.delegate.map content).Sublist ((rootsOf false ts).map content) := by rw [← h4]; exact hsub.map content
  obtain ⟨kept, q1, q2⟩ := List.sublist_map_iff.1 hsub'
  have hmem : ∀ x ∈ kept, ∃ m ∈ s2.delegate, content m = content x := fun x hx => content_mem q2.symm hx
  have hmem2 : ∀ m ∈ s2.delegate, m ∈ s1.delegate ∧ m.priv = false := by
    intro m hm
    rw [k5] at hm
    exact ⟨(List.mem_filter.1 hm).1, by simpa using (List.mem_filter.1 hm).2⟩
  refine ⟨{ f with found := s2 }, kept, ?_, ⟨q1, ?_, ?_, ?_⟩, q2, h5, k3, exact_lookups h2.markersTidy.exact_⟩
  · rw [C73_then_rules, withoutRules_found henv.unchecked hd h1]
    exact default_execute hrule henv.truthy hr ctx hd f (s1 := s1) (fun x => ranFine_ref g1 x) (fun x => ranFine_ref k1 x)
  · intro x hx
    obtain ⟨m, hm, he⟩ := hmem x hx
    rw [← content_priv he]; exact (hmem2 m hm).2
  · intro a ha b hb hov
    obtain ⟨m, hm, hma⟩ := hmem a ha
    obtain ⟨m', hm', hmb⟩ := hmem b hb
    by_cases hmm : m = m'
    · subst hmm
      rw [← content_initLen hma, ← content_initLen hmb]
    · rw [← content_initLen hma, ← content_initLen hmb]
      exact g5 m (hmem2 m hm).1 m' (hmem2 m' hm').1 (hmem2 m hm).2 (hmem2 m' hm').2 hmm (content_overlap hma.symm hmb.symm hov)
  · intro x hx hnk hp
    obtain ⟨m, hm, he⟩ := content_mem h4.symm hx
    have hnm : m ∉ s1.delegate := by
      intro hin
      have : m ∈ s2.delegate := by rw [k5]; exact List.mem_filter.2 ⟨hin, by rw [content_priv he, hp]; rfl⟩
      obtain ⟨y, hy, hym⟩ := content_mem q2 this
      have hxy : y = x := noEqual_eq ho.noEqual (q1.subset hy) hx (by
        rw [content_eqv_congr (hym.trans he) rfl]; exact Match.eqv_refl x)
      subst hxy; exact hnk hy
    obtain ⟨_, c, r1, r2, r3, r4⟩ := g4 m hm hnm
    obtain ⟨c', hc', hcc⟩ := content_mem h4 r1
    exact ⟨c', hc', (content_priv hcc).trans r2, content_overlap he hcc.symm r3, by rw [← content_initLen he, content_initLen hcc]; exact r4⟩

/-- A rebulk with its default rules and a child with them too. -/
def exRebulk (own child : List (PatternObj Unit)) : RebulkObj Unit :=
  { patterns := own, rules := [conflictSolverRule 0, privateRemoverRule 1],
    children := [{ patterns := child, rules := [conflictSolverRule 2, privateRemoverRule 3] }] }

theorem exEnv_default : DefaultEnv exEnv := ⟨⟨_, _, rfl, fun _ => List.Perm.refl _⟩, rfl, rfl⟩

theorem exRebulk_default (own child : List (PatternObj Unit)) : DefaultRulesOnly (exRebulk own child) :=
  ⟨⟨0, 1, rfl⟩, by
    intro c hc x hx
    simp only [exRebulk, List.mem_singleton] at hc; subst hc
    rcases List.mem_cons.1 hx with rfl | hx
    · left; rfl
    · rw [List.mem_singleton] at hx; subst hx; right; rfl⟩

/-- The hypotheses are met: two patterns finding equal matches, a longer one, a private one and a marker. -/
example : let r := exRebulk [exPattern 1 {} ["ab"], exPattern 2 {} ["ab"], exPattern 3 { priv := true } ["c"]] [exPattern 4 {} ["bcd", "f"], exPattern 5 { marker := true } ["e"]]
    ∃ ts, Collects exEnv.lower () "abcdef".toList (r.effectivePatterns ()) ts ∧ OrdinaryFound (rootsOf false ts) ∧
    ∃ f, r.matches_ exEnv "abcdef".toList () = .ok f ∧ f.found.delegate.map Match.span = [(1, 4), (5, 6)] ∧ f.markers.delegate.map Match.span = [(4, 5)] :=
  ⟨_, .enabled rfl rfl (.enabled rfl rfl (.enabled rfl rfl (.enabled rfl rfl (.enabled rfl rfl .nil)))),
    ⟨by decide, by decide, by decide, by decide⟩, _, rfl, by decide, by decide⟩

/-- Same for the other theorem: the child of a longer match beats a match longer than the child itself. -/
example : let r := exRebulk [exPattern 1 {} ["ab"]] [exPattern 4 {} ["bcd", "f"], exPattern 5 { marker := true } ["e"]]
    ∃ ts, Collects exEnv.lower () "abcdef".toList (r.effectivePatterns ()) ts ∧ DistinctFound (rootsOf false ts) ∧
    ∃ f, r.matches_ exEnv "abcdef".toList () = .ok f ∧ f.found.delegate.map Match.span = [(1, 4), (5, 6)] :=
  ⟨_, .enabled rfl rfl (.enabled rfl rfl (.enabled rfl rfl .nil)),
    ⟨by unfold NoEqual; decide, by decide, by decide, by decide⟩, _, rfl, by decide⟩

/-- **C74** fails when a private and a public match are equal: two overlapping public matches of different lengths can be left. -/
theorem C74_equal_refuted : ∃ (r : RebulkObj Unit) (input : Str) (f : Found), DefaultRulesOnly r ∧ r.matches_ exEnv input () = .ok f ∧
    ∃ a b, f.found.delegate = [a, b] ∧ a.priv = false ∧ b.priv = false ∧ Overlap a b ∧ a.initLen ≠ b.initLen :=
  ⟨exRebulk [exPattern 1 { priv := true } ["ab"], exPattern 2 {} ["ab"], exPattern 3 { priv := true } ["abcde"], exPattern 4 {} ["abcde"]] [],
    "abcde".toList, _, exRebulk_default _ _, rfl, _, _, rfl, by decide, by decide, ⟨0, by unfold Covers; decide, by unfold Covers; decide⟩, by decide⟩

end Rebulk
