import Verif.Lemmas.Rebulk
/-!
# The `Rebulk` object: composition, disabling, collecting (`C71`–`C73`)
-/
namespace Rebulk
open Spec
variable {Ctx ρ : Type}

/-! ## `C71` -/

/-- **C71**, patterns: the rebulk's own patterns, then the new ones of its enabled direct children. -/
theorem C71_patterns (r : RebulkObj Ctx) (ctx : Ctx) : ∃ news, r.effectivePatterns ctx = r.patterns ++ news ∧
    NewOnes PatternObj.id r.patterns ((enabledChildren r ctx).flatMap (fun c => c.patterns)) news :=
  ⟨_, addPatterns_spec ctx r.children r.patterns, newOnes_distinctFrom PatternObj.id samePattern
    (fun a b => by unfold samePattern; exact Bool.eq_iff_iff.2 (by simp)) _ _⟩

/-- **C71**, rules: the same, a rule being new when there is none of its class. -/
theorem C71_rules (r : RebulkObj Ctx) (ctx : Ctx) : ∃ news, r.effectiveRules ctx = r.rules ++ news ∧
    NewOnes (fun x => x.info.cls) r.rules ((enabledChildren r ctx).flatMap (fun c => c.rules)) news :=
  ⟨_, addRules_spec ctx r.children r.rules, newOnes_distinctFrom (fun x : RuleObj => x.info.cls) sameRule
    (fun a b => by unfold sameRule; exact Bool.eq_iff_iff.2 (by simp)) _ _⟩

/-- The two theorems above say which patterns and rules they are: there is one list of new ones. -/
theorem C71_determined {α κ : Type} [DecidableEq κ] {key : α → κ} {own added n1 n2 : List α} (h1 : NewOnes key own added n1)
    (h2 : NewOnes key own added n2) : n1 = n2 := newOnes_unique h1 h2

/-- **C71**, keys: the parent's declaration wins, then the one of the earliest enabled child. -/
theorem C71_keys (r : RebulkObj Ctx) (ctx : Ctx) (n : String) :
    (r.effectiveKeys ctx).get? n = (r :: enabledChildren r ctx).findSome? (fun x => x.keys.get? n) := by
  unfold RebulkObj.effectiveKeys enabledChildren
  rw [addKeys_get, List.findSome?_cons]
  cases Dict.get? r.keys n <;> rfl

/-- **C71**: each pattern once, and each rule class once, if the rebulk itself has no double. -/
theorem C71_once (r : RebulkObj Ctx) (ctx : Ctx) :
    ((r.patterns.map PatternObj.id).Nodup → ((r.effectivePatterns ctx).map PatternObj.id).Nodup) ∧
    ((r.rules.map (fun x => x.info.cls)).Nodup → ((r.effectiveRules ctx).map (fun x => x.info.cls)).Nodup) := by
  obtain ⟨n1, h1, h2⟩ := C71_patterns r ctx
  obtain ⟨n2, g1, g2⟩ := C71_rules r ctx
  exact ⟨fun h => by rw [h1]; exact newOnes_append_nodup h2 h, fun h => by rw [g1]; exact newOnes_append_nodup g2 h⟩

/-- A pattern for the examples. -/
def exPattern (id : Nat) (o : MatchOpts) (strings : List String) (off : Bool := false) : PatternObj Unit :=
  .string { disabled := fun _ => off } (Pattern.init id { opts := o }) {} (strings.map String.toList)

/-- A shared pattern, a disabled child, a rule class present twice, keys declared twice. -/
example :
    let p1 := exPattern 1 {} ["a"]; let p2 := exPattern 2 {} ["b"]; let p3 := exPattern 3 {} ["c"]
    let c1 : RebulkObj Unit := { patterns := [p2, p1], rules := [conflictSolverRule 10], keys := [("x", { name := "x", valueType := 1 }), ("y", { name := "y", valueType := 2 })] }
    let c2 : RebulkObj Unit := { disabled := fun _ => true, patterns := [p3], keys := [("z", { name := "z", valueType := 5 })] }
    let c3 : RebulkObj Unit := { patterns := [p3, p2], rules := [privateRemoverRule 11], keys := [("y", { name := "y", valueType := 3 })] }
    let r : RebulkObj Unit := { patterns := [p1], rules := [conflictSolverRule 12], keys := [("x", { name := "x", valueType := 4 })], children := [c1, c2, c3] }
    (r.effectivePatterns ()).map PatternObj.id = [1, 2, 3] ∧ (r.effectiveRules ()).map (fun x => x.info.id) = [12, 11] ∧
    ["x", "y", "z"].map (fun n => ((r.effectiveKeys ()).get? n).map (fun k => k.valueType)) = [some 4, some 2, none] := by decide

/-! ## `C72` -/

/-- **C72**: a disabled rebulk finds nothing; no pattern is searched, no rule is run, whatever they are. -/
theorem C72_rebulk (env : Env ρ) (r : RebulkObj Ctx) (input : Str) (ctx : Ctx) (h : r.disabled ctx = true) :
    r.matches_ env input ctx = .ok (Found.empty input) := by
  unfold RebulkObj.matches_ RebulkObj.matchesPatterns RebulkObj.executeRules RebulkObj.checkFound
  simp only [h, Bool.not_true, Bool.false_eq_true, if_false]
  have : checkDeclaredKeys env.isinstance (Found.empty input).keys (Found.empty input).found.delegate = none := rfl
  rw [this]
  simp

/-- **C72**: a disabled child contributes no pattern, no rule and no key: without it the result is the same. -/
theorem C72_child (env : Env ρ) (r : RebulkObj Ctx) (input : Str) (ctx : Ctx) (keep : RebulkObj Ctx → Bool)
    (h : ∀ c ∈ r.children, keep c = false → c.disabled ctx = true) :
    ({ r with children := r.children.filter keep } : RebulkObj Ctx).matches_ env input ctx = r.matches_ env input ctx := by
  have hf : (r.children.filter keep).filter (fun c => !c.disabled ctx) = r.children.filter (fun c => !c.disabled ctx) := by
    rw [List.filter_filter]
    refine List.filter_congr (fun c hc => ?_)
    cases hk : keep c with
    | true => simp
    | false => simp [h c hc hk]
  have h1 : ({ r with children := r.children.filter keep } : RebulkObj Ctx).effectivePatterns ctx = r.effectivePatterns ctx := by
    unfold RebulkObj.effectivePatterns; rw [addPatterns_spec, addPatterns_spec, hf]
  have h2 : ({ r with children := r.children.filter keep } : RebulkObj Ctx).effectiveRules ctx = r.effectiveRules ctx := by
    unfold RebulkObj.effectiveRules; rw [addRules_spec, addRules_spec, hf]
  have h3 : ({ r with children := r.children.filter keep } : RebulkObj Ctx).effectiveKeys ctx = r.effectiveKeys ctx := by
    unfold RebulkObj.effectiveKeys; exact addKeys_filter keep ctx r.children h r.keys
  unfold RebulkObj.matches_ RebulkObj.matchesPatterns RebulkObj.executeRules
  rw [h1, h2, h3]

/-- **C72**: disabled patterns can be taken away, from the rebulk and its children, without any effect. -/
theorem C72_pattern (env : Env ρ) (r : RebulkObj Ctx) (input : Str) (ctx : Ctx) (keep : PatternObj Ctx → Bool)
    (hobj : ∀ p ∈ allPatternsOf r, ∀ q ∈ allPatternsOf r, p.id = q.id → p = q)
    (h : ∀ p ∈ allPatternsOf r, keep p = false → p.info.disabled ctx = true) :
    (onlyPatterns keep r).matches_ env input ctx = r.matches_ env input ctx := by
  have h1 := effectivePatterns_only keep r ctx (fun p hp q hq he => by rw [hobj p hp q hq he])
  have h2 := effectiveRules_only keep r ctx
  have h3 : (onlyPatterns keep r).effectiveKeys ctx = r.effectiveKeys ctx := by
    unfold RebulkObj.effectiveKeys onlyPatterns
    exact addKeys_map (fun c => { c with patterns := c.patterns.filter keep }) (fun c => rfl) (fun c => rfl) ctx r.children r.keys
  have hsub : ∀ p ∈ r.effectivePatterns ctx, p ∈ allPatternsOf r := by
    intro p hp
    unfold RebulkObj.effectivePatterns at hp
    rw [addPatterns_spec] at hp
    rcases List.mem_append.1 hp with hp | hp
    · exact List.mem_append_left _ hp
    · obtain ⟨c, hc, hp⟩ := List.mem_flatMap.1 (distinctFrom_subset _ _ _ _ hp)
      exact List.mem_append_right _ (List.mem_flatMap.2 ⟨c, (List.mem_filter.1 hc).1, hp⟩)
  unfold RebulkObj.matches_ RebulkObj.matchesPatterns RebulkObj.executeRules
  have hs := fun f => searchPatterns_filter env.lower ctx input keep _ (fun p hp => h p (hsub p hp)) f
  have hd : (onlyPatterns keep r).disabled = r.disabled := rfl
  simp only [h1, h2, h3, hs, hd]

/-- A rebulk with a disabled pattern of its own and one of a child, and the environment of the default rules. -/
def exEnv : Env (List Match) :=
  { lower := fun s => s, isinstance := fun _ _ => true, truthy := listTruthy
    rule := defaultRule (.withDefault (fun _ _ _ => .ok .default)) (fun l => l) }

example :
    let p1 := exPattern 1 { name := some "p1" } ["ab"]; let p2 := exPattern 2 { name := some "p2" } ["b"] true
    let r : RebulkObj Unit := { patterns := [p2, p1], rules := [conflictSolverRule 0, privateRemoverRule 1], children := [{ patterns := [p1, p2] }] }
    (∀ p ∈ allPatternsOf r, ∀ q ∈ allPatternsOf r, p.id = q.id → p = q) ∧
    (∀ p ∈ allPatternsOf r, (fun p => p.id != 2) p = false → p.info.disabled () = true) ∧
    (∃ f, r.matches_ exEnv "xab".toList () = .ok f ∧ f.found.delegate.map Match.span = [(1, 3)]) := by
  refine ⟨?_, ?_, _, rfl, by decide⟩
  · intro p hp q hq
    simp only [allPatternsOf, List.flatMap_cons, List.flatMap_nil, List.append_nil, List.cons_append, List.nil_append, List.mem_cons, List.not_mem_nil, or_false] at hp hq
    rcases hp with rfl | rfl | rfl | rfl <;> rcases hq with rfl | rfl | rfl | rfl <;> intro h <;> first | rfl | (exfalso; revert h; decide)
  · intro p hp
    simp only [allPatternsOf, List.flatMap_cons, List.flatMap_nil, List.append_nil, List.cons_append, List.nil_append, List.mem_cons, List.not_mem_nil, or_false] at hp
    rcases hp with rfl | rfl | rfl | rfl <;> intro h <;> first | rfl | (exfalso; revert h; decide)

/-! ## `C73` -/

theorem withoutRules_effective (r : RebulkObj Ctx) (ctx : Ctx) :
    (withoutRules r).effectivePatterns ctx = r.effectivePatterns ctx ∧ (withoutRules r).effectiveRules ctx = [] ∧
    (withoutRules r).effectiveKeys ctx = r.effectiveKeys ctx := by
  refine ⟨?_, ?_, ?_⟩
  · unfold RebulkObj.effectivePatterns
    rw [addPatterns_spec, addPatterns_spec]
    unfold withoutRules
    simp only
    rw [filter_disabled_map (fun c => { c with rules := [] }) (fun c => rfl) ctx (fun c => c.patterns) (fun c => c.patterns) (fun c => rfl)]
  · unfold RebulkObj.effectiveRules
    rw [addRules_spec]
    unfold withoutRules
    simp only
    rw [filter_disabled_map (fun c => { c with rules := [] }) (fun c => rfl) ctx (fun c => c.rules) (fun _ => []) (fun c => rfl)]
    have : ∀ l : List (RebulkObj Ctx), l.flatMap (fun _ => ([] : List RuleObj)) = [] := fun l => by simp
    rw [this]; rfl
  · unfold RebulkObj.effectiveKeys withoutRules
    exact addKeys_map (fun c => { c with rules := [] }) (fun c => rfl) (fun c => rfl) ctx r.children r.keys

theorem executeAll_nil (truthy : ρ → Bool) (beh : RuleRef → Behaviour Found ρ) (f : Found) : executeAll truthy beh [] f = { state := f } := rfl

/-- **C73**: without rules the result holds, in the order of the patterns, the matches that are not markers, and apart the markers; lookups are right on
both, and both know the input. -/
theorem C73_collects (env : Env ρ) (hk : env.checkKeys = false) (r : RebulkObj Ctx) (input : Str) (ctx : Ctx) (hd : r.disabled ctx = false)
    {ts : List MTree} (hc : Collects env.lower ctx input (r.effectivePatterns ctx) ts) :
    ∃ f, (withoutRules r).matches_ env input ctx = .ok f ∧ HoldsFound ts f ∧ LookupsRight f.found ∧ LookupsRight f.markers ∧
      f.keys = r.effectiveKeys ctx ∧ f.found.inputString = some input ∧ f.markers.inputString = some input ∧
      f.found.isMarkers = false ∧ f.markers.isMarkers = true := by
  obtain ⟨e1, e2, e3⟩ := withoutRules_effective r ctx
  obtain ⟨f, h1, h2, h3, h4, h5⟩ := searchPatterns_collects hc (gathering_empty input (r.effectiveKeys ctx))
  obtain ⟨i1, i2⟩ := searchPatterns_input _ h1
  refine ⟨f, ?_, ⟨h4, h5, h2.nodup⟩, exact_lookups h2.foundTidy.exact_, exact_lookups h2.markersTidy.exact_, h3, i1, i2, h2.foundKind, h2.markersKind⟩
  have hd' : (withoutRules r).disabled ctx = false := hd
  unfold RebulkObj.matches_ RebulkObj.matchesPatterns RebulkObj.executeRules RebulkObj.checkFound
  simp only [hd', e1, e2, e3, hk, h1, Bool.not_false, if_true, Bool.false_eq_true, if_false]
  rfl

/-- **C73**: when a pattern raises, the first such exception goes through. -/
theorem C73_raises (env : Env ρ) (r : RebulkObj Ctx) (input : Str) (ctx : Ctx) (hd : r.disabled ctx = false)
    {e : PyErr} (hc : RaisesFirst env.lower ctx input e (r.effectivePatterns ctx)) : r.matches_ env input ctx = .error e := by
  have h := searchPatterns_raises hc (gathering_empty input (r.effectiveKeys ctx))
  unfold RebulkObj.matches_ RebulkObj.matchesPatterns
  simp only [hd, h, Bool.not_false, if_true]

/-- One of the two theorems above applies. -/
theorem C73_total (lower : Str → Str) (ctx : Ctx) (input : Str) (ps : List (PatternObj Ctx)) :
    (∃ ts, Collects lower ctx input ps ts) ∨ ∃ e, RaisesFirst lower ctx input e ps := collects_or_raises lower ctx input ps

/-- **C73**: the rules run on what is collected, and see nothing else. -/
theorem C73_then_rules (env : Env ρ) (r : RebulkObj Ctx) (input : Str) (ctx : Ctx) :
    r.matches_ env input ctx = (match (withoutRules r).matches_ env input ctx with
      | .error e => .error e
      | .ok f => r.executeRules env ctx f) := by
  obtain ⟨e1, e2, e3⟩ := withoutRules_effective r ctx
  have hd : (withoutRules r).disabled = r.disabled := rfl
  unfold RebulkObj.matches_
  have hm : ∀ f, (withoutRules r).matchesPatterns env input ctx f = r.matchesPatterns env input ctx f := by
    intro f; unfold RebulkObj.matchesPatterns; rw [e1, hd]
  have hx : ∀ f, (withoutRules r).executeRules env ctx f = .ok f := by
    intro f; unfold RebulkObj.executeRules; rw [e2, hd]; simp only [List.map_nil, executeAll_nil]; split <;> rfl
  simp only [hm, hx, hd, e3]
  generalize r.matchesPatterns env input ctx _ = x
  cases x with
  | error e => rfl
  | ok f =>
    simp only
    cases RebulkObj.checkFound env f <;> rfl

/-- Two patterns, one giving markers, one disabled. -/
example :
    let r : RebulkObj Unit := { patterns := [exPattern 1 { marker := true } ["[", "]"], exPattern 2 {} ["x"] true], children := [{ patterns := [exPattern 3 { name := some "w" } ["ab"]] }] }
    ∃ ts f, Collects exEnv.lower () "[ab]ab".toList (r.effectivePatterns ()) ts ∧ (withoutRules r).matches_ exEnv "[ab]ab".toList () = .ok f ∧
      f.found.delegate.map Match.span = [(1, 3), (4, 6)] ∧ f.markers.delegate.map Match.span = [(0, 1), (3, 4)] :=
  ⟨_, _, .enabled rfl rfl (.disabled rfl (.enabled rfl rfl .nil)), rfl, by decide, by decide⟩

end Rebulk
