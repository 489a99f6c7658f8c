import Verif.Spec.RulesObjects
import Verif.Props.Rules
/-!
# Dependencies given as rule objects: C57, C58
-/
namespace Rebulk
open Spec

/-! ## Sorting and grouping of transformed rules -/

theorem insertSorted_map {α : Type} (lt : α → α → Bool) (f : α → α) (hf : ∀ a b, lt (f a) (f b) = lt a b) (x : α) :
    ∀ l : List α, insertSorted lt (f x) (l.map f) = (insertSorted lt x l).map f
  | [] => rfl
  | y :: l => by
    simp only [List.map_cons, insertSorted, hf]
    split
    · simp [insertSorted_map lt f hf x l]
    · simp

theorem pySorted_map {α : Type} (lt : α → α → Bool) (f : α → α) (hf : ∀ a b, lt (f a) (f b) = lt a b) :
    ∀ l : List α, pySorted lt (l.map f) = (pySorted lt l).map f
  | [] => rfl
  | x :: l => by
    simp only [List.map_cons, pySorted]
    rw [pySorted_map lt f hf l, insertSorted_map lt f hf]

/-- A group with its members transformed. -/
def mapGroup {α κ : Type} (f : α → α) (kg : κ × List α) : κ × List α := (kg.1, kg.2.map f)

theorem groupCons_map {α κ : Type} [BEq κ] (key : α → κ) (f : α → α) (hf : ∀ a, key (f a) = key a) (x : α) :
    ∀ gs : List (κ × List α), groupCons key (f x) (gs.map (mapGroup f)) = (groupCons key x gs).map (mapGroup f)
  | [] => by simp [groupCons, mapGroup, hf]
  | kg :: gs => by
    obtain ⟨k, g⟩ := kg
    simp only [List.map_cons, mapGroup, groupCons, hf]
    split <;> simp [mapGroup]

theorem groupBy_map {α κ : Type} [BEq κ] (key : α → κ) (f : α → α) (hf : ∀ a, key (f a) = key a) :
    ∀ l : List α, groupBy key (l.map f) = (groupBy key l).map (mapGroup f)
  | [] => rfl
  | x :: l => by
    simp only [List.map_cons, groupBy]
    rw [groupBy_map key f hf l, groupCons_map key f hf]

/-! ## The graph -/

theorem classDict_map (f : RuleInfo → RuleInfo) (hf : ∀ r, (f r).ref = r.ref) : ∀ (rs : List RuleInfo) (d : Dict Nat RuleRef),
    classDict (rs.map f) d = classDict rs d
  | [], _ => rfl
  | r :: rs, d => by
    have hc : (f r).cls = r.cls := congrArg RuleRef.cls (hf r)
    simp only [List.map_cons, classDict, hc, hf]
    rw [classDict_map f hf rs]

theorem ruleIndex_map (f : RuleInfo → RuleInfo) (hf : ∀ r, (f r).ref = r.ref) (all : List RuleInfo) (x : RuleRef) :
    ruleIndex (all.map f) x = ruleIndex all x := by
  unfold ruleIndex
  rw [List.findIdx?_map]
  congr 1
  funext r
  have hc : (f r).cls = r.cls := congrArg RuleRef.cls (hf r)
  simp [Function.comp, hc]

theorem orderGroups_map (f : RuleInfo → RuleInfo) (hf : ∀ r, (f r).ref = r.ref) (all : List RuleInfo) (e : Option PyErr) :
    ∀ gs : List (List RuleRef), orderGroups (all.map f) e gs = orderGroups all e gs
  | [] => rfl
  | g :: gs => by
    have hi : ruleIndex (all.map f) = ruleIndex all := funext (ruleIndex_map f hf all)
    have hg : orderGroup (all.map f) g = orderGroup all g := by
      unfold orderGroup; rw [hi]
    simp only [orderGroups, hg, orderGroups_map f hf all e gs]

theorem foldl_depStep_classes (d : Dict Nat RuleRef) (g : DepItem → DepItem) : ∀ (items : List DepItem) (acc acc' : List RuleRef),
    (∀ it ∈ items, (it.resolve d).map (fun r => r.cls) = ((g it).resolve d).map (fun r => r.cls)) →
    acc.map (fun r => r.cls) = acc'.map (fun r => r.cls) →
    (items.foldl (depStep d) acc).map (fun r => r.cls) = ((items.map g).foldl (depStep d) acc').map (fun r => r.cls)
  | [], acc, acc', _, h => h
  | it :: items, acc, acc', hg, h => by
    rw [List.map_cons, List.foldl_cons, List.foldl_cons]
    refine foldl_depStep_classes d g items _ _ (fun x hx => hg x (by simp [hx])) ?_
    have h0 := hg it (by simp)
    unfold depStep
    cases h1 : it.resolve d with
    | none =>
      rw [h1] at h0
      cases h2 : (g it).resolve d with
      | none => simpa using h
      | some y => rw [h2] at h0; cases h0
    | some x =>
      rw [h1] at h0
      cases h2 : (g it).resolve d with
      | none => rw [h2] at h0; cases h0
      | some y =>
        rw [h2] at h0
        have hxy : x.cls = y.cls := by simpa using h0
        have hany : ∀ (l : List RuleRef) (c : Nat), l.any (fun z => z.cls == c) = (l.map (fun r => r.cls)).any (fun z => z == c) := by
          intro l c; rw [List.any_map]; rfl
        simp only [addRef]
        rw [hany acc, hany acc', h, hxy]
        split
        · exact h
        · simp [h, hxy]

/-- Two graphs with the same keys and the same classes of dependencies, which are classes of keys, are sorted alike. -/
theorem ruleGroups_alike {g g' : List (RuleRef × List RuleRef)} (hk : g.map (fun kv => kv.1) = g'.map (fun kv => kv.1))
    (hc : classGraph g = classGraph g') (hd : ∀ kv ∈ g, ∀ x ∈ kv.2, ∃ y ∈ g.map (fun kv => kv.1), y.cls = x.cls)
    (hd' : ∀ kv ∈ g', ∀ x ∈ kv.2, ∃ y ∈ g'.map (fun kv => kv.1), y.cls = x.cls) : ruleGroups g = ruleGroups g' := by
  have key : ∀ (h : List (RuleRef × List RuleRef)), (∀ kv ∈ h, ∀ x ∈ kv.2, ∃ y ∈ h.map (fun kv => kv.1), y.cls = x.cls) → ∀ c,
      instanceOf h c = ((h.map (fun kv => kv.1)).find? (fun r => r.cls == c)).getD ⟨0, c⟩ := by
    intro h hh c
    unfold instanceOf
    rw [List.find?_append]
    cases hf : (h.map (fun kv => kv.1)).find? (fun r => r.cls == c) with
    | some y => rfl
    | none =>
      have : (h.flatMap (fun kv => kv.2)).find? (fun r => r.cls == c) = none := by
        rw [List.find?_eq_none] at hf ⊢
        intro x hx hxc
        obtain ⟨kv, hkv, hx⟩ := List.mem_flatMap.1 hx
        obtain ⟨y, hy, hyc⟩ := hh kv hkv x hx
        exact hf y hy (by rw [hyc]; exact hxc)
      rw [this]
      rfl
  have hi : instanceOf g = instanceOf g' := by
    funext c
    rw [key g hd c, key g' hd' c, hk]
  unfold ruleGroups
  rw [hc, hi]

theorem withClasses_ref (r : RuleInfo) : (withClasses r).ref = r.ref := rfl

theorem withClasses_dependencies (r : RuleInfo) : (withClasses r).dependencies = r.dependencies.map classOf := by
  unfold withClasses RuleInfo.dependencies
  cases r.dependency with
  | none => rfl
  | one d => rfl
  | many l => rfl

theorem resolve_classOf {rs : List RuleInfo} {d : Dict Nat RuleRef} (hd : classDict rs [] = .ok d) (it : DepItem)
    (h : ∀ x, it = .inst x → ∃ r ∈ rs, r.cls = x.cls) :
    (it.resolve d).map (fun r => r.cls) = ((classOf it).resolve d).map (fun r => r.cls) := by
  cases it with
  | cls c => rfl
  | inst x =>
    obtain ⟨r, hr, hrc⟩ := h x rfl
    obtain ⟨_, _, h3⟩ := classDict_ok rs [] d hd
    simp only [classOf, DepItem.resolve]
    rw [h3]
    obtain ⟨r', hf⟩ := find_class (c := x.cls) (List.mem_map.2 ⟨r, hr, hrc⟩)
    rw [hf]
    simp [RuleInfo.ref, (mem_find_class hf).2]

/-- The dependencies of the graph are classes of registered rules. -/
theorem dependencySet_registered {rs : List RuleInfo} {d : Dict Nat RuleRef} (hd : classDict rs [] = .ok d) (items : List DepItem)
    (h : ∀ x, DepItem.inst x ∈ items → ∃ r ∈ rs, r.cls = x.cls) (y : RuleRef) (hy : y ∈ dependencySet d items) : ∃ r ∈ rs, r.cls = y.cls := by
  obtain ⟨_, _, h3⟩ := classDict_ok rs [] d hd
  have hm : y.cls ∈ (dependencySet d items).map (fun r => r.cls) := List.mem_map.2 ⟨y, hy, rfl⟩
  unfold dependencySet at hm
  rw [dependencySet_classes] at hm
  rcases hm with hm | ⟨it, hit, x, hx, hxc⟩
  · cases hm
  · cases it with
    | inst z =>
      simp only [DepItem.resolve, Option.some.injEq] at hx
      subst hx
      rw [← hxc]
      exact h z hit
    | cls c =>
      simp only [DepItem.resolve] at hx
      rw [h3] at hx
      cases hf : rs.find? (fun r => r.cls == c) with
      | none => rw [hf] at hx; cases hx
      | some r =>
        rw [hf] at hx
        simp only [Option.some.injEq] at hx
        refine ⟨r, (mem_find_class hf).1, ?_⟩
        rw [← hxc, ← hx]
        rfl

theorem schedulePriority_withClasses (all rs : List RuleInfo) (h : ∀ r ∈ rs, ∀ x, Asks r.dependency (.inst x) → ∃ r' ∈ rs, r'.cls = x.cls) :
    schedulePriority (all.map withClasses) (rs.map withClasses) = schedulePriority all rs := by
  unfold schedulePriority rulesGraph
  rw [classDict_map withClasses withClasses_ref]
  cases hd : classDict rs [] with
  | error e => rfl
  | ok d =>
    simp only []
    rw [List.map_map, orderGroups_map withClasses withClasses_ref]
    have hitems : ∀ r ∈ rs, ∀ it ∈ r.dependencies, ∀ x, it = .inst x → ∃ r' ∈ rs, r'.cls = x.cls := by
      intro r hr it hit x hx
      subst hx
      exact h r hr x (mem_dependencies.1 hit)
    have hg : ruleGroups (rs.map ((fun r => (r.ref, dependencySet d r.dependencies)) ∘ withClasses)) =
        ruleGroups (rs.map (fun r => (r.ref, dependencySet d r.dependencies))) := by
      apply ruleGroups_alike
      · rw [List.map_map, List.map_map]
        apply List.map_congr_left
        intro r _
        rfl
      · unfold classGraph
        rw [List.map_map, List.map_map]
        apply List.map_congr_left
        intro r hr
        simp only [Function.comp]
        rw [withClasses_dependencies]
        refine Prod.ext rfl ?_
        exact (foldl_depStep_classes d classOf r.dependencies [] [] (fun it hit => resolve_classOf hd it (hitems r hr it hit)) rfl).symm
      · intro kv hkv x hx
        obtain ⟨r, hr, rfl⟩ := List.mem_map.1 hkv
        simp only [Function.comp] at hx
        rw [withClasses_dependencies] at hx
        obtain ⟨r', hr', hc⟩ := dependencySet_registered hd _ (by
          intro z hz
          obtain ⟨it, _, he⟩ := List.mem_map.1 hz
          cases it <;> cases he) x hx
        refine ⟨r'.ref, ?_, hc⟩
        rw [List.map_map]
        exact List.mem_map.2 ⟨r', hr', rfl⟩
      · intro kv hkv x hx
        obtain ⟨r, hr, rfl⟩ := List.mem_map.1 hkv
        obtain ⟨r', hr', hc⟩ := dependencySet_registered hd _ (fun z hz => h r hr z (mem_dependencies.1 hz)) x hx
        refine ⟨r'.ref, ?_, hc⟩
        rw [List.map_map]
        exact List.mem_map.2 ⟨r', hr', rfl⟩
    rw [hg]

theorem schedulePriorities_withClasses (all : List RuleInfo) : ∀ gs : List (Int × List RuleInfo),
    (∀ kg ∈ gs, ∀ r ∈ kg.2, ∀ x, Asks r.dependency (.inst x) → ∃ r' ∈ kg.2, r'.cls = x.cls) →
    schedulePriorities (all.map withClasses) (gs.map (mapGroup withClasses)) = schedulePriorities all gs
  | [], _ => rfl
  | kg :: gs, h => by
    have ih := schedulePriorities_withClasses all gs (fun k hk => h k (by simp [hk]))
    simp only [List.map_cons, schedulePriorities, mapGroup]
    rw [schedulePriority_withClasses all kg.2 (h kg (by simp)), ← ih]

theorem withClasses_only (rules : List RuleInfo) : OnlyClasses (rules.map withClasses) := by
  intro r hr d hd
  obtain ⟨r, _, rfl⟩ := List.mem_map.1 hr
  rw [← mem_dependencies, withClasses_dependencies] at hd
  obtain ⟨it, _, rfl⟩ := List.mem_map.1 hd
  cases it <;> exact ⟨_, rfl⟩

section
variable {σ ρ : Type} (truthy : ρ → Bool) (beh : RuleRef → Behaviour σ ρ)

/-- **C57, C58.** A dependency on an object means a dependency on its class, when a rule of this class is registered at the same priority: the run is then the
one of the same rules with classes for dependencies, to which `C57_partial`, `C58_once`, `C58_returns`, `C58_duplicates`, `C58_cyclic`, `C59` and `C95`
apply. In particular it is the *registered* rule of this class that runs, once, not the object given as the dependency. -/
theorem C57_objects (rules : List RuleInfo) (h : ObjectsRegistered rules) (s : σ) :
    executeAll truthy beh rules s = executeAll truthy beh (rules.map withClasses) s ∧ OnlyClasses (rules.map withClasses) := by
  refine ⟨?_, withClasses_only rules⟩
  have : schedule (rules.map withClasses) = schedule rules := by
    unfold schedule
    rw [pySorted_map _ withClasses (fun _ _ => rfl), groupBy_map _ withClasses (fun _ => rfl)]
    refine schedulePriorities_withClasses rules _ ?_
    obtain ⟨_, hg2, _, _⟩ := priority_groups rules
    intro kg hkg r hr x hx
    have he := (hg2 kg hkg).2
    rw [he] at hr ⊢
    obtain ⟨hr, hp⟩ := mem_atPriority.1 hr
    obtain ⟨r', hr', hp', hc⟩ := h r hr x hx
    exact ⟨r', mem_atPriority.2 ⟨hr', by rw [hp', hp]⟩, hc⟩
  unfold executeAll
  rw [this]

end

/-- Rule 0 depends on a rule object of class 11; the rule registered for this class is another object. -/
def rulesObjects : List RuleInfo := [⟨0, 10, 5, .one (.inst ⟨7, 11⟩)⟩, ⟨1, 11, 5, .many [.cls 12, .inst ⟨2, 12⟩]⟩, ⟨2, 12, 5, .none⟩, ⟨3, 13, 0, .none⟩]

theorem rulesObjects_registered : ObjectsRegistered rulesObjects := by
  intro r hr x hx
  simp only [rulesObjects, List.mem_cons, List.not_mem_nil, or_false] at hr
  rcases hr with rfl | rfl | rfl | rfl
  · cases hx
    exact ⟨⟨1, 11, 5, .many [.cls 12, .inst ⟨2, 12⟩]⟩, by simp [rulesObjects], rfl, rfl⟩
  · rw [← mem_dependencies] at hx
    simp [RuleInfo.dependencies] at hx
    subst hx
    exact ⟨⟨2, 12, 5, .none⟩, by simp [rulesObjects], rfl, rfl⟩
  · cases hx
  · cases hx

example : ObjectsRegistered rulesObjects ∧ (executeAll (fun _ => true) recorder rulesObjects []).state = [2, 1, 0, 3] :=
  ⟨rulesObjects_registered, by decide⟩

/-! ## Objects that are not registered -/

theorem mem_extraItems {data : Deps Nat} {x y : Nat} (h : DependsOn data x y) (hy : ∀ kv ∈ data, kv.1 ≠ y) : y ∈ extraItems (discardSelf data) := by
  obtain ⟨hne, deps, hm, hd⟩ := h
  have hded : ∀ l : List Nat, y ∈ l → y ∈ dedup l := by
    intro l
    induction l with
    | nil => intro h; exact h
    | cons a l ih =>
      intro h
      by_cases ha : y = a
      · subst ha; simp [dedup]
      · simp only [dedup, List.mem_cons, List.mem_filter]
        refine Or.inr ⟨ih ?_, by simpa using ha⟩
        rcases List.mem_cons.1 h with h | h
        · exact absurd h ha
        · exact h
  unfold extraItems
  rw [List.mem_filter]
  constructor
  · apply hded
    refine List.mem_flatMap.2 ⟨_, List.mem_map.2 ⟨(x, deps), hm, rfl⟩, ?_⟩
    rw [List.mem_filter]
    exact ⟨hd, by simpa using fun e => hne e.symm⟩
  · simp only [decide_eq_true_eq]
    intro hk
    obtain ⟨kv, hkv, he⟩ := List.mem_map.1 hk
    obtain ⟨kv', hkv', rfl⟩ := List.mem_map.1 hkv
    exact hy kv' hkv' he

/-- A dependency that is no item comes in the first group. -/
theorem toposort_extra_first {fuel : Nat} {data : Deps Nat} {x y : Nat} {r : List (List Nat) × Option PyErr} (h : toposort fuel data = some r)
    (hd : DependsOn data x y) (hy : ∀ kv ∈ data, kv.1 ≠ y) : ∃ g rest, r.1 = g :: rest ∧ y ∈ g := by
  have hx := mem_extraItems hd hy
  unfold toposort at h
  rw [if_neg (by obtain ⟨_, deps, hm, _⟩ := hd; cases data with | nil => cases hm | cons a l => simp)] at h
  unfold topoFrom at h
  obtain ⟨a, ha, rfl⟩ := Option.map_eq_some_iff.1 h
  cases fuel with
  | zero => simp [topoLoop] at ha
  | succ n =>
    have hmem : y ∈ orderedItems (discardSelf data ++ (extraItems (discardSelf data)).map (fun d => (d, []))) := by
      unfold orderedItems
      refine List.mem_map.2 ⟨(y, []), ?_, rfl⟩
      rw [List.mem_filter]
      exact ⟨List.mem_append_right _ (List.mem_map.2 ⟨y, hx, rfl⟩), rfl⟩
    simp only [topoLoop] at ha
    rw [if_neg (by intro he; rw [List.isEmpty_iff] at he; rw [he] at hmem; cases hmem)] at ha
    obtain ⟨b, _, rfl⟩ := Option.map_eq_some_iff.1 ha
    exact ⟨_, _, rfl, hmem⟩

theorem schedulePriority_unregistered (all rs : List RuleInfo) (hn : (rs.map (fun r => r.cls)).Nodup) {r : RuleInfo} (hr : r ∈ rs) {x : RuleRef}
    (hx : Asks r.dependency (.inst x)) (hall : ∀ r' ∈ all, r'.cls ≠ x.cls) (hsub : ∀ r ∈ rs, r ∈ all) :
    schedulePriority all rs = ([], some .valueError) := by
  obtain ⟨d, hd⟩ := classDict_nodup rs [] hn (fun _ _ => rfl)
  have hrs : ∀ r' ∈ rs, r'.cls ≠ x.cls := fun r' h => hall r' (hsub r' h)
  unfold schedulePriority rulesGraph
  rw [hd]
  simp only []
  have hkeys : ((classGraph (rs.map (fun r => (r.ref, dependencySet d r.dependencies)))).map (fun kv => kv.1)) = rs.map (fun r => r.cls) := by
    unfold classGraph
    rw [List.map_map, List.map_map]
    rfl
  have hdep : DependsOn (classGraph (rs.map (fun r => (r.ref, dependencySet d r.dependencies)))) r.cls x.cls := by
    refine ⟨hrs r hr, (dependencySet d r.dependencies).map (fun r => r.cls), ?_, ?_⟩
    · unfold classGraph
      rw [List.map_map]
      exact List.mem_map.2 ⟨r, hr, rfl⟩
    · unfold dependencySet
      rw [dependencySet_classes]
      exact Or.inr ⟨.inst x, mem_dependencies.2 hx, x, rfl, rfl⟩
  obtain ⟨groups, err, ht, _⟩ := toposort_graph _ (show ((classGraph (rs.map (fun r => (r.ref, dependencySet d r.dependencies)))).map
    (fun kv => kv.1)).Nodup by rw [hkeys]; exact hn)
  obtain ⟨g, rest, hg, hm⟩ := toposort_extra_first ht hdep (by
    intro kv hkv he
    have : kv.1 ∈ rs.map (fun r => r.cls) := by rw [← hkeys]; exact List.mem_map.2 ⟨kv, hkv, rfl⟩
    obtain ⟨r', hr', hc⟩ := List.mem_map.1 this
    exact hrs r' hr' (by rw [hc, he]))
  simp only at hg
  subst hg
  unfold ruleGroups
  rw [ht]
  simp only [List.map_cons, orderGroups]
  have : orderGroup all (g.map (instanceOf (rs.map (fun r => (r.ref, dependencySet d r.dependencies))))) = .error .valueError := by
    unfold orderGroup
    rw [if_neg]
    intro h
    rw [List.all_eq_true] at h
    have h0 := h _ (List.mem_map.2 ⟨x.cls, hm, rfl⟩)
    have : ruleIndex all (instanceOf (rs.map (fun r => (r.ref, dependencySet d r.dependencies))) x.cls) = none := by
      unfold ruleIndex
      rw [List.findIdx?_eq_none_iff, instanceOf_cls]
      intro z hz
      simpa using hall z hz
    rw [this] at h0
    cases h0
  rw [this]

/-- The rules without the dependencies of those of priority `p` or less. -/
def cutAt (p : Int) (r : RuleInfo) : RuleInfo := if p < r.priority then r else { r with dependency := .none }

theorem cutAt_ref (p : Int) (r : RuleInfo) : (cutAt p r).ref = r.ref := by unfold cutAt; split <;> rfl
theorem cutAt_priority (p : Int) (r : RuleInfo) : (cutAt p r).priority = r.priority := by unfold cutAt; split <;> rfl

theorem mem_cutAt {p : Int} {rules : List RuleInfo} {a : RuleInfo} (h : a ∈ rules.map (cutAt p)) (hp : p < a.priority) : a ∈ rules := by
  obtain ⟨r, hr, rfl⟩ := List.mem_map.1 h
  rw [cutAt_priority] at hp
  unfold cutAt
  rw [if_pos hp]
  exact hr

theorem cutAt_requires {p : Int} {rules : List RuleInfo} {a b : RuleInfo} (h : RequiresTrans (rules.map (cutAt p)) a b) (hp : p < a.priority) :
    RequiresTrans rules a b := by
  induction h with
  | single h =>
    obtain ⟨h1, h2, h3, h4, h5⟩ := h
    exact .single ⟨mem_cutAt h1 hp, mem_cutAt h2 (by rw [← h3]; exact hp), h3, h4, h5⟩
  | step h _ ih =>
    obtain ⟨h1, h2, h3, h4, h5⟩ := h
    exact .step ⟨mem_cutAt h1 hp, mem_cutAt h2 (by rw [← h3]; exact hp), h3, h4, h5⟩ (ih (by rw [← h3]; exact hp))

theorem atPriority_cutAt (p q : Int) (h : p < q) : ∀ rules : List RuleInfo, atPriority (rules.map (cutAt p)) q = atPriority rules q
  | [] => rfl
  | r :: rules => by
    have ih := atPriority_cutAt p q h rules
    unfold atPriority at ih ⊢
    rw [List.map_cons, List.filter_cons, List.filter_cons, cutAt_priority, ih]
    by_cases hr : r.priority = q
    · have : cutAt p r = r := by unfold cutAt; rw [if_pos (by rw [hr]; exact h)]
      simp [hr, this]
    · simp [hr]

section
variable {σ ρ : Type} (truthy : ρ → Bool) (beh : RuleRef → Behaviour σ ρ)

/-- **C58.** A dependency on an object of a class no rule of which is registered makes the run raise `ValueError` when the priority of the dependent rule is
reached, after all rules of greater priorities (if these are fine) and before any other rule. -/
theorem C58_unregistered (rules : List RuleInfo) (p : Int) (hd : ¬ DuplicatesAt rules p) (r : RuleInfo) (hr : r ∈ rules) (hp : r.priority = p)
    (x : RuleRef) (hx : Asks r.dependency (.inst x)) (hun : ∀ r' ∈ rules, r'.cls ≠ x.cls)
    (hc : ∀ r ∈ rules, p < r.priority → ∀ d, Asks r.dependency d → ∃ c, d = .cls c)
    (hf : ∀ q, p < q → ¬ DuplicatesAt rules q ∧ ¬ CyclicAt rules q) (hb : ∀ r, NeverRaises (beh r)) (s : σ) :
    (executeAll truthy beh rules s).err = some .valueError ∧
    (considered (executeAll truthy beh rules s).trace).Perm ((rules.filter (fun r => decide (p < r.priority))).map (fun r => r.ref)) := by
  have hat : r ∈ atPriority rules p := mem_atPriority.2 ⟨hr, hp⟩
  obtain ⟨done, rest, hs, hdone, hrest, hperm⟩ := theGroups_split rules (List.ne_nil_of_mem hat)
  obtain ⟨_, hg2, _, _⟩ := priority_groups rules
  have hc' : OnlyClasses (rules.map (cutAt p)) := by
    intro a ha d hd
    by_cases h : p < a.priority
    · exact hc a (mem_cutAt ha h) h d hd
    · obtain ⟨b, _, rfl⟩ := List.mem_map.1 ha
      rw [cutAt_priority] at h
      unfold cutAt at hd
      rw [if_neg h] at hd
      cases hd
  have hpart : ∀ kg ∈ done, (schedulePriority rules kg.2).2 = none ∧ (schedulePriority rules kg.2).1.Perm (kg.2.map (fun r => r.ref)) := by
    intro kg hkg
    have hq := hdone kg hkg
    have he : kg.2 = atPriority rules kg.1 := (hg2 kg (by show kg ∈ theGroups rules; rw [hs]; simp [hkg])).2
    have hmap : ∀ rs, schedulePriority (rules.map (cutAt p)) rs = schedulePriority rules rs := by
      intro rs
      unfold schedulePriority
      cases rulesGraph rs with
      | error e => rfl
      | ok g => exact orderGroups_map (cutAt p) (cutAt_ref p) rules _ _
    have hspec := priority_spec (rules.map (cutAt p)) kg.1 hc' (by
      unfold DuplicatesAt
      rw [atPriority_cutAt p kg.1 hq]
      exact (hf kg.1 hq).1)
    have h6 := hspec.2.2.2.2.2 (by
      rintro ⟨a, hap, ha⟩
      exact (hf kg.1 hq).2 ⟨a, hap, cutAt_requires ha (by rw [hap]; exact hq)⟩)
    rw [atPriority_cutAt p kg.1 hq, hmap, ← he] at h6
    exact h6
  have hbad : schedulePriority rules (atPriority rules p) = ([], some .valueError) :=
    schedulePriority_unregistered rules _ (Classical.not_not.1 hd) hat hx hun (fun r h => (mem_atPriority.1 h).1)
  have hsch : schedule rules = (done.flatMap (fun kg => (schedulePriority rules kg.2).1), some .valueError) := by
    unfold schedule
    rw [show groupBy (fun r : RuleInfo => r.priority) (pySorted (fun a b => decide (a.priority > b.priority)) rules) = theGroups rules
      from rfl, hs, schedulePriorities_ok rules done _ (fun kg hkg => (hpart kg hkg).1),
      schedulePriorities_err rules _ rest (e := .valueError) (by rw [hbad]), hbad]
    simp
  obtain ⟨h3, h4⟩ := executeList_calm truthy beh hb (schedule rules).2 (schedule rules).1 s
  unfold executeAll
  rw [h3, h4, hsch]
  refine ⟨rfl, ?_⟩
  refine List.Perm.trans ?_ (hperm.map _)
  rw [← flatMap_refs]
  clear hs hsch hdone hperm
  induction done with
  | nil => simp
  | cons kg done ih =>
    rw [List.flatMap_cons, List.flatMap_cons]
    exact (hpart kg (by simp)).2.append (ih (fun k hk => hpart k (by simp [hk])))

end

/-- Rule 1 depends on an object of class 20, which is not registered. -/
def rulesStranger : List RuleInfo := [⟨0, 10, 5, .none⟩, ⟨1, 11, 0, .many [.cls 10, .inst ⟨9, 20⟩]⟩, ⟨2, 12, 0, .none⟩, ⟨3, 13, -1, .none⟩]

example : ¬ DuplicatesAt rulesStranger 0 ∧ (∀ r' ∈ rulesStranger, r'.cls ≠ 20) ∧
    (executeAll (fun _ => true) recorder rulesStranger []).err = some .valueError ∧
    (executeAll (fun _ => true) recorder rulesStranger []).state = [0] :=
  ⟨by unfold DuplicatesAt; decide, by decide, by decide, by decide⟩

end Rebulk
