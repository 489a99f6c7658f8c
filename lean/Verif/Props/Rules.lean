import Verif.Lemmas.Rules
/-!
# The rule engine (`C57`–`C60`)
-/
namespace Rebulk
open Spec

section
variable {σ ρ : Type} (truthy : ρ → Bool) (beh : RuleRef → Behaviour σ ρ)

/-! ## Tools -/

theorem ruleIndex_registered {rules : List RuleInfo} (hn : (rules.map (fun r => r.cls)).Nodup) {a b : RuleInfo} (ha : a ∈ rules)
    (hb : b ∈ rules) {i j : Nat} (hi : ruleIndex rules a.ref = some i) (hj : ruleIndex rules b.ref = some j) (hij : i < j) :
    RegisteredBefore rules a b := by
  have inj : ∀ x ∈ rules, ∀ y ∈ rules, x.cls = y.cls → x = y := by
    intro x hx y hy h
    obtain ⟨m, hm⟩ := List.mem_iff_getElem?.1 hx
    obtain ⟨n, hn'⟩ := List.mem_iff_getElem?.1 hy
    have hm' : (rules.map (fun r => r.cls))[m]? = some x.cls := by rw [List.getElem?_map, hm]; rfl
    have hn'' : (rules.map (fun r => r.cls))[n]? = some x.cls := by rw [List.getElem?_map, hn', h]; rfl
    obtain ⟨hlt, _⟩ := List.getElem?_eq_some_iff.1 hm'
    have := (List.getElem?_inj hlt hn).1 (hm'.trans hn''.symm)
    subst this
    rw [hm] at hn'; exact Option.some.inj hn'
  have key : ∀ x ∈ rules, ∀ k, ruleIndex rules x.ref = some k → rules[k]? = some x := by
    intro x hx k hk
    unfold ruleIndex at hk
    obtain ⟨hlt, hp, _⟩ := List.findIdx?_eq_some_iff_getElem.1 hk
    have : (rules[k]).cls = x.cls := by simpa [RuleInfo.ref] using hp
    have := inj _ (List.getElem_mem hlt) x hx this
    rw [List.getElem?_eq_getElem hlt, this]
  exact ⟨i, j, hij, key a ha i hi, key b hb j hj⟩

theorem ruleIndex_first {rules : List RuleInfo} {a : RuleInfo} {i : Nat} (h : ruleIndex rules a.ref = some i) : FirstOfClass rules a.cls i := by
  unfold ruleIndex at h
  obtain ⟨hlt, hp, hk⟩ := List.findIdx?_eq_some_iff_getElem.1 h
  refine ⟨⟨rules[i], List.getElem?_eq_getElem hlt, by simpa [RuleInfo.ref] using hp⟩, ?_⟩
  intro k hki r hr hc
  obtain ⟨hkl, rfl⟩ := List.getElem?_eq_some_iff.1 hr
  have := hk k hki
  simp [RuleInfo.ref, hc] at this

/-- Objects are told apart by their identity. -/
def IdsTell (rules : List RuleInfo) : Prop := ∀ a ∈ rules, ∀ b ∈ rules, a.ref = b.ref → a = b

/-- The order rules are run in. -/
def RunsBefore (rules : List RuleInfo) (a b : RuleInfo) : Prop :=
  b.priority < a.priority ∨ (a.priority = b.priority ∧ ∃ m n, Level (Requires rules) a m ∧ Level (Requires rules) b n ∧
    (m < n ∨ (m = n ∧ ClassBefore rules a b ∧ ((rules.map (fun r => r.cls)).Nodup → RegisteredBefore rules a b))))

theorem part_spec (rules : List RuleInfo) (p : Int) (hc : OnlyClasses rules) :
    (∀ x ∈ (schedulePriority rules (atPriority rules p)).1, ∃ r ∈ rules, r.priority = p ∧ x = r.ref) ∧
    ((schedulePriority rules (atPriority rules p)).1.map (fun r => r.cls)).Nodup ∧
    (schedulePriority rules (atPriority rules p)).1.Pairwise (fun x y => ∀ a ∈ rules, ∀ b ∈ rules, a.priority = p → b.priority = p →
      x = a.ref → y = b.ref → RunsBefore rules a b) ∧
    (∀ b ∈ rules, b.ref ∈ (schedulePriority rules (atPriority rules p)).1 → b.priority = p → ∀ a, Requires rules b a →
      a.ref ∈ (schedulePriority rules (atPriority rules p)).1) := by
  by_cases hd : DuplicatesAt rules p
  · rw [schedulePriority_dup hd]
    refine ⟨by simp, by simp, by simp, by simp⟩
  · obtain ⟨h1, h2, h3, h4, _⟩ := priority_spec rules p hc hd
    refine ⟨h1, h2, ?_, fun b hb hbm hbp a hr => (h4 b hb hbm hbp a hr).2⟩
    refine h3.imp ?_
    intro x y h a ha b hb hap hbp hxa hyb
    obtain ⟨m, n, hm, hn, h'⟩ := h a ha b hb hap hbp hxa hyb
    refine Or.inr ⟨by rw [hap, hbp], m, n, hm, hn, ?_⟩
    rcases h' with h' | ⟨he, i, j, hi, hj, hij⟩
    · exact Or.inl h'
    · exact Or.inr ⟨he, ⟨i, j, hij, ruleIndex_first (by rw [← hxa]; exact hi), ruleIndex_first (by rw [← hyb]; exact hj)⟩, fun hcn => ruleIndex_registered hcn ha hb (by rw [← hxa]; exact hi) (by rw [← hyb]; exact hj) hij⟩

/-- The groups of `execute_all_rules`. -/
def theGroups (rules : List RuleInfo) : List (Int × List RuleInfo) :=
  groupBy (fun r : RuleInfo => r.priority) (pySorted (fun a b => decide (a.priority > b.priority)) rules)

theorem schedule_refs (rules : List RuleInfo) (hc : OnlyClasses rules) : ∀ x ∈ (schedule rules).1, ∃ r ∈ rules, x = r.ref := by
  obtain ⟨_, hg2, _, _⟩ := priority_groups rules
  obtain ⟨done, rest, h1, h2⟩ := schedule_parts rules (theGroups rules)
  intro x hx
  unfold schedule at hx
  rw [show groupBy (fun r : RuleInfo => r.priority) (pySorted (fun a b => decide (a.priority > b.priority)) rules) = theGroups rules from rfl,
    h2] at hx
  obtain ⟨kg, hkg, hx⟩ := List.mem_flatMap.1 hx
  have hm : kg ∈ theGroups rules := by rw [h1]; exact List.mem_append_left _ hkg
  rw [(hg2 kg hm).2] at hx
  obtain ⟨r, hr, _, rfl⟩ := (part_spec rules kg.1 hc).1 x hx
  exact ⟨r, hr, rfl⟩

theorem schedule_pairwise (rules : List RuleInfo) (hc : OnlyClasses rules) (hid : IdsTell rules) :
    (schedule rules).1.Pairwise (fun x y => ∀ a ∈ rules, ∀ b ∈ rules, x = a.ref → y = b.ref → RunsBefore rules a b) := by
  obtain ⟨hg1, hg2, _, _⟩ := priority_groups rules
  obtain ⟨done, rest, h1, h2⟩ := schedule_parts rules (theGroups rules)
  unfold schedule
  rw [show groupBy (fun r : RuleInfo => r.priority) (pySorted (fun a b => decide (a.priority > b.priority)) rules) = theGroups rules from rfl,
    h2]
  have hm : ∀ kg ∈ done, kg ∈ theGroups rules := fun kg hkg => by rw [h1]; exact List.mem_append_left _ hkg
  have hprio : ∀ kg ∈ done, ∀ x ∈ (schedulePriority rules kg.2).1, ∀ a ∈ rules, x = a.ref → a.priority = kg.1 := by
    intro kg hkg x hx a ha hxa
    rw [(hg2 kg (hm kg hkg)).2] at hx
    obtain ⟨r, hr, hp, hxr⟩ := (part_spec rules kg.1 hc).1 x hx
    have := hid a ha r hr (hxa.symm.trans hxr)
    rw [this, hp]
  rw [List.pairwise_flatMap]
  constructor
  · intro kg hkg
    have h3 := (part_spec rules kg.1 hc).2.2.1
    have := hprio kg hkg
    rw [(hg2 kg (hm kg hkg)).2] at this ⊢
    refine List.Pairwise.imp_of_mem (fun {x y} hx hy h a ha b hb hxa hyb => ?_) h3
    exact h a ha b hb (this x hx a ha hxa) (this y hy b hb hyb) hxa hyb
  · have hd : done.Pairwise (fun a b => b.1 < a.1) := by
      have hp : (theGroups rules).Pairwise (fun a b => b.1 < a.1) := hg1
      rw [h1] at hp
      exact (List.pairwise_append.1 hp).1
    refine List.Pairwise.imp_of_mem (fun {k1 k2} hk1 hk2 h x hx y hy a ha b hb hxa hyb => ?_) hd
    left
    rw [hprio k1 hk1 x hx a ha hxa, hprio k2 hk2 y hy b hb hyb]
    exact h

theorem schedule_requires (rules : List RuleInfo) (hc : OnlyClasses rules) (hid : IdsTell rules) {b a : RuleInfo} (hr : Requires rules b a)
    (hb : b.ref ∈ (schedule rules).1) : a.ref ∈ (schedule rules).1 := by
  obtain ⟨hg1, hg2, _, _⟩ := priority_groups rules
  obtain ⟨done, rest, h1, h2⟩ := schedule_parts rules (theGroups rules)
  unfold schedule at hb ⊢
  rw [show groupBy (fun r : RuleInfo => r.priority) (pySorted (fun a b => decide (a.priority > b.priority)) rules) = theGroups rules from rfl,
    h2] at hb ⊢
  obtain ⟨kg, hkg, hx⟩ := List.mem_flatMap.1 hb
  have hm : kg ∈ theGroups rules := by rw [h1]; exact List.mem_append_left _ hkg
  refine List.mem_flatMap.2 ⟨kg, hkg, ?_⟩
  rw [(hg2 kg hm).2] at hx ⊢
  obtain ⟨s1, _, _, s4⟩ := part_spec rules kg.1 hc
  obtain ⟨r, hrm, hrp, hre⟩ := s1 _ hx
  have := hid b hr.1 r hrm hre
  subst this
  exact s4 b hr.1 hx hrp a hr

theorem before_of_pairwise {α : Type} {R : α → α → Prop} {l : List α} (h : l.Pairwise R) {x y : α} (hx : x ∈ l) (hy : y ∈ l) (hne : x ≠ y)
    (hr : ¬ R y x) : Before l x y := by
  obtain ⟨i, hi⟩ := List.mem_iff_getElem?.1 hx
  obtain ⟨j, hj⟩ := List.mem_iff_getElem?.1 hy
  rcases Nat.lt_trichotomy i j with hlt | rfl | hlt
  · exact ⟨i, j, hlt, hi, hj⟩
  · rw [hi] at hj; exact absurd (Option.some.inj hj) hne
  · exfalso
    obtain ⟨h1, h1'⟩ := List.getElem?_eq_some_iff.1 hi
    obtain ⟨h2, h2'⟩ := List.getElem?_eq_some_iff.1 hj
    have := List.pairwise_iff_getElem.1 h j i h2 h1 hlt
    rw [h1', h2'] at this
    exact hr this

theorem before_prefix {α : Type} {l p : List α} (hp : p <+: l) {x y : α} (hn : l.Nodup) (h : Before l x y) (hy : y ∈ p) : Before p x y := by
  obtain ⟨i, j, hij, hi, hj⟩ := h
  obtain ⟨t, rfl⟩ := hp
  obtain ⟨k, hk⟩ := List.mem_iff_getElem?.1 hy
  have hkl : k < p.length := (List.getElem?_eq_some_iff.1 hk).1
  have hk' : (p ++ t)[k]? = some y := by rw [List.getElem?_append_left hkl]; exact hk
  have hkj : k = j := (List.getElem?_inj (List.getElem?_eq_some_iff.1 hk').1 hn).1 (hk'.trans hj.symm)
  subst hkj
  refine ⟨i, k, hij, ?_, hk⟩
  rw [List.getElem?_append_left (by omega)] at hi
  exact hi

theorem schedule_nodup (rules : List RuleInfo) (hc : OnlyClasses rules) (hid : IdsTell rules) : (schedule rules).1.Nodup := by
  obtain ⟨hg1, hg2, _, _⟩ := priority_groups rules
  obtain ⟨done, rest, h1, h2⟩ := schedule_parts rules (theGroups rules)
  unfold schedule
  rw [show groupBy (fun r : RuleInfo => r.priority) (pySorted (fun a b => decide (a.priority > b.priority)) rules) = theGroups rules
    from rfl, h2]
  have hm : ∀ kg ∈ done, kg ∈ theGroups rules := fun kg hkg => by rw [h1]; exact List.mem_append_left _ hkg
  unfold List.Nodup
  rw [List.pairwise_flatMap]
  constructor
  · intro kg hkg
    rw [(hg2 kg (hm kg hkg)).2]
    exact List.Pairwise.of_map (fun r => r.cls) (fun a b h e => h (by rw [e])) (part_spec rules kg.1 hc).2.1
  · have hd : done.Pairwise (fun a b => b.1 < a.1) := by
      have hp : (theGroups rules).Pairwise (fun a b => b.1 < a.1) := hg1
      rw [h1] at hp
      exact (List.pairwise_append.1 hp).1
    refine List.Pairwise.imp_of_mem (fun {k1 k2} hk1 hk2 h x hx y hy hxy => ?_) hd
    rw [(hg2 k1 (hm k1 hk1)).2] at hx
    rw [(hg2 k2 (hm k2 hk2)).2] at hy
    obtain ⟨a, ha, hap, hxa⟩ := (part_spec rules k1.1 hc).1 x hx
    obtain ⟨b, hb, hbp, hyb⟩ := (part_spec rules k2.1 hc).1 y hy
    have := hid a ha b hb (by rw [← hxa, ← hyb, hxy])
    subst this
    omega

/-- Rules of one priority that are run have different classes. -/
theorem schedule_classes (rules : List RuleInfo) (hc : OnlyClasses rules) (hid : IdsTell rules) :
    (schedule rules).1.Pairwise (fun x y => ∀ a ∈ rules, ∀ b ∈ rules, x = a.ref → y = b.ref → a.priority = b.priority → a.cls ≠ b.cls) := by
  obtain ⟨hg1, hg2, _, _⟩ := priority_groups rules
  obtain ⟨done, rest, h1, h2⟩ := schedule_parts rules (theGroups rules)
  unfold schedule
  rw [show groupBy (fun r : RuleInfo => r.priority) (pySorted (fun a b => decide (a.priority > b.priority)) rules) = theGroups rules
    from rfl, h2]
  have hm : ∀ kg ∈ done, kg ∈ theGroups rules := fun kg hkg => by rw [h1]; exact List.mem_append_left _ hkg
  rw [List.pairwise_flatMap]
  constructor
  · intro kg hkg
    rw [(hg2 kg (hm kg hkg)).2]
    refine List.Pairwise.of_map (fun r => r.cls) (fun x y h a ha b hb hxa hyb _ => ?_) (part_spec rules kg.1 hc).2.1
    subst hxa hyb
    exact h
  · have hd : done.Pairwise (fun a b => b.1 < a.1) := by
      have hp : (theGroups rules).Pairwise (fun a b => b.1 < a.1) := hg1
      rw [h1] at hp
      exact (List.pairwise_append.1 hp).1
    refine List.Pairwise.imp_of_mem (fun {k1 k2} hk1 hk2 h x hx y hy a ha b hb hxa hyb hp => ?_) hd
    rw [(hg2 k1 (hm k1 hk1)).2] at hx
    rw [(hg2 k2 (hm k2 hk2)).2] at hy
    obtain ⟨a', ha', hap, hxa'⟩ := (part_spec rules k1.1 hc).1 x hx
    obtain ⟨b', hb', hbp, hyb'⟩ := (part_spec rules k2.1 hc).1 y hy
    have e1 := hid a ha a' ha' (hxa.symm.trans hxa')
    have e2 := hid b hb b' hb' (hyb.symm.trans hyb')
    subst e1 e2
    omega

/-! ## C57: order -/

/-- **C57, exactly.** Of two rules considered the earlier one has the greater priority, or the same priority and a smaller dependency level, or the same
level and a class first registered earlier. (No two rules considered at one priority have the same class, so this fixes the order.) -/
theorem C57_exact (rules : List RuleInfo) (hc : OnlyClasses rules) (hid : ∀ a ∈ rules, ∀ b ∈ rules, a.ref = b.ref → a = b) (s : σ) :
    ∀ a ∈ rules, ∀ b ∈ rules, Before (considered (executeAll truthy beh rules s).trace) a.ref b.ref →
      b.priority < a.priority ∨ (a.priority = b.priority ∧ a.cls ≠ b.cls ∧ ∃ m n, Level (Requires rules) a m ∧ Level (Requires rules) b n ∧
        (m < n ∨ (m = n ∧ ClassBefore rules a b))) := by
  have hpre : considered (executeAll truthy beh rules s).trace <+: (schedule rules).1 :=
    (executeList_considered truthy beh (schedule rules).2 (schedule rules).1 s).1
  have hpw := schedule_pairwise rules hc hid
  have hcl := schedule_classes rules hc hid
  rintro a ha b hb ⟨i, j, hij, hi, hj⟩
  obtain ⟨h1, h1'⟩ := List.getElem?_eq_some_iff.1 hi
  obtain ⟨h2, h2'⟩ := List.getElem?_eq_some_iff.1 hj
  have k1 := List.pairwise_iff_getElem.1 (hpw.sublist hpre.sublist) i j h1 h2 hij a ha b hb h1' h2'
  have k2 := List.pairwise_iff_getElem.1 (hcl.sublist hpre.sublist) i j h1 h2 hij a ha b hb h1' h2'
  rcases k1 with k1 | ⟨kp, m, n, hm, hn, k1⟩
  · exact Or.inl k1
  · refine Or.inr ⟨kp, k2 kp, m, n, hm, hn, ?_⟩
    rcases k1 with k1 | ⟨k1, k3, _⟩
    · exact Or.inl k1
    · exact Or.inr ⟨k1, k3⟩

/-- The rules considered are registered ones; of two of them the earlier one has the greater priority, or the same priority and a smaller
dependency level, or the same level and, when no class is registered twice, the earlier registration; a rule is considered after every rule
of its priority it depends on. Whatever the rules do, and also when one raises.

Missing from `C57`: registration order when a class is registered at two priorities (`C57_refuted`), and dependencies given as objects. -/
theorem C57_partial (rules : List RuleInfo) (hc : OnlyClasses rules) (hid : ∀ a ∈ rules, ∀ b ∈ rules, a.ref = b.ref → a = b) (s : σ) :
    let order := considered (executeAll truthy beh rules s).trace
    (∀ x ∈ order, ∃ r ∈ rules, x = r.ref) ∧
    (∀ a ∈ rules, ∀ b ∈ rules, Before order a.ref b.ref →
      b.priority < a.priority ∨ (a.priority = b.priority ∧ ∃ m n, Level (Requires rules) a m ∧ Level (Requires rules) b n ∧
        (m < n ∨ (m = n ∧ ((rules.map (fun r => r.cls)).Nodup → RegisteredBefore rules a b))))) ∧
    (∀ a b, Requires rules b a → b.ref ∈ order → Before order a.ref b.ref) := by
  have hpre : considered (executeAll truthy beh rules s).trace <+: (schedule rules).1 :=
    (executeList_considered truthy beh (schedule rules).2 (schedule rules).1 s).1
  have hpw := schedule_pairwise rules hc hid
  refine ⟨fun x hx => schedule_refs rules hc x (hpre.subset hx), ?_, ?_⟩
  · rintro a ha b hb ⟨i, j, hij, hi, hj⟩
    have hpw' := hpw.sublist hpre.sublist
    obtain ⟨h1, h1'⟩ := List.getElem?_eq_some_iff.1 hi
    obtain ⟨h2, h2'⟩ := List.getElem?_eq_some_iff.1 hj
    rcases List.pairwise_iff_getElem.1 hpw' i j h1 h2 hij a ha b hb h1' h2' with k | ⟨kp, m, n, hm, hn, k⟩
    · exact Or.inl k
    · exact Or.inr ⟨kp, m, n, hm, hn, k.imp id (fun k => ⟨k.1, k.2.2⟩)⟩
  · intro a b hr hb
    have hbs := hpre.subset hb
    have has := schedule_requires rules hc hid hr hbs
    refine before_prefix hpre (schedule_nodup rules hc hid) (before_of_pairwise hpw has hbs ?_ ?_) hb
    · intro h
      exact hr.2.2.2.1 (by have := congrArg RuleRef.cls h; exact this.symm)
    · intro h
      rcases h b hr.1 a hr.2.1 rfl rfl with h | ⟨_, m, n, hm, hn, h⟩
      · have := hr.2.2.1; omega
      · have h1 : n + 1 ≤ m := hm.2 (n + 1) (.cons hr hn.1)
        rcases h with h | ⟨h, _⟩ <;> omega

/-- Three rules: the second depends on the first, the third has a greater priority. -/
def rulesDemo : List RuleInfo :=
  [⟨0, 10, 0, .none⟩, ⟨1, 11, 0, .many [.cls 10]⟩, ⟨2, 12, 5, .none⟩, ⟨3, 13, 0, .none⟩]

/-- A rule that always fires and records itself. -/
def recorder (r : RuleRef) : Behaviour (List Nat) Nat where
  enabled := fun _ => true
  when_ := fun s => (s, .ok r.id)
  then_ := fun s a => (s ++ [a], none)

theorem rulesDemo_classes : OnlyClasses rulesDemo := by
  intro r hr d hd
  simp only [rulesDemo, List.mem_cons, List.not_mem_nil, or_false] at hr
  rcases hr with rfl | rfl | rfl | rfl
  · cases hd
  · cases hd with
    | many h => simp only [List.mem_cons, List.not_mem_nil, or_false] at h; exact ⟨10, h⟩
  · cases hd
  · cases hd

example : OnlyClasses rulesDemo ∧ (∀ a ∈ rulesDemo, ∀ b ∈ rulesDemo, a.ref = b.ref → a = b) ∧
    (rulesDemo.map (fun r => r.cls)).Nodup ∧ Requires rulesDemo ⟨1, 11, 0, .many [.cls 10]⟩ ⟨0, 10, 0, .none⟩ ∧
    considered (executeAll (fun _ => true) recorder rulesDemo []).trace = [⟨2, 12⟩, ⟨0, 10⟩, ⟨3, 13⟩, ⟨1, 11⟩] := by
  refine ⟨rulesDemo_classes, ?_, by decide, ⟨by simp [rulesDemo], by simp [rulesDemo], rfl, by decide, .many (by simp)⟩, by decide⟩
  simp [rulesDemo, RuleInfo.ref]

/-- Registration order is not kept when a class is registered at two priorities: its lower priority rule is put where the class was first
registered. Rules 1 and 2 have the same priority, no dependency, and rule 1 was registered before rule 2. -/
theorem C57_refuted : ∃ (rules : List RuleInfo) (a b : RuleInfo), (∀ r ∈ rules, r.dependency = .none) ∧ (rules.map (fun r => r.id)).Nodup ∧
    (∀ p, ¬ DuplicatesAt rules p) ∧ RegisteredBefore rules a b ∧ a.priority = b.priority ∧
    Before (considered (executeAll (fun _ => true) recorder rules []).trace) b.ref a.ref := by
  refine ⟨[⟨0, 10, 5, .none⟩, ⟨1, 11, 0, .none⟩, ⟨2, 10, 0, .none⟩], ⟨1, 11, 0, .none⟩, ⟨2, 10, 0, .none⟩, by simp, by decide, ?_,
    ⟨1, 2, by decide, rfl, rfl⟩, rfl, ⟨1, 2, by decide, by decide, by decide⟩⟩
  intro p h
  apply h
  unfold atPriority
  by_cases h5 : (5 : Int) = p
  · subst h5; decide
  · by_cases h0 : (0 : Int) = p
    · subst h0; decide
    · simp [h5, h0]

/-- There it is the order of the first registrations of the classes: class 10 was first registered before class 11. -/
example : ClassBefore [⟨0, 10, 5, .none⟩, ⟨1, 11, 0, .none⟩, ⟨2, 10, 0, .none⟩] ⟨2, 10, 0, .none⟩ ⟨1, 11, 0, .none⟩ := by
  refine ⟨0, 1, by decide, ⟨⟨_, rfl, rfl⟩, by simp⟩, ⟨⟨_, rfl, rfl⟩, ?_⟩⟩
  intro k hk r hr
  have : k = 0 := by omega
  subst this
  cases hr
  decide

/-! ## C58: each rule once -/

theorem schedule_fine (rules : List RuleInfo) (hc : OnlyClasses rules) (done rest : List (Int × List RuleInfo))
    (hsplit : theGroups rules = done ++ rest) (hf : ∀ kg ∈ done, FineAt rules kg.1) :
    ∃ l, l.Perm (done.flatMap (fun kg => kg.2.map (fun r => r.ref))) ∧
      schedule rules = (l ++ (schedulePriorities rules rest).1, (schedulePriorities rules rest).2) := by
  obtain ⟨_, hg2, _, _⟩ := priority_groups rules
  have hm : ∀ kg ∈ done, kg ∈ theGroups rules := fun kg hkg => by rw [hsplit]; exact List.mem_append_left _ hkg
  have hpart : ∀ kg ∈ done, (schedulePriority rules kg.2).2 = none ∧
      (schedulePriority rules kg.2).1.Perm (kg.2.map (fun r => r.ref)) := by
    intro kg hkg
    rw [(hg2 kg (hm kg hkg)).2]
    exact (priority_spec rules kg.1 hc (hf kg hkg).1).2.2.2.2.2 (hf kg hkg).2
  refine ⟨done.flatMap (fun kg => (schedulePriority rules kg.2).1), ?_, ?_⟩
  · clear hsplit hm hf
    induction done with
    | nil => simp
    | cons kg done ih =>
      rw [List.flatMap_cons, List.flatMap_cons]
      exact (hpart kg (by simp)).2.append (ih (fun k hk => hpart k (by simp [hk])))
  · unfold schedule
    rw [show groupBy (fun r : RuleInfo => r.priority) (pySorted (fun a b => decide (a.priority > b.priority)) rules) = theGroups rules
      from rfl, hsplit]
    exact schedulePriorities_ok rules done rest (fun kg hkg => (hpart kg hkg).1)

theorem flatMap_refs (gs : List (Int × List RuleInfo)) :
    gs.flatMap (fun kg => kg.2.map (fun r => r.ref)) = (gs.flatMap (fun kg => kg.2)).map (fun r => r.ref) := by
  rw [List.map_flatMap]

/-- The groups above `p`, the group of `p` and the groups below. -/
theorem theGroups_split (rules : List RuleInfo) {p : Int} (h : atPriority rules p ≠ []) :
    ∃ done rest, theGroups rules = done ++ (p, atPriority rules p) :: rest ∧ (∀ kg ∈ done, p < kg.1) ∧ (∀ kg ∈ rest, kg.1 < p) ∧
      (done.flatMap (fun kg => kg.2)).Perm (rules.filter (fun r => decide (p < r.priority))) := by
  obtain ⟨hg1, hg2, hg3, hg4⟩ := priority_groups rules
  have hg1 : (theGroups rules).Pairwise (fun a b => b.1 < a.1) := hg1
  have hg4 : ((theGroups rules).flatMap (fun kg => kg.2)).Perm rules := hg4
  obtain ⟨r, hr⟩ := List.exists_mem_of_ne_nil _ h
  obtain ⟨hr1, hr2⟩ := mem_atPriority.1 hr
  obtain ⟨kg, hkg, hk⟩ := hg3 r hr1
  obtain ⟨done, rest, hs⟩ := List.append_of_mem (show kg ∈ theGroups rules from hkg)
  have he : kg = (p, atPriority rules p) := by
    have := (hg2 kg hkg).2
    rw [hk, hr2] at this
    exact Prod.ext (by rw [hk, hr2]) this
  subst he
  rw [hs] at hg1
  obtain ⟨hp1, hp2, hp3⟩ := List.pairwise_append.1 hg1
  have hdone : ∀ kg ∈ done, p < kg.1 := fun kg hkg => hp3 kg hkg _ List.mem_cons_self
  have hrest : ∀ kg ∈ rest, kg.1 < p := fun kg hkg => (List.pairwise_cons.1 hp2).1 kg hkg
  refine ⟨done, rest, hs, hdone, hrest, ?_⟩
  have hf := hg4.filter (fun r => decide (p < r.priority))
  rw [hs] at hf
  rw [List.flatMap_append, List.flatMap_cons, List.filter_append, List.filter_append] at hf
  have e1 : (done.flatMap (fun kg => kg.2)).filter (fun r => decide (p < r.priority)) = done.flatMap (fun kg => kg.2) := by
    refine List.filter_eq_self.2 (fun r hr => ?_)
    obtain ⟨kg, hkg, hr⟩ := List.mem_flatMap.1 hr
    have := hdone kg hkg
    rw [(hg2 kg (by show kg ∈ theGroups rules; rw [hs]; exact List.mem_append_left _ hkg)).2] at hr
    have := (mem_atPriority.1 hr).2
    simp; omega
  have e2 : (atPriority rules p).filter (fun r => decide (p < r.priority)) = [] := by
    refine List.filter_eq_nil_iff.2 (fun r hr => ?_)
    have := (mem_atPriority.1 hr).2
    simp; omega
  have e3 : (rest.flatMap (fun kg => kg.2)).filter (fun r => decide (p < r.priority)) = [] := by
    refine List.filter_eq_nil_iff.2 (fun r hr => ?_)
    obtain ⟨kg, hkg, hr⟩ := List.mem_flatMap.1 hr
    have := hrest kg hkg
    rw [(hg2 kg (by show kg ∈ theGroups rules; rw [hs]; simp [hkg])).2] at hr
    have := (mem_atPriority.1 hr).2
    simp; omega
  rw [e1, e2, e3] at hf
  simpa using hf

theorem not_fine_nonempty {rules : List RuleInfo} {p : Int} (h : ¬ FineAt rules p) : atPriority rules p ≠ [] := by
  intro he
  apply h
  constructor
  · intro hd; exact hd (by rw [he]; simp)
  · rintro ⟨a, hp, ha⟩
    have : a ∈ atPriority rules p := by
      cases ha with
      | single h => exact mem_atPriority.2 ⟨h.1, hp⟩
      | step h _ => exact mem_atPriority.2 ⟨h.1, hp⟩
    rw [he] at this; cases this

theorem schedule_none_fine (rules : List RuleInfo) (hc : OnlyClasses rules) : ∀ (gs : List (Int × List RuleInfo)),
    (∀ kg ∈ gs, kg.2 = atPriority rules kg.1) → (schedulePriorities rules gs).2 = none → ∀ kg ∈ gs, FineAt rules kg.1
  | [], _, _ => by simp
  | kg :: gs, hg, h => by
    have hk := hg kg (by simp)
    cases hs : (schedulePriority rules kg.2).2 with
    | some e => rw [schedulePriorities_err rules kg gs hs] at h; cases h
    | none =>
      have := schedulePriorities_ok rules [kg] gs (by simpa using hs)
      rw [List.singleton_append] at this
      rw [this] at h
      have ih := schedule_none_fine rules hc gs (fun k hk => hg k (by simp [hk])) h
      intro k hkm
      rcases List.mem_cons.1 hkm with rfl | hkm
      · rw [hk] at hs
        constructor
        · intro hd; rw [schedulePriority_dup hd] at hs; cases hs
        · intro hcy
          by_cases hd : DuplicatesAt rules k.1
          · rw [schedulePriority_dup hd] at hs; cases hs
          · rw [(priority_spec rules k.1 hc hd).2.2.2.2.1 hcy] at hs; cases hs
      · exact ih k hkm

theorem schedule_all_fine (rules : List RuleInfo) (hc : OnlyClasses rules) (h : ∀ p, FineAt rules p) :
    (schedule rules).2 = none ∧ (schedule rules).1.Perm (rules.map (fun r => r.ref)) := by
  obtain ⟨_, _, _, hg4⟩ := priority_groups rules
  obtain ⟨l, hl, hs⟩ := schedule_fine rules hc (theGroups rules) [] (by simp) (fun kg _ => h kg.1)
  rw [hs]
  refine ⟨rfl, ?_⟩
  show (l ++ []).Perm _
  rw [List.append_nil]
  rw [flatMap_refs] at hl
  exact hl.trans (hg4.map _)

/-- With class dependencies, no class registered twice at one priority and no cyclic dependency, `execute_all_rules` raises nothing of its own
and considers every registered rule exactly once. -/
theorem C58_once (rules : List RuleInfo) (hc : OnlyClasses rules) (hf : ∀ p, ¬ DuplicatesAt rules p ∧ ¬ CyclicAt rules p)
    (hb : ∀ r, NeverRaises (beh r)) (s : σ) :
    (executeAll truthy beh rules s).err = none ∧
    (considered (executeAll truthy beh rules s).trace).Perm (rules.map (fun r => r.ref)) := by
  obtain ⟨h1, h2⟩ := schedule_all_fine rules hc hf
  obtain ⟨h3, h4⟩ := executeList_calm truthy beh hb (schedule rules).2 (schedule rules).1 s
  refine ⟨?_, ?_⟩
  · unfold executeAll; rw [h3, h1]
  · unfold executeAll; rw [h4]; exact h2

/-- Whatever the rules do: when `execute_all_rules` returns, every registered rule was considered exactly once. -/
theorem C58_returns (rules : List RuleInfo) (hc : OnlyClasses rules) (s : σ) (h : (executeAll truthy beh rules s).err = none) :
    (∀ p, ¬ DuplicatesAt rules p ∧ ¬ CyclicAt rules p) ∧
    (considered (executeAll truthy beh rules s).trace).Perm (rules.map (fun r => r.ref)) := by
  obtain ⟨h1, h2⟩ := (executeList_considered truthy beh (schedule rules).2 (schedule rules).1 s).2 h
  obtain ⟨_, hg2, hg3, _⟩ := priority_groups rules
  have hf : ∀ p, FineAt rules p := by
    intro p
    by_cases hp : FineAt rules p
    · exact hp
    · obtain ⟨r, hr⟩ := List.exists_mem_of_ne_nil _ (not_fine_nonempty hp)
      obtain ⟨hr1, hr2⟩ := mem_atPriority.1 hr
      obtain ⟨kg, hkg, hk⟩ := hg3 r hr1
      have := schedule_none_fine rules hc (theGroups rules) (fun k hk => (hg2 k hk).2) h2 kg hkg
      rw [hk, hr2] at this
      exact this
  refine ⟨hf, ?_⟩
  unfold executeAll
  rw [h1]
  exact (schedule_all_fine rules hc hf).2

/-- A class registered twice at one priority raises `ValueError` when that priority is reached, after all rules of greater priorities (if these
are fine) and before any other rule. -/
theorem C58_duplicates (rules : List RuleInfo) (hc : OnlyClasses rules) (p : Int) (hd : DuplicatesAt rules p)
    (hf : ∀ q, p < q → ¬ DuplicatesAt rules q ∧ ¬ CyclicAt rules q) (hb : ∀ r, NeverRaises (beh r)) (s : σ) :
    (executeAll truthy beh rules s).err = some .valueError ∧
    (considered (executeAll truthy beh rules s).trace).Perm ((rules.filter (fun r => decide (p < r.priority))).map (fun r => r.ref)) := by
  obtain ⟨done, rest, hs, hdone, hrest, hperm⟩ := theGroups_split rules (not_fine_nonempty (fun h : FineAt rules p => h.1 hd))
  obtain ⟨l, hl, hsch⟩ := schedule_fine rules hc done _ hs (fun kg hkg => hf kg.1 (hdone kg hkg))
  rw [schedulePriorities_err rules _ rest (e := .valueError) (by rw [schedulePriority_dup hd]), schedulePriority_dup hd] at hsch
  rw [flatMap_refs] at hl
  obtain ⟨h3, h4⟩ := executeList_calm truthy beh hb (schedule rules).2 (schedule rules).1 s
  unfold executeAll
  rw [h3, h4, hsch]
  refine ⟨rfl, ?_⟩
  show (l ++ []).Perm _
  rw [List.append_nil]
  exact hl.trans (hperm.map _)

theorem longer_chain {rules : List RuleInfo} {a b : RuleInfo} (h : RequiresTrans rules a b) {n : Nat} (hc : DepChain (Requires rules) b n) :
    ∃ m, n < m ∧ DepChain (Requires rules) a m := by
  induction h with
  | single h => exact ⟨n + 1, by omega, .cons h hc⟩
  | step h _ ih =>
    obtain ⟨m, hm, hch⟩ := ih hc
    exact ⟨m + 1, by omega, .cons h hch⟩

/-- Cyclic dependencies at one priority raise `CyclicDependency`: every rule of a greater priority has been considered once, no rule of a
smaller priority is considered, and of this priority only rules that are on no cycle. -/
theorem C58_cyclic (rules : List RuleInfo) (hc : OnlyClasses rules) (p : Int) (hd : ¬ DuplicatesAt rules p) (hcy : CyclicAt rules p)
    (hf : ∀ q, p < q → ¬ DuplicatesAt rules q ∧ ¬ CyclicAt rules q) (hb : ∀ r, NeverRaises (beh r)) (s : σ) :
    (executeAll truthy beh rules s).err = some .cyclicDependency ∧
    ∃ l some_, considered (executeAll truthy beh rules s).trace = l ++ some_ ∧
      l.Perm ((rules.filter (fun r => decide (p < r.priority))).map (fun r => r.ref)) ∧ some_.Nodup ∧
      (∀ x ∈ some_, ∃ r ∈ rules, r.priority = p ∧ x = r.ref) ∧
      ∀ a ∈ rules, a.priority = p → RequiresTrans rules a a → a.ref ∉ some_ := by
  obtain ⟨done, rest, hs, hdone, hrest, hperm⟩ := theGroups_split rules (not_fine_nonempty (fun h : FineAt rules p => h.2 hcy))
  obtain ⟨l, hl, hsch⟩ := schedule_fine rules hc done _ hs (fun kg hkg => hf kg.1 (hdone kg hkg))
  obtain ⟨q1, q2, q3, q4, q5, _⟩ := priority_spec rules p hc hd
  rw [schedulePriorities_err rules _ rest (e := .cyclicDependency) (q5 hcy)] at hsch
  rw [flatMap_refs] at hl
  obtain ⟨h3, h4⟩ := executeList_calm truthy beh hb (schedule rules).2 (schedule rules).1 s
  unfold executeAll
  rw [h3, h4, hsch]
  refine ⟨rfl, l, _, rfl, hl.trans (hperm.map _), List.Pairwise.of_map (fun r => r.cls) (fun a b h e => h (by rw [e])) q2, q1, ?_⟩
  rintro a ha hap hr hm
  obtain ⟨b, hab⟩ : ∃ b, Requires rules a b := by
    cases hr with
    | single h => exact ⟨_, h⟩
    | step h _ => exact ⟨_, h⟩
  obtain ⟨⟨m, hlv⟩, _⟩ := q4 a ha hm hap b hab
  obtain ⟨k, hk, hch⟩ := longer_chain hr hlv.1
  have := hlv.2 k hch
  omega

/-- `rulesDemo` is fine; its two rules of class 10 at priority 0, or a dependency of class 10 on class 11, are not. -/
theorem rulesDemo_fine : ∀ p, ¬ DuplicatesAt rulesDemo p ∧ ¬ CyclicAt rulesDemo p := by
  have hc := rulesDemo_classes
  refine (C58_returns (fun _ : Nat => true) recorder rulesDemo hc [] (by decide)).1

theorem recorder_calm (r : RuleRef) : NeverRaises (recorder r) := by
  constructor
  · intro s s' e h; simp [recorder] at h
  · intro s a s' e h; simp [recorder] at h

example : (∀ p, ¬ DuplicatesAt rulesDemo p ∧ ¬ CyclicAt rulesDemo p) ∧ (∀ r, NeverRaises (recorder r)) ∧
    (executeAll (fun _ => true) recorder rulesDemo []).state = [2, 0, 3, 1] := ⟨rulesDemo_fine, recorder_calm, by decide⟩

/-- A duplicate at priority 0, something fine at priority 5. -/
def rulesTwice : List RuleInfo := [⟨0, 10, 0, .none⟩, ⟨1, 10, 0, .none⟩, ⟨2, 12, 5, .none⟩]

example : OnlyClasses rulesTwice ∧ DuplicatesAt rulesTwice 0 ∧ (executeAll (fun _ => true) recorder rulesTwice []).err = some .valueError ∧
    (executeAll (fun _ => true) recorder rulesTwice []).state = [2] := by
  refine ⟨?_, by unfold DuplicatesAt; decide, by decide, by decide⟩
  intro r hr d hd
  simp only [rulesTwice, List.mem_cons, List.not_mem_nil, or_false] at hr
  rcases hr with rfl | rfl | rfl <;> cases hd

/-- A cycle at priority 0. -/
def rulesCycle : List RuleInfo :=
  [⟨0, 10, 0, .one (.cls 11)⟩, ⟨1, 11, 0, .one (.cls 10)⟩, ⟨2, 12, 5, .none⟩, ⟨3, 13, 0, .none⟩, ⟨4, 14, -1, .none⟩]

example : ¬ DuplicatesAt rulesCycle 0 ∧ CyclicAt rulesCycle 0 ∧
    (executeAll (fun _ => true) recorder rulesCycle []).err = some .cyclicDependency ∧
    (executeAll (fun _ => true) recorder rulesCycle []).state = [2, 3] := by
  refine ⟨by unfold DuplicatesAt; decide, ⟨⟨0, 10, 0, .one (.cls 11)⟩, rfl,
    .step (b := ⟨1, 11, 0, .one (.cls 10)⟩) ⟨by simp [rulesCycle], by simp [rulesCycle], rfl, by decide, .one _⟩
    (.single ⟨by simp [rulesCycle], by simp [rulesCycle], rfl, by decide, .one _⟩)⟩, by decide, by decide⟩

/-- Why class dependencies only: with a rule object of another priority as dependency, that rule runs twice (rule 1 is run at priority 5 for rule
0, then at its own priority). -/
theorem C58_object_twice : (∀ p, ¬ DuplicatesAt [⟨0, 10, 5, .one (.inst ⟨1, 11⟩)⟩, ⟨1, 11, 0, .none⟩] p) ∧
    considered (executeAll (fun _ => true) recorder [⟨0, 10, 5, .one (.inst ⟨1, 11⟩)⟩, ⟨1, 11, 0, .none⟩] []).trace =
      [⟨1, 11⟩, ⟨0, 10⟩, ⟨1, 11⟩] := by
  refine ⟨?_, by decide⟩
  intro p h
  apply h
  unfold atPriority
  by_cases h5 : (5 : Int) = p
  · subst h5; decide
  · by_cases h0 : (0 : Int) = p
    · subst h0; decide
    · simp [h5, h0]

/-- A rule object that is not registered, used as a dependency, makes the run fail with `ValueError`. -/
theorem C58_object_unregistered :
    (executeAll (fun _ => true) recorder [⟨0, 10, 5, .one (.inst ⟨1, 11⟩)⟩] []).err = some .valueError := by decide

/-! ## C60: what a rule does -/

theorem executeList_executes : ∀ (l : List RuleRef) (e : Option PyErr) (s : σ),
    ∃ e', Executes truthy beh l s (executeList truthy beh e l s).state (executeList truthy beh e l s).trace
      (executeList truthy beh e l s).ret e' ∧ (executeList truthy beh e l s).err = (match e' with | some x => some x | none => e)
  | [], e, s => ⟨none, .done s, rfl⟩
  | r :: l, e, s => by
    unfold executeList
    simp only
    by_cases hen : (beh r).enabled s = true
    · cases hw : (beh r).when_ s with
      | mk s1 res =>
        cases res with
        | error x =>
          have hx : executeRule truthy (beh r) r s = { state := s1, trace := [.enabled r, .when_ r], err := some x } := by
            unfold executeRule; rw [hw]; simp [hen]
          rw [hx]
          exact ⟨some x, .whenRaises hen hw, rfl⟩
        | ok a =>
          by_cases ht : truthy a = true
          · cases hth : (beh r).then_ s1 a with
            | mk s2 eo =>
              cases eo with
              | some x =>
                have hx : executeRule truthy (beh r) r s = { state := s2, trace := [.enabled r, .when_ r, .then_ r], err := some x } := by
                  unfold executeRule; rw [hw]; simp [hen, ht, hth]
                rw [hx]
                exact ⟨some x, .thenRaises hen hw ht hth, rfl⟩
              | none =>
                have hx : executeRule truthy (beh r) r s =
                    { state := s2, trace := [.enabled r, .when_ r, .then_ r], ret := [(r, a)] } := by
                  unfold executeRule; rw [hw]; simp [hen, ht, hth]
                rw [hx]
                obtain ⟨e', h1, h2⟩ := executeList_executes l e s2
                exact ⟨e', .fires hen hw ht hth h1, h2⟩
          · have hx : executeRule truthy (beh r) r s = { state := s1, trace := [.enabled r, .when_ r] } := by
              unfold executeRule; rw [hw]; simp [hen, ht]
            rw [hx]
            obtain ⟨e', h1, h2⟩ := executeList_executes l e s1
            exact ⟨e', .quiet hen hw (by simpa using ht) h1, h2⟩
    · have hx : executeRule truthy (beh r) r s = { state := s, trace := [.enabled r] } := by
        unfold executeRule; simp [hen]
      rw [hx]
      obtain ⟨e', h1, h2⟩ := executeList_executes l e s
      exact ⟨e', .disabled (by simpa using hen) h1, h2⟩

theorem considered_cons_enabled (r : RuleRef) (l : List RuleEvent) : considered (.enabled r :: l) = r :: considered l := rfl
theorem considered_cons_when (r : RuleRef) (l : List RuleEvent) : considered (.when_ r :: l) = considered l := rfl
theorem considered_cons_then (r : RuleRef) (l : List RuleEvent) : considered (.then_ r :: l) = considered l := rfl

theorem executes_considered {l : List RuleRef} {s s' : σ} {tr : List RuleEvent} {ret : List (RuleRef × ρ)} {e : Option PyErr}
    (h : Executes truthy beh l s s' tr ret e) : Executes truthy beh (considered tr) s s' tr ret e := by
  induction h with
  | done s => exact .done s
  | disabled h1 _ ih => exact .disabled h1 ih
  | quiet h1 h2 h3 _ ih => exact .quiet h1 h2 h3 ih
  | fires h1 h2 h3 h4 _ ih => exact .fires h1 h2 h3 h4 ih
  | whenRaises h1 h2 => exact .whenRaises h1 h2
  | thenRaises h1 h2 h3 h4 => exact .thenRaises h1 h2 h3 h4

/-- When `execute_all_rules` returns, it did exactly this, in the order the rules were considered: nothing for a disabled rule; `when`
for an enabled one; then, if its answer is truthy, its consequence on the state `when` left; and it returns the truthy answers with their
rules, in that order. -/
theorem C60 (rules : List RuleInfo) (s : σ) (h : (executeAll truthy beh rules s).err = none) :
    Executes truthy beh (considered (executeAll truthy beh rules s).trace) s (executeAll truthy beh rules s).state
      (executeAll truthy beh rules s).trace (executeAll truthy beh rules s).ret none := by
  obtain ⟨e', h1, h2⟩ := executeList_executes truthy beh (schedule rules).1 (schedule rules).2 s
  have h1 := executes_considered truthy beh h1
  cases e' with
  | some x => unfold executeAll at h; rw [h] at h2; cases h2
  | none => exact h1

/-- The same when it raises: up to there it did what `Executes` says, and the exception is the one of the rule that raised, or, if none did, the
engine's own. -/
theorem C60_raises (rules : List RuleInfo) (s : σ) :
    ∃ e, Executes truthy beh (considered (executeAll truthy beh rules s).trace) s (executeAll truthy beh rules s).state
      (executeAll truthy beh rules s).trace (executeAll truthy beh rules s).ret e ∧
      (∀ x, e = some x → (executeAll truthy beh rules s).err = some x) := by
  obtain ⟨e', h1, h2⟩ := executeList_executes truthy beh (schedule rules).1 (schedule rules).2 s
  refine ⟨e', executes_considered truthy beh h1, ?_⟩
  rintro x rfl
  exact h2

/-- A rule which, in every state, is disabled or whose `when` changes nothing and answers something falsy. -/
def Inert (b : Behaviour σ ρ) : Prop := ∀ s, b.enabled s = false ∨ ∃ a, b.when_ s = (s, .ok a) ∧ truthy a = false

/-- Inert rules change neither the outcome for the state nor what is reported: the run is one of the other rules alone, in the same order. -/
theorem C60_inert {l : List RuleRef} {s s' : σ} {tr : List RuleEvent} {ret : List (RuleRef × ρ)} {e : Option PyErr}
    (h : Executes truthy beh l s s' tr ret e) (keep : RuleRef → Bool) (hk : ∀ r, keep r = false → Inert truthy (beh r)) :
    ∃ tr', Executes truthy beh (l.filter keep) s s' tr' ret e := by
  induction h with
  | done s => exact ⟨[], .done s⟩
  | @disabled r rest s s' tr ret e h1 _ ih =>
    obtain ⟨tr', ih⟩ := ih
    cases hkr : keep r with
    | true => rw [List.filter_cons_of_pos hkr]; exact ⟨_, .disabled h1 ih⟩
    | false => rw [List.filter_cons_of_neg (by simp [hkr])]; exact ⟨_, ih⟩
  | @quiet r rest s s1 s' tr ret e a h1 h2 h3 _ ih =>
    obtain ⟨tr', ih⟩ := ih
    cases hkr : keep r with
    | true => rw [List.filter_cons_of_pos hkr]; exact ⟨_, .quiet h1 h2 h3 ih⟩
    | false =>
      rw [List.filter_cons_of_neg (by simp [hkr])]
      rcases hk r hkr s with h | ⟨a', h, _⟩
      · rw [h1] at h; cases h
      · rw [h2] at h
        have : s1 = s := by injection h
        subst this
        exact ⟨_, ih⟩
  | @fires r rest s s1 s2 s' tr ret e a h1 h2 h3 h4 _ ih =>
    obtain ⟨tr', ih⟩ := ih
    cases hkr : keep r with
    | true => rw [List.filter_cons_of_pos hkr]; exact ⟨_, .fires h1 h2 h3 h4 ih⟩
    | false =>
      exfalso
      rcases hk r hkr s with h | ⟨a', h, hf⟩
      · rw [h1] at h; cases h
      · rw [h2] at h
        injection h with _ h
        injection h with h
        rw [h, hf] at h3; cases h3
  | @whenRaises r rest s s1 e h1 h2 =>
    cases hkr : keep r with
    | true => rw [List.filter_cons_of_pos hkr]; exact ⟨_, .whenRaises h1 h2⟩
    | false =>
      exfalso
      rcases hk r hkr s with h | ⟨a', h, hf⟩
      · rw [h1] at h; cases h
      · rw [h2] at h; injection h with _ h; cases h
  | @thenRaises r rest s s1 s2 e a h1 h2 h3 h4 =>
    cases hkr : keep r with
    | true => rw [List.filter_cons_of_pos hkr]; exact ⟨_, .thenRaises h1 h2 h3 h4⟩
    | false =>
      exfalso
      rcases hk r hkr s with h | ⟨a', h, hf⟩
      · rw [h1] at h; cases h
      · rw [h2] at h
        injection h with _ h
        injection h with h
        rw [h, hf] at h3; cases h3

/-- When all rules are inert, nothing changes and nothing is reported. -/
theorem C60_all_inert (rules : List RuleInfo) (h : ∀ r, Inert truthy (beh r)) (s : σ) :
    (executeAll truthy beh rules s).state = s ∧ (executeAll truthy beh rules s).ret = [] := by
  obtain ⟨e, h1, _⟩ := C60_raises truthy beh rules s
  obtain ⟨tr', h2⟩ := C60_inert truthy beh h1 (fun _ => false) (fun r _ => h r)
  rw [List.filter_eq_nil_iff.2 (by simp)] at h2
  generalize (executeAll truthy beh rules s).state = s' at h2
  generalize (executeAll truthy beh rules s).ret = ret at h2
  cases h2
  exact ⟨rfl, rfl⟩

/-- Rule 0 disabled, rule 1 falsy, the others firing. -/
def someFire (r : RuleRef) : Behaviour (List Nat) Nat where
  enabled := fun _ => r.id != 0
  when_ := fun s => (s, .ok (r.id - 1))
  then_ := fun s a => (s ++ [a], none)

example : (executeAll (fun a => a != 0) someFire rulesDemo []).err = none ∧
    (executeAll (fun a => a != 0) someFire rulesDemo []).ret = [(⟨2, 12⟩, 1), (⟨3, 13⟩, 2)] ∧
    (executeAll (fun a => a != 0) someFire rulesDemo []).state = [1, 2] ∧
    Inert (fun a => a != 0) (someFire ⟨0, 10⟩) ∧ Inert (fun a => a != 0) (someFire ⟨1, 11⟩) := by
  refine ⟨by decide, by decide, by decide, fun s => .inl rfl, fun s => .inr ⟨0, rfl, rfl⟩⟩

/-! ## C59: conditions before consequences -/

theorem before_cons {α : Type} {l : List α} {z x y : α} : Before (z :: l) x y ↔ (z = x ∧ y ∈ l) ∨ Before l x y := by
  constructor
  · rintro ⟨i, j, hij, hi, hj⟩
    cases j with
    | zero => omega
    | succ j =>
      rw [List.getElem?_cons_succ] at hj
      cases i with
      | zero => exact .inl ⟨by simpa using hi, List.mem_of_getElem? hj⟩
      | succ i => exact .inr ⟨i, j, by omega, by simpa using hi, hj⟩
  · rintro (⟨rfl, hy⟩ | ⟨i, j, hij, hi, hj⟩)
    · obtain ⟨j, hj⟩ := List.mem_iff_getElem?.1 hy
      exact ⟨0, j + 1, by omega, by simp, by simpa using hj⟩
    · exact ⟨i + 1, j + 1, by omega, by simpa using hi, by simpa using hj⟩

theorem not_before_nil {α : Type} {x y : α} : ¬ Before ([] : List α) x y := by
  rintro ⟨i, j, _, hi, _⟩; simp at hi

theorem executes_events {l : List RuleRef} {s s' : σ} {tr : List RuleEvent} {ret : List (RuleRef × ρ)} {e : Option PyErr}
    (h : Executes truthy beh l s s' tr ret e) : (∀ y, .when_ y ∈ tr → y ∈ l) ∧ ∀ x y, Before tr (.then_ x) (.when_ y) → Before l x y := by
  induction h with
  | done s => exact ⟨by simp, fun x y h => absurd h not_before_nil⟩
  | disabled h1 _ ih =>
    refine ⟨fun y hy => ?_, fun x y h => ?_⟩
    · simp at hy; exact List.mem_cons_of_mem _ (ih.1 y hy)
    · rcases before_cons.1 h with ⟨h, _⟩ | h
      · cases h
      · exact before_cons.2 (.inr (ih.2 x y h))
  | quiet h1 h2 h3 _ ih =>
    refine ⟨fun y hy => ?_, fun x y h => ?_⟩
    · simp at hy
      rcases hy with rfl | hy
      · simp
      · exact List.mem_cons_of_mem _ (ih.1 y hy)
    · rcases before_cons.1 h with ⟨h, _⟩ | h
      · cases h
      · rcases before_cons.1 h with ⟨h, _⟩ | h
        · cases h
        · exact before_cons.2 (.inr (ih.2 x y h))
  | fires h1 h2 h3 h4 _ ih =>
    refine ⟨fun y hy => ?_, fun x y h => ?_⟩
    · simp at hy
      rcases hy with rfl | hy
      · simp
      · exact List.mem_cons_of_mem _ (ih.1 y hy)
    · rcases before_cons.1 h with ⟨h, _⟩ | h
      · cases h
      · rcases before_cons.1 h with ⟨h, _⟩ | h
        · cases h
        · rcases before_cons.1 h with ⟨h, hm⟩ | h
          · injection h with h
            exact before_cons.2 (.inl ⟨h, ih.1 y hm⟩)
          · exact before_cons.2 (.inr (ih.2 x y h))
  | whenRaises h1 h2 =>
    refine ⟨fun y hy => by simp at hy; simp [hy], fun x y h => ?_⟩
    rcases before_cons.1 h with ⟨h, _⟩ | h
    · cases h
    · rcases before_cons.1 h with ⟨h, _⟩ | h
      · cases h
      · exact absurd h not_before_nil
  | thenRaises h1 h2 h3 h4 =>
    refine ⟨fun y hy => by simp at hy; simp [hy], fun x y h => ?_⟩
    rcases before_cons.1 h with ⟨h, _⟩ | h
    · cases h
    · rcases before_cons.1 h with ⟨h, _⟩ | h
      · cases h
      · rcases before_cons.1 h with ⟨_, h⟩ | h
        · cases h
        · exact absurd h not_before_nil

/-- What the documentation promises is not what happens: with two rules of one priority, the consequence of the first comes before the condition of
the second, which therefore sees its effect. -/
theorem C59_refuted : ∃ rules : List RuleInfo, (∀ r ∈ rules, r.dependency = .none) ∧ (rules.map (fun r => r.cls)).Nodup ∧
    ¬ WhensFirst rules (executeAll (fun _ => true) recorder rules []).trace := by
  refine ⟨[⟨0, 10, 0, .none⟩, ⟨1, 11, 0, .none⟩], by simp, by decide, ?_⟩
  intro h
  exact h ⟨0, 10, 0, .none⟩ (by simp) ⟨1, 11, 0, .none⟩ (by simp) rfl ⟨2, 4, by decide, by decide, by decide⟩

/-- A consequence comes before the condition of a rule of the same priority exactly when its rule was considered earlier; in particular `C59` holds
when no two rules have the same priority.

Missing: the promise for rules of the same priority, which is false (`C59_refuted`). -/
theorem C59_partial (rules : List RuleInfo) (hc : OnlyClasses rules) (hid : ∀ a ∈ rules, ∀ b ∈ rules, a.ref = b.ref → a = b)
    (hp : ∀ a ∈ rules, ∀ b ∈ rules, a.priority = b.priority → a = b) (s : σ) :
    WhensFirst rules (executeAll truthy beh rules s).trace := by
  intro a ha b hb hab h
  obtain ⟨e, hex, _⟩ := C60_raises truthy beh rules s
  have hbef := (executes_events truthy beh hex).2 _ _ h
  have := hp a ha b hb hab
  subst this
  have hpre : considered (executeAll truthy beh rules s).trace <+: (schedule rules).1 :=
    (executeList_considered truthy beh (schedule rules).2 (schedule rules).1 s).1
  have hnd : (considered (executeAll truthy beh rules s).trace).Nodup := (schedule_nodup rules hc hid).sublist hpre.sublist
  obtain ⟨i, j, hij, hi, hj⟩ := hbef
  have := (List.getElem?_inj (List.getElem?_eq_some_iff.1 hi).1 hnd).1 (hi.trans hj.symm)
  omega

/-- Across priorities: no condition of a rule of greater priority comes after a consequence of a rule of smaller priority. -/
theorem C59_across (rules : List RuleInfo) (hc : OnlyClasses rules) (hid : ∀ a ∈ rules, ∀ b ∈ rules, a.ref = b.ref → a = b) (s : σ)
    (a : RuleInfo) (ha : a ∈ rules) (b : RuleInfo) (hb : b ∈ rules)
    (h : Before (executeAll truthy beh rules s).trace (.then_ a.ref) (.when_ b.ref)) : b.priority ≤ a.priority := by
  obtain ⟨e, hex, _⟩ := C60_raises truthy beh rules s
  have hbef := (executes_events truthy beh hex).2 _ _ h
  rcases (C57_partial truthy beh rules hc hid s).2.1 a ha b hb hbef with h | ⟨h, _⟩ <;> omega

example : OnlyClasses [⟨0, 10, 0, .none⟩, ⟨1, 11, 3, .none⟩] ∧
    (executeAll (fun _ => true) recorder [⟨0, 10, 0, .none⟩, ⟨1, 11, 3, .none⟩] []).trace =
      [.enabled ⟨1, 11⟩, .when_ ⟨1, 11⟩, .then_ ⟨1, 11⟩, .enabled ⟨0, 10⟩, .when_ ⟨0, 10⟩, .then_ ⟨0, 10⟩] := by
  refine ⟨?_, by decide⟩
  intro r hr d hd
  simp only [List.mem_cons, List.not_mem_nil, or_false] at hr
  rcases hr with rfl | rfl <;> cases hd

end
end Rebulk
