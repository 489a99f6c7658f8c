import Verif.Spec.Rebulk
import Verif.Lemmas.Utils
import Verif.Lemmas.Consequences
import Verif.Lemmas.Sort
/-!
# Lemmas on the `Rebulk` object
-/
namespace Rebulk
open Spec
variable {Ctx : Type}

/-! ## Merging children -/

theorem newOnes_distinctFrom {α κ : Type} [DecidableEq κ] (key : α → κ) (eq : α → α → Bool) (heq : ∀ a b, eq a b = decide (key a = key b))
    (added own : List α) : NewOnes key own added (distinctFrom eq own added) := by
  induction added generalizing own with
  | nil => exact ⟨by simp [distinctFrom], by simp [distinctFrom], List.Pairwise.nil, by simp⟩
  | cons x added ih =>
    simp only [distinctFrom]
    by_cases h : own.any (fun y => eq y x) = true
    · rw [if_pos h]
      have ih := ih own
      have hx : ∃ y ∈ own, key y = key x := by
        obtain ⟨y, hy, he⟩ := List.any_eq_true.1 h
        rw [heq] at he; exact ⟨y, hy, of_decide_eq_true he⟩
      obtain ⟨y, hy, hyx⟩ := hx
      have hne : ∀ z ∈ distinctFrom eq own added, ¬ key x = key z := fun z hz hxz => ih.fresh z hz y hy (hyx.trans hxz)
      refine ⟨ih.fresh, ?_, ?_, ?_⟩
      · intro z hz
        rw [List.find?_cons_of_neg (by simpa using hne z hz)]
        exact ih.first z hz
      · refine List.Pairwise.imp_of_mem ?_ ih.order
        intro a b ha hb hab
        rw [List.findIdx_cons, List.findIdx_cons, decide_eq_false (hne a ha), decide_eq_false (hne b hb)]
        simp only [cond_false]; omega
      · intro z hz
        rcases List.mem_cons.1 hz with rfl | hz
        · exact Or.inl ⟨y, hy, hyx⟩
        · exact ih.complete z hz
    · rw [if_neg h]
      have ih := ih (own ++ [x])
      have hx : ∀ y ∈ own, key y ≠ key x := by
        intro y hy he
        exact h (List.any_eq_true.2 ⟨y, hy, by rw [heq]; exact decide_eq_true he⟩)
      have hne : ∀ z ∈ distinctFrom eq (own ++ [x]) added, ¬ key x = key z := fun z hz => ih.fresh z hz x (by simp)
      refine ⟨?_, ?_, ?_, ?_⟩
      · intro z hz y hy
        rcases List.mem_cons.1 hz with rfl | hz
        · exact hx y hy
        · exact ih.fresh z hz y (List.mem_append_left _ hy)
      · intro z hz
        rcases List.mem_cons.1 hz with rfl | hz
        · simp
        · rw [List.find?_cons_of_neg (by simpa using hne z hz)]
          exact ih.first z hz
      · rw [List.pairwise_cons]
        refine ⟨fun z hz => ?_, ?_⟩
        · rw [List.findIdx_cons, List.findIdx_cons, decide_eq_true rfl, decide_eq_false (hne z hz)]
          simp only [cond_false, cond_true]; omega
        · refine List.Pairwise.imp_of_mem ?_ ih.order
          intro a b ha hb hab
          rw [List.findIdx_cons, List.findIdx_cons, decide_eq_false (hne a ha), decide_eq_false (hne b hb)]
          simp only [cond_false]; omega
      · intro z hz
        rcases List.mem_cons.1 hz with rfl | hz
        · exact Or.inr ⟨z, List.mem_cons_self, rfl⟩
        · rcases ih.complete z hz with ⟨y, hy, he⟩ | ⟨y, hy, he⟩
          · rcases List.mem_append.1 hy with hy | hy
            · exact Or.inl ⟨y, hy, he⟩
            · rw [List.mem_singleton] at hy; subst hy
              exact Or.inr ⟨_, List.mem_cons_self, he⟩
          · exact Or.inr ⟨y, List.mem_cons_of_mem _ hy, he⟩

/-- Patterns are the same when they are the same object. -/
def samePattern (a b : PatternObj Ctx) : Bool := a.id == b.id
/-- Rules are the same when they have the same class. -/
def sameRule (a b : RuleObj) : Bool := a.info.cls == b.info.cls

theorem addPatterns_spec (ctx : Ctx) (cs : List (RebulkObj Ctx)) (acc : List (PatternObj Ctx)) :
    RebulkObj.addPatterns ctx cs acc = acc ++ distinctFrom samePattern acc ((cs.filter (fun c => !c.disabled ctx)).flatMap (fun c => c.patterns)) := by
  induction cs generalizing acc with
  | nil => simp [RebulkObj.addPatterns, distinctFrom]
  | cons c cs ih =>
    unfold RebulkObj.addPatterns
    cases hc : c.disabled ctx with
    | true => simp only [Bool.not_true, Bool.false_eq_true, if_false]; rw [ih, List.filter_cons_of_neg (by simp [hc])]
    | false =>
      simp only [Bool.not_false, if_true]
      rw [ih, List.filter_cons_of_pos (by simp [hc]), List.flatMap_cons, distinctFrom_append]
      have : extendSafe (fun a b : PatternObj Ctx => a.id == b.id) (fun _ => true) false acc c.patterns = acc ++ distinctFrom samePattern acc c.patterns :=
        extendSafe_spec samePattern (fun x => by simp [samePattern]) _ acc c.patterns
      rw [this, List.append_assoc]

theorem addRules_spec (ctx : Ctx) (cs : List (RebulkObj Ctx)) (acc : List RuleObj) :
    RebulkObj.addRules ctx cs acc = acc ++ distinctFrom sameRule acc ((cs.filter (fun c => !c.disabled ctx)).flatMap (fun c => c.rules)) := by
  induction cs generalizing acc with
  | nil => simp [RebulkObj.addRules, distinctFrom]
  | cons c cs ih =>
    unfold RebulkObj.addRules
    cases hc : c.disabled ctx with
    | true => simp only [Bool.not_true, Bool.false_eq_true, if_false]; rw [ih, List.filter_cons_of_neg (by simp [hc])]
    | false =>
      simp only [Bool.not_false, if_true]
      rw [ih, List.filter_cons_of_pos (by simp [hc]), List.flatMap_cons, distinctFrom_append]
      have : extendSafe (fun a b : RuleObj => a.info.cls == b.info.cls) (fun _ => true) false acc c.rules = acc ++ distinctFrom sameRule acc c.rules :=
        extendSafe_spec sameRule (fun x => by simp [sameRule]) _ acc c.rules
      rw [this, List.append_assoc]

theorem newOnes_nodup {α κ : Type} [DecidableEq κ] {key : α → κ} {own added news : List α} (h : NewOnes key own added news) :
    (news.map key).Nodup := by
  unfold List.Nodup
  rw [List.pairwise_map]
  refine h.order.imp ?_
  intro a b hab he
  simp only [he] at hab
  omega

theorem newOnes_append_nodup {α κ : Type} [DecidableEq κ] {key : α → κ} {own added news : List α} (h : NewOnes key own added news)
    (ho : (own.map key).Nodup) : ((own ++ news).map key).Nodup := by
  rw [List.map_append, List.nodup_append]
  refine ⟨ho, newOnes_nodup h, ?_⟩
  intro a ha b hb hab
  obtain ⟨y, hy, rfl⟩ := List.mem_map.1 ha
  obtain ⟨x, hx, rfl⟩ := List.mem_map.1 hb
  exact h.fresh x hx y hy hab

/-- At most one list of new ones. -/
theorem newOnes_unique {α κ : Type} [DecidableEq κ] {key : α → κ} {own added n1 n2 : List α} (h1 : NewOnes key own added n1)
    (h2 : NewOnes key own added n2) : n1 = n2 := by
  have hsub : ∀ (a b : List α), NewOnes key own added a → NewOnes key own added b → ∀ x ∈ a, x ∈ b := by
    intro a b ha hb x hx
    have hf := ha.first x hx
    have hxm := List.mem_of_find?_eq_some hf
    rcases hb.complete x hxm with ⟨y, hy, he⟩ | ⟨y, hy, he⟩
    · exact absurd he (ha.fresh x hx y hy)
    · have hg := hb.first y hy
      rw [he, hf] at hg
      injection hg with hg; rw [hg]; exact hy
  have hn : ∀ a : List α, NewOnes key own added a → a.Nodup := by
    intro a ha
    refine ha.order.imp ?_
    intro x y hxy he
    subst he; omega
  have hp : n1.Perm n2 := (List.perm_ext_iff_of_nodup (hn n1 h1) (hn n2 h2)).2 (fun x => ⟨hsub _ _ h1 h2 x, hsub _ _ h2 h1 x⟩)
  refine List.Perm.eq_of_pairwise ?_ h1.order h2.order hp
  intro a b _ _ h h'; omega

theorem mergeKeys_get (acc d : Dict String Key) (n : String) :
    (RebulkObj.mergeKeys acc d).get? n = (acc.get? n).or (d.get? n) := by
  unfold RebulkObj.mergeKeys
  induction d generalizing acc with
  | nil => simp [Dict.get?]
  | cons kv d ih =>
    rw [List.foldl_cons, ih]
    simp only [Dict.get?]
    unfold Dict.setDefault Dict.contains
    cases hg : Dict.get? acc kv.1 with
    | some v =>
      simp only [Option.isSome_some, if_true]
      by_cases hk : kv.1 = n
      · subst hk; rw [hg]; rfl
      · rw [if_neg (by simpa using hk)]
    | none =>
      simp only [Option.isSome_none, Bool.false_eq_true, if_false]
      rw [Dict.get?_set]
      by_cases hk : kv.1 = n
      · subst hk; rw [hg]; simp
      · simp [hk, Ne.symm hk]

theorem addKeys_get (ctx : Ctx) (cs : List (RebulkObj Ctx)) (acc : Dict String Key) (n : String) :
    (RebulkObj.addKeys ctx cs acc).get? n = (acc.get? n).or ((cs.filter (fun c => !c.disabled ctx)).findSome? (fun c => c.keys.get? n)) := by
  induction cs generalizing acc with
  | nil => simp [RebulkObj.addKeys]
  | cons c cs ih =>
    unfold RebulkObj.addKeys
    cases hc : c.disabled ctx with
    | true => simp only [Bool.not_true, Bool.false_eq_true, if_false]; rw [ih, List.filter_cons_of_neg (by simp [hc])]
    | false =>
      simp only [Bool.not_false, if_true]
      rw [ih, List.filter_cons_of_pos (by simp [hc]), mergeKeys_get, List.findSome?_cons]
      cases Dict.get? acc n <;> simp
      cases Dict.get? c.keys n <;> simp

/-! ## Dropping patterns and children -/

theorem distinctFrom_filter {α : Type} (eq : α → α → Bool) (e : α → Bool) (l seen : List α)
    (h : ∀ a ∈ seen ++ l, ∀ b ∈ seen ++ l, eq a b = true → e a = e b) :
    (distinctFrom eq seen l).filter e = distinctFrom eq (seen.filter e) (l.filter e) := by
  induction l generalizing seen with
  | nil => simp [distinctFrom]
  | cons x l ih =>
    simp only [distinctFrom]
    have hmem : ∀ a, a ∈ seen ++ l → a ∈ seen ++ x :: l := by
      intro a ha
      rcases List.mem_append.1 ha with ha | ha
      · exact List.mem_append_left _ ha
      · exact List.mem_append_right _ (List.mem_cons_of_mem _ ha)
    have ih1 := ih seen (fun a ha b hb => h a (hmem a ha) b (hmem b hb))
    have ih2 := ih (seen ++ [x]) (fun a ha b hb => by
      rw [List.append_assoc, List.singleton_append] at ha hb; exact h a ha b hb)
    cases hx : e x with
    | false =>
      rw [List.filter_cons_of_neg (by simp [hx])]
      by_cases hs : seen.any (fun y => eq y x) = true
      · rw [if_pos hs]; exact ih1
      · rw [if_neg hs, List.filter_cons_of_neg (by simp [hx]), ih2, List.filter_append, List.filter_cons_of_neg (by simp [hx])]
        simp
    | true =>
      rw [List.filter_cons_of_pos hx]
      simp only [distinctFrom]
      have hany : (seen.filter e).any (fun y => eq y x) = seen.any (fun y => eq y x) := by
        rw [Bool.eq_iff_iff, List.any_eq_true, List.any_eq_true]
        constructor
        · rintro ⟨y, hy, he⟩; exact ⟨y, (List.mem_filter.1 hy).1, he⟩
        · rintro ⟨y, hy, he⟩
          exact ⟨y, List.mem_filter.2 ⟨hy, by rw [h y (by simp [hy]) x (by simp) he]; exact hx⟩, he⟩
      rw [hany]
      by_cases hs : seen.any (fun y => eq y x) = true
      · rw [if_pos hs, if_pos hs]; exact ih1
      · rw [if_neg hs, if_neg hs, List.filter_cons_of_pos hx, ih2, List.filter_append, List.filter_cons_of_pos hx]
        simp

theorem filter_disabled_map {α : Type} (g : RebulkObj Ctx → RebulkObj Ctx) (hg : ∀ c, (g c).disabled = c.disabled) (ctx : Ctx)
    (sel sel' : RebulkObj Ctx → List α) (h : ∀ c, sel (g c) = sel' c) (cs : List (RebulkObj Ctx)) :
    ((cs.map g).filter (fun c => !c.disabled ctx)).flatMap sel = (cs.filter (fun c => !c.disabled ctx)).flatMap sel' := by
  induction cs with
  | nil => rfl
  | cons c cs ih =>
    rw [List.map_cons]
    cases hc : c.disabled ctx with
    | true => rw [List.filter_cons_of_neg (by simp [hg, hc]), List.filter_cons_of_neg (by simp [hc]), ih]
    | false =>
      rw [List.filter_cons_of_pos (by simp [hg, hc]), List.filter_cons_of_pos (by simp [hc]), List.flatMap_cons, List.flatMap_cons, h, ih]

theorem effectivePatterns_only (keep : PatternObj Ctx → Bool) (r : RebulkObj Ctx) (ctx : Ctx)
    (hid : ∀ p ∈ allPatternsOf r, ∀ q ∈ allPatternsOf r, p.id = q.id → keep p = keep q) :
    (onlyPatterns keep r).effectivePatterns ctx = (r.effectivePatterns ctx).filter keep := by
  unfold RebulkObj.effectivePatterns
  rw [addPatterns_spec, addPatterns_spec, List.filter_append, distinctFrom_filter]
  · unfold onlyPatterns
    simp only
    rw [filter_disabled_map (fun c => { c with patterns := c.patterns.filter keep }) (fun c => rfl) ctx (fun c => c.patterns)
      (fun c => c.patterns.filter keep) (fun c => rfl), List.filter_flatMap]
  · have hsub : ∀ a, a ∈ r.patterns ++ (r.children.filter (fun c => !c.disabled ctx)).flatMap (fun c => c.patterns) → a ∈ allPatternsOf r := by
      intro a ha
      rcases List.mem_append.1 ha with ha | ha
      · exact List.mem_append_left _ ha
      · obtain ⟨c, hc, ha⟩ := List.mem_flatMap.1 ha
        exact List.mem_append_right _ (List.mem_flatMap.2 ⟨c, (List.mem_filter.1 hc).1, ha⟩)
    intro a ha b hb he
    exact hid a (hsub a ha) b (hsub b hb) (by simpa [samePattern] using he)

theorem effectiveRules_only (keep : PatternObj Ctx → Bool) (r : RebulkObj Ctx) (ctx : Ctx) :
    (onlyPatterns keep r).effectiveRules ctx = r.effectiveRules ctx := by
  unfold RebulkObj.effectiveRules
  rw [addRules_spec, addRules_spec]
  unfold onlyPatterns
  simp only
  rw [filter_disabled_map (fun c => { c with patterns := c.patterns.filter keep }) (fun c => rfl) ctx (fun c => c.rules) (fun c => c.rules) (fun c => rfl)]

theorem addKeys_map (g : RebulkObj Ctx → RebulkObj Ctx) (hg : ∀ c, (g c).disabled = c.disabled) (hk : ∀ c, (g c).keys = c.keys) (ctx : Ctx)
    (cs : List (RebulkObj Ctx)) (acc : Dict String Key) : RebulkObj.addKeys ctx (cs.map g) acc = RebulkObj.addKeys ctx cs acc := by
  induction cs generalizing acc with
  | nil => rfl
  | cons c cs ih =>
    rw [List.map_cons]
    unfold RebulkObj.addKeys
    rw [hg, hk]
    split <;> exact ih _

theorem addKeys_filter (keep : RebulkObj Ctx → Bool) (ctx : Ctx) (cs : List (RebulkObj Ctx)) (h : ∀ c ∈ cs, keep c = false → c.disabled ctx = true)
    (acc : Dict String Key) : RebulkObj.addKeys ctx (cs.filter keep) acc = RebulkObj.addKeys ctx cs acc := by
  induction cs generalizing acc with
  | nil => rfl
  | cons c cs ih =>
    have ih := ih (fun x hx => h x (List.mem_cons_of_mem _ hx))
    cases hk : keep c with
    | true =>
      rw [List.filter_cons_of_pos hk]
      unfold RebulkObj.addKeys
      split <;> exact ih _
    | false =>
      rw [List.filter_cons_of_neg (by simp [hk])]
      conv => rhs; unfold RebulkObj.addKeys
      rw [if_neg (by simp [h c List.mem_cons_self hk])]
      exact ih _

theorem searchPatterns_filter (lower : Str → Str) (ctx : Ctx) (input : Str) (keep : PatternObj Ctx → Bool) (ps : List (PatternObj Ctx))
    (h : ∀ p ∈ ps, keep p = false → p.info.disabled ctx = true) (f : Found) :
    searchPatterns lower ctx input (ps.filter keep) f = searchPatterns lower ctx input ps f := by
  induction ps generalizing f with
  | nil => rfl
  | cons p ps ih =>
    have ih := ih (fun x hx => h x (List.mem_cons_of_mem _ hx))
    cases hk : keep p with
    | true =>
      rw [List.filter_cons_of_pos hk]
      unfold searchPatterns
      split
      · cases p.matches_ lower input with
        | error e => rfl
        | ok ts =>
          simp only
          cases Found.addAll ts f with
          | error e => rfl
          | ok f => exact ih f
      · exact ih f
    | false =>
      rw [List.filter_cons_of_neg (by simp [hk])]
      conv => rhs; unfold searchPatterns
      rw [if_neg (by simp [h p List.mem_cons_self hk])]
      exact ih f

/-! ## Collecting the matches -/

/-- What is kept while matches are added. -/
structure Gathering (f : Found) : Prop where
  foundTidy : Tidy f.found
  markersTidy : Tidy f.markers
  foundKind : f.found.isMarkers = false
  markersKind : f.markers.isMarkers = true
  bound : ∀ m ∈ f.found.delegate ++ f.markers.delegate, m.id < f.found.length + f.markers.length
  nodup : (f.found.delegate.map Match.id ++ f.markers.delegate.map Match.id).Nodup

theorem gathering_empty (input : Str) (keys : Dict String Key) : Gathering { Found.empty input with keys := keys } := by
  refine ⟨⟨Matches.inv_empty _ _, Matches.exact_empty _ _⟩, ⟨Matches.inv_empty _ _, Matches.exact_empty _ _⟩, rfl, rfl, ?_, ?_⟩
  · intro m hm; simp [Found.empty, Matches.empty] at hm
  · simp [Found.empty, Matches.empty]

theorem tidy_append {s : Matches} (h : Tidy s) (m : Match) (hm : m.marker = s.isMarkers) :
    (s.append m).2 = none ∧ Tidy (s.append m).1 ∧ (s.append m).1.delegate = s.delegate ++ [m] ∧ (s.append m).1.isMarkers = s.isMarkers := by
  obtain ⟨h1, h2, h3⟩ := Matches.inv_append h.inv m hm
  exact ⟨h1, ⟨h2, Matches.exact_append h.exact_ m hm⟩, h3, (Matches.append_static s m).1⟩

theorem found_add {f : Found} (h : Gathering f) (t : MTree) :
    ∃ f', f.add t = (f', none) ∧ Gathering f' ∧ f'.keys = f.keys ∧
      f'.found.delegate.map content = f.found.delegate.map content ++ (rootsOf false [t]).map content ∧
      f'.markers.delegate.map content = f.markers.delegate.map content ++ (rootsOf true [t]).map content := by
  have hfresh : ∀ m ∈ f.found.delegate ++ f.markers.delegate, m.id ≠ f.found.length + f.markers.length := fun m hm he => by
    have := h.bound m hm; omega
  have hc : ∀ n : Nat, content { t.root with id := n } = content t.root := fun n => rfl
  unfold Found.add
  simp only
  by_cases hm : t.root.marker = true
  · rw [if_pos hm]
    obtain ⟨h1, h2, h3, h4⟩ := tidy_append h.markersTidy { t.root with id := f.found.length + f.markers.length } (by rw [h.markersKind]; exact hm)
    rw [h1]
    refine ⟨_, rfl, ⟨h.foundTidy, h2, h.foundKind, h4.trans h.markersKind, ?_, ?_⟩, rfl, ?_, ?_⟩
    · intro x hx
      simp only [h3] at hx
      show x.id < f.found.delegate.length + (f.markers.append _).1.delegate.length
      rw [h3, List.length_append, List.length_singleton]
      rw [← List.append_assoc] at hx
      rcases List.mem_append.1 hx with hx | hx
      · have := h.bound x hx; simp only [Matches.length] at this; omega
      · rw [List.mem_singleton] at hx; subst hx; simp only [Matches.length]; omega
    · simp only [h3, List.map_append, List.map_cons, List.map_nil]
      rw [← List.append_assoc, List.nodup_append]
      refine ⟨h.nodup, by simp, ?_⟩
      intro a ha b hb
      rw [List.mem_singleton] at hb; subst hb
      rw [← List.map_append] at ha
      obtain ⟨x, hx, rfl⟩ := List.mem_map.1 ha
      exact hfresh x hx
    · simp [rootsOf, hm]
    · simp only [h3, List.map_append, List.map_cons, List.map_nil, hc]
      simp [rootsOf, hm]
  · rw [if_neg hm]
    have hm' : t.root.marker = false := by simpa using hm
    obtain ⟨h1, h2, h3, h4⟩ := tidy_append h.foundTidy { t.root with id := f.found.length + f.markers.length } (by rw [h.foundKind]; exact hm')
    rw [h1]
    refine ⟨_, rfl, ⟨h2, h.markersTidy, h4.trans h.foundKind, h.markersKind, ?_, ?_⟩, rfl, ?_, ?_⟩
    · intro x hx
      simp only [h3] at hx
      show x.id < (f.found.append _).1.delegate.length + f.markers.delegate.length
      rw [h3, List.length_append, List.length_singleton]
      rw [List.append_assoc] at hx
      rcases List.mem_append.1 hx with hx | hx
      · have := h.bound x (List.mem_append_left _ hx); simp only [Matches.length] at this; omega
      · rcases List.mem_cons.1 hx with rfl | hx
        · simp only [Matches.length]; omega
        · have := h.bound x (List.mem_append_right _ hx); simp only [Matches.length] at this; omega
    · simp only [h3, List.map_append, List.map_cons, List.map_nil]
      have hp : ((f.found.delegate.map Match.id ++ [f.found.length + f.markers.length]) ++ f.markers.delegate.map Match.id).Perm
          ((f.found.delegate.map Match.id ++ f.markers.delegate.map Match.id) ++ [f.found.length + f.markers.length]) := by
        rw [List.append_assoc, List.append_assoc]
        exact List.Perm.append_left _ List.perm_append_comm
      rw [hp.nodup_iff, List.nodup_append]
      refine ⟨h.nodup, by simp, ?_⟩
      intro a ha b hb
      rw [List.mem_singleton] at hb; subst hb
      rw [← List.map_append] at ha
      obtain ⟨x, hx, rfl⟩ := List.mem_map.1 ha
      exact hfresh x hx
    · simp only [h3, List.map_append, List.map_cons, List.map_nil, hc]
      simp [rootsOf, hm']
    · simp [rootsOf, hm']

theorem rootsOf_append (b : Bool) (ts ts' : List MTree) : rootsOf b (ts ++ ts') = rootsOf b ts ++ rootsOf b ts' := by
  simp [rootsOf]

theorem found_addAll : ∀ (ts : List MTree) {f : Found}, Gathering f →
    ∃ f', Found.addAll ts f = .ok f' ∧ Gathering f' ∧ f'.keys = f.keys ∧
      f'.found.delegate.map content = f.found.delegate.map content ++ (rootsOf false ts).map content ∧
      f'.markers.delegate.map content = f.markers.delegate.map content ++ (rootsOf true ts).map content
  | [], f, h => ⟨f, rfl, h, rfl, by simp [rootsOf], by simp [rootsOf]⟩
  | t :: ts, f, h => by
    obtain ⟨f1, h1, h2, h3, h4, h5⟩ := found_add h t
    obtain ⟨f2, g1, g2, g3, g4, g5⟩ := found_addAll ts h2
    refine ⟨f2, ?_, g2, g3.trans h3, ?_, ?_⟩
    · unfold Found.addAll; rw [h1]; exact g1
    · rw [g4, h4, List.append_assoc, ← List.map_append, ← rootsOf_append]; rfl
    · rw [g5, h5, List.append_assoc, ← List.map_append, ← rootsOf_append]; rfl

theorem searchPatterns_collects {lower : Str → Str} {ctx : Ctx} {input : Str} {ps : List (PatternObj Ctx)} {ts : List MTree}
    (hc : Collects lower ctx input ps ts) : ∀ {f : Found}, Gathering f →
    ∃ f', searchPatterns lower ctx input ps f = .ok f' ∧ Gathering f' ∧ f'.keys = f.keys ∧
      f'.found.delegate.map content = f.found.delegate.map content ++ (rootsOf false ts).map content ∧
      f'.markers.delegate.map content = f.markers.delegate.map content ++ (rootsOf true ts).map content := by
  induction hc with
  | nil => intro f h; exact ⟨f, rfl, h, rfl, by simp [rootsOf], by simp [rootsOf]⟩
  | disabled hd _ ih =>
    intro f h
    obtain ⟨f', h1, h2⟩ := ih h
    refine ⟨f', ?_, h2⟩
    unfold searchPatterns; rw [if_neg (by simp [hd])]; exact h1
  | @enabled _ _ ts _ hd hm _ ih =>
    intro f h
    obtain ⟨f1, h1, h2, h3, h4, h5⟩ := found_addAll ts h
    obtain ⟨f2, g1, g2, g3, g4, g5⟩ := ih h2
    refine ⟨f2, ?_, g2, g3.trans h3, ?_, ?_⟩
    · unfold searchPatterns; rw [if_pos (by simp [hd]), hm]; simp only [h1]; exact g1
    · rw [g4, h4, List.append_assoc, ← List.map_append, ← rootsOf_append]
    · rw [g5, h5, List.append_assoc, ← List.map_append, ← rootsOf_append]

theorem found_add_input (f : Found) (t : MTree) : (f.add t).1.found.inputString = f.found.inputString ∧
    (f.add t).1.markers.inputString = f.markers.inputString := by
  unfold Found.add
  simp only
  split
  · exact ⟨rfl, (Matches.append_static _ _).2⟩
  · exact ⟨(Matches.append_static _ _).2, rfl⟩

theorem found_addAll_input : ∀ (ts : List MTree) {f f' : Found}, Found.addAll ts f = .ok f' → f'.found.inputString = f.found.inputString ∧
    f'.markers.inputString = f.markers.inputString
  | [], f, f', h => by cases h; exact ⟨rfl, rfl⟩
  | t :: ts, f, f', h => by
    unfold Found.addAll at h
    have h1 := found_add_input f t
    split at h
    · cases h
    · next g hg =>
      rw [hg] at h1
      obtain ⟨a, b⟩ := found_addAll_input ts h
      exact ⟨a.trans h1.1, b.trans h1.2⟩

theorem searchPatterns_input {lower : Str → Str} {ctx : Ctx} {input : Str} : ∀ (ps : List (PatternObj Ctx)) {f f' : Found},
    searchPatterns lower ctx input ps f = .ok f' → f'.found.inputString = f.found.inputString ∧ f'.markers.inputString = f.markers.inputString
  | [], f, f', h => by cases h; exact ⟨rfl, rfl⟩
  | p :: ps, f, f', h => by
    unfold searchPatterns at h
    split at h
    · split at h
      · cases h
      · split at h
        · cases h
        · next g hg =>
          obtain ⟨a, b⟩ := searchPatterns_input ps h
          have h1 := found_addAll_input _ hg
          exact ⟨a.trans h1.1, b.trans h1.2⟩
    · exact searchPatterns_input ps h

theorem searchPatterns_raises {lower : Str → Str} {ctx : Ctx} {input : Str} {ps : List (PatternObj Ctx)} {e : PyErr}
    (hc : RaisesFirst lower ctx input e ps) : ∀ {f : Found}, Gathering f → searchPatterns lower ctx input ps f = .error e := by
  induction hc with
  | here hd hm => intro f h; unfold searchPatterns; rw [if_pos (by simp [hd]), hm]
  | disabled hd _ ih => intro f h; unfold searchPatterns; rw [if_neg (by simp [hd])]; exact ih h
  | @fine _ _ ts hd hm _ ih =>
    intro f h
    obtain ⟨f1, h1, h2, _⟩ := found_addAll ts h
    unfold searchPatterns; rw [if_pos (by simp [hd]), hm]; simp only [h1]; exact ih h2

theorem collects_or_raises (lower : Str → Str) (ctx : Ctx) (input : Str) (ps : List (PatternObj Ctx)) :
    (∃ ts, Collects lower ctx input ps ts) ∨ ∃ e, RaisesFirst lower ctx input e ps := by
  induction ps with
  | nil => exact .inl ⟨_, .nil⟩
  | cons p ps ih =>
    cases hd : p.info.disabled ctx with
    | true =>
      rcases ih with ⟨ts, h⟩ | ⟨e, h⟩
      · exact .inl ⟨_, .disabled hd h⟩
      · exact .inr ⟨_, .disabled hd h⟩
    | false =>
      cases hm : p.matches_ lower input with
      | error e => exact .inr ⟨e, .here hd hm⟩
      | ok ts =>
        rcases ih with ⟨ts', h⟩ | ⟨e, h⟩
        · exact .inl ⟨_, .enabled hd hm h⟩
        · exact .inr ⟨_, .fine hd hm h⟩

end Rebulk
