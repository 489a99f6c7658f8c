import Verif.Spec.Session
import Verif.Props.Consequences
import Verif.Props.Rules
import Verif.Props.Rebulk
/-!
# C96: repeated calls of `matches`
-/
namespace Rebulk
open Spec

section
variable {Ctx ρ : Type}

/-- The rules keep the tag lists of the patterns, and what they do to the matches does not depend on the others. -/
theorem executeRule_lists {truthy : ρ → Bool} {listOf : Nat → Nat} {b : Behaviour (Found × TagLists) ρ} (hk : KeepsPatternTags listOf b)
    (hl : LooksAtMatches b) (r : RuleRef) (f : Found) (l l' : TagLists) :
    (executeRule truthy b r (f, l)).state.1 = (executeRule truthy b r (f, l')).state.1 ∧
    (executeRule truthy b r (f, l)).err = (executeRule truthy b r (f, l')).err ∧
    ∀ p, (executeRule truthy b r (f, l)).state.2 (listOf p) = l (listOf p) := by
  obtain ⟨h1, h2, h3, _⟩ := hl f l l'
  unfold executeRule
  rw [h1]
  cases hen : b.enabled (f, l') with
  | false => exact ⟨rfl, rfl, fun _ => rfl⟩
  | true =>
    simp only [if_true]
    have hkw := hk.1 (f, l)
    cases hw : b.when_ (f, l) with
    | mk s1 x =>
      cases hw' : b.when_ (f, l') with
      | mk s1' x' =>
        rw [hw, hw'] at h2 h3
        rw [hw] at hkw
        simp only at h2 h3 hkw
        subst h3
        cases x with
        | error e => exact ⟨h2, rfl, hkw⟩
        | ok a =>
          simp only
          cases ht : truthy a with
          | false => exact ⟨h2, rfl, hkw⟩
          | true =>
            simp only [if_true]
            obtain ⟨f1, l1⟩ := s1
            obtain ⟨f1', l1'⟩ := s1'
            simp only at h2
            subst h2
            obtain ⟨h4, h5⟩ := (hl f1 l1 l1').2.2.2 a
            have hkt := hk.2 (f1, l1) a
            cases hth : b.then_ (f1, l1) a with
            | mk s2 y =>
              cases hth' : b.then_ (f1, l1') a with
              | mk s2' y' =>
                rw [hth, hth'] at h4 h5
                rw [hth] at hkt
                simp only at h4 h5 hkt
                subst h5
                cases y with
                | some e => exact ⟨h4, rfl, fun p => (hkt p).trans (hkw p)⟩
                | none => exact ⟨h4, rfl, fun p => (hkt p).trans (hkw p)⟩

theorem executeList_lists {truthy : ρ → Bool} {listOf : Nat → Nat} {beh : RuleRef → Behaviour (Found × TagLists) ρ}
    (hk : ∀ r, KeepsPatternTags listOf (beh r)) (hl : ∀ r, LooksAtMatches (beh r)) (e : Option PyErr) :
    ∀ (rs : List RuleRef) (f : Found) (l l' : TagLists),
    (executeList truthy beh e rs (f, l)).state.1 = (executeList truthy beh e rs (f, l')).state.1 ∧
    (executeList truthy beh e rs (f, l)).err = (executeList truthy beh e rs (f, l')).err ∧
    ∀ p, (executeList truthy beh e rs (f, l)).state.2 (listOf p) = l (listOf p)
  | [], _, _, _ => ⟨rfl, rfl, fun _ => rfl⟩
  | r :: rs, f, l, l' => by
    obtain ⟨h1, h2, h3⟩ := executeRule_lists (truthy := truthy) (hk r) (hl r) r f l l'
    unfold executeList
    simp only
    rw [h2]
    cases he : (executeRule truthy (beh r) r (f, l')).err with
    | some x => exact ⟨h1, by simp only; rw [h2], h3⟩
    | none =>
      simp only
      have e1 : (executeRule truthy (beh r) r (f, l)).state = ((executeRule truthy (beh r) r (f, l)).state.1, (executeRule truthy (beh r) r (f, l)).state.2) := rfl
      have e2 : (executeRule truthy (beh r) r (f, l')).state = ((executeRule truthy (beh r) r (f, l)).state.1, (executeRule truthy (beh r) r (f, l')).state.2) := by
        rw [h1]
      rw [e1, e2]
      obtain ⟨h4, h5, h6⟩ := executeList_lists hk hl e rs (executeRule truthy (beh r) r (f, l)).state.1
        (executeRule truthy (beh r) r (f, l)).state.2 (executeRule truthy (beh r) r (f, l')).state.2
      exact ⟨h4, h5, fun p => (h6 p).trans (h3 p)⟩

/-- One call, from two histories with the same tags of patterns. -/
theorem matchesIn_lists {env : SessionEnv ρ} (hk : ∀ refs r, KeepsPatternTags env.listOf (env.rule refs r))
    (hl : ∀ refs r, LooksAtMatches (env.rule refs r)) (r : RebulkObj Ctx) (input : Str) (ctx : Ctx) (l l' : TagLists)
    (h : ∀ p, l (env.listOf p) = l' (env.listOf p)) :
    (r.matchesIn env input ctx l).1 = (r.matchesIn env input ctx l').1 ∧
    ∀ p, (r.matchesIn env input ctx l).2 (env.listOf p) = l (env.listOf p) := by
  have hsame : (fun p => l (env.listOf p)) = fun p => l' (env.listOf p) := funext h
  unfold RebulkObj.matchesIn
  rw [hsame]
  simp only
  split
  · exact ⟨rfl, fun _ => rfl⟩
  · rename_i f _
    split
    · exact ⟨rfl, fun _ => rfl⟩
    · unfold RebulkObj.executeRulesIn
      split
      · obtain ⟨h1, h2, h3⟩ := executeList_lists (truthy := env.truthy) (hk (env.holds f)) (hl (env.holds f))
          (schedule ((r.effectiveRules ctx).map RuleObj.info)).2 (schedule ((r.effectiveRules ctx).map RuleObj.info)).1 f l l'
        simp only [executeAll]
        rw [h1, h2]
        exact ⟨rfl, h3⟩
      · exact ⟨rfl, fun _ => rfl⟩

/-- **C96, partial**: when the rules leave the tag lists of the patterns as they are and look only at the matches, the calls of a series are independent:
each has the outcome it would have had as the first call, whatever was called before, also after calls that raised. (Missing: rules that change tags,
`C96_refuted`.) -/
theorem C96_partial (env : SessionEnv ρ) (hk : ∀ refs r, KeepsPatternTags env.listOf (env.rule refs r))
    (hl : ∀ refs r, LooksAtMatches (env.rule refs r)) (r : RebulkObj Ctx) (calls : List (Str × Ctx)) (lists : TagLists) :
    r.session env calls lists = calls.map (fun c => (r.matchesIn env c.1 c.2 lists).1) := by
  have main : ∀ (calls : List (Str × Ctx)) (l : TagLists), (∀ p, l (env.listOf p) = lists (env.listOf p)) →
      r.session env calls l = calls.map (fun c => (r.matchesIn env c.1 c.2 lists).1) := by
    intro calls
    induction calls with
    | nil => intro l _; rfl
    | cons c cs ih =>
      intro l h
      obtain ⟨h1, h2⟩ := matchesIn_lists hk hl r c.1 c.2 l lists h
      rw [RebulkObj.session, List.map_cons, h1, ih _ (fun p => (h2 p).trans (h p))]
  exact main calls lists (fun _ => rfl)

/-- Rules that change the matches only — the default rules, rules that remove, add or rename matches — meet the hypotheses of `C96_partial`. -/
theorem C96_quiet_rules (listOf : Nat → Nat) (b : Behaviour Found ρ) : KeepsPatternTags listOf (withLists b) ∧ LooksAtMatches (withLists b) :=
  ⟨⟨fun _ _ => rfl, fun _ _ _ => rfl⟩, fun _ _ _ => ⟨rfl, rfl, rfl, fun _ => ⟨rfl, rfl⟩⟩⟩

theorem retag_fold_same (refs : Nat → Nat) (f : List String → List String) : ∀ (ms : List Match) (t t' : Tagging),
    t.matches_ = t'.matches_ → t.removed = t'.removed →
    (ms.foldl (fun t m => retagOne refs f t m.id) t).matches_ = (ms.foldl (fun t m => retagOne refs f t m.id) t').matches_ ∧
    (ms.foldl (fun t m => retagOne refs f t m.id) t).removed = (ms.foldl (fun t m => retagOne refs f t m.id) t').removed
  | [], _, _, h1, h2 => ⟨h1, h2⟩
  | m :: ms, t, t', h1, h2 => by
    rw [List.foldl_cons, List.foldl_cons]
    exact retag_fold_same refs f ms _ _ (by unfold retagOne; simp only; rw [h1]) (by unfold retagOne; simp only; rw [h2])

theorem retag_fold_keeps (refs : Nat → Nat) (f : List String → List String) (k : Nat) (hk : ∀ i, refs i ≠ k) : ∀ (ms : List Match) (t : Tagging),
    (ms.foldl (fun t m => retagOne refs f t m.id) t).lists k = t.lists k
  | [], _ => rfl
  | m :: ms, t => by
    rw [List.foldl_cons, retag_fold_keeps refs f k hk ms]
    unfold retagOne
    have : (k == refs m.id) = false := by simpa using fun h => hk m.id h.symm
    simp [this]

/-- So do rules with `AppendTags` or `RemoveTags` consequences when no match holds the list of a pattern: the tags of the patterns are not given as
lists, or there are none. -/
theorem C96_own_lists (listOf refs : Nat → Nat) (h : ∀ i p, refs i ≠ listOf p) (f : List String → List String) (when_ : Found → Answer) :
    KeepsPatternTags listOf (retagRule refs f when_) ∧ LooksAtMatches (retagRule refs f when_) := by
  have hone : ∀ (t : Tagging) i p, (retagOne refs f t i).lists (listOf p) = t.lists (listOf p) := by
    intro t i p
    unfold retagOne
    have : (listOf p == refs i) = false := by simpa using fun he => h i p he.symm
    simp [this]
  refine ⟨⟨fun _ _ => rfl, ?_⟩, ?_⟩
  · intro s a p
    show (thenRetag refs f a s.1.found s.2).2.1 (listOf p) = s.2 (listOf p)
    unfold thenRetag
    cases thenRemove a s.1.found with
    | mk s1 x =>
      cases x with
      | error e => rfl
      | ok removed =>
        cases removed with
        | none => rfl
        | some ans =>
          cases ans with
          | many ms =>
            simp only [retagRemoved]
            split
            · rfl
            · exact retag_fold_keeps refs f _ (fun i => h i p) ms _
          | one m =>
            simp only [retagRemoved]
            cases m.truthy? with
            | error e => rfl
            | ok b => cases b with
              | false => rfl
              | true => exact hone _ _ p
  · intro fo l l'
    refine ⟨rfl, rfl, rfl, fun a => ?_⟩
    have : (thenRetag refs f a fo.found l).1 = (thenRetag refs f a fo.found l').1 ∧
        (thenRetag refs f a fo.found l).2.2 = (thenRetag refs f a fo.found l').2.2 := by
      unfold thenRetag
      cases thenRemove a fo.found with
      | mk s1 x =>
        cases x with
        | error e => exact ⟨rfl, rfl⟩
        | ok removed =>
          cases removed with
          | none => exact ⟨rfl, rfl⟩
          | some ans =>
            cases ans with
            | many ms =>
              simp only [retagRemoved]
              split
              · exact ⟨rfl, rfl⟩
              · obtain ⟨h1, h2⟩ := retag_fold_same refs f ms ⟨s1, l, ms⟩ ⟨s1, l', ms⟩ rfl rfl
                simp only
                rw [h1, h2]
                exact ⟨rfl, rfl⟩
            | one m =>
              simp only [retagRemoved]
              cases m.truthy? with
              | error e => exact ⟨rfl, rfl⟩
              | ok b => cases b <;> exact ⟨rfl, rfl⟩
    exact ⟨by show ({ fo with found := _ } : Found) = { fo with found := _ }; rw [this.1], this.2⟩

/-- When a single call is made, the model with list objects is that of `C66` – `C80`. -/
theorem C96_first (env : Env ρ) (listOf : Nat → Nat) (holds : Found → Nat → Nat) (r : RebulkObj Ctx) (input : Str) (ctx : Ctx) (lists : TagLists) :
    (r.matchesIn (env.withLists listOf holds) input ctx lists).1 =
    (r.withTags (fun p => lists (listOf p))).matches_ env input ctx := by
  have hrun : ∀ (e : Option PyErr) (rs : List RuleRef) (f : Found) (l : TagLists),
      (executeList env.truthy (fun x => withLists (env.rule x)) e rs (f, l)).state.1 = (executeList env.truthy env.rule e rs f).state ∧
      (executeList env.truthy (fun x => withLists (env.rule x)) e rs (f, l)).err = (executeList env.truthy env.rule e rs f).err := by
    intro e rs
    induction rs with
    | nil => intro f l; exact ⟨rfl, rfl⟩
    | cons x rs ih =>
      intro f l
      have hone : (executeRule env.truthy (withLists (env.rule x)) x (f, l)).state = ((executeRule env.truthy (env.rule x) x f).state, l) ∧
          (executeRule env.truthy (withLists (env.rule x)) x (f, l)).err = (executeRule env.truthy (env.rule x) x f).err := by
        unfold executeRule withLists
        simp only
        cases (env.rule x).enabled f with
        | false => exact ⟨rfl, rfl⟩
        | true =>
          simp only [if_true]
          cases (env.rule x).when_ f with
          | mk s1 y =>
            cases y with
            | error e => exact ⟨rfl, rfl⟩
            | ok a =>
              simp only
              cases env.truthy a with
              | false => exact ⟨rfl, rfl⟩
              | true =>
                simp only [if_true]
                cases (env.rule x).then_ s1 a with
                | mk s2 z => cases z <;> exact ⟨rfl, rfl⟩
      unfold executeList
      simp only
      rw [hone.2]
      cases h : (executeRule env.truthy (env.rule x) x f).err with
      | some y => exact ⟨by simp only; rw [hone.1], by simp only; rw [hone.2]⟩
      | none =>
        simp only
        rw [hone.1]
        exact ih _ _
  have hkeys : (r.withTags (fun p => lists (listOf p))).effectiveKeys ctx = r.effectiveKeys ctx := by
    have : ∀ (cs : List (RebulkObj Ctx)) (acc : Dict String Key),
        RebulkObj.addKeys ctx (cs.map (fun c => { c with patterns := c.patterns.map (PatternObj.withTags (fun p => lists (listOf p))) })) acc =
        RebulkObj.addKeys ctx cs acc := by
      intro cs
      induction cs with
      | nil => intro acc; rfl
      | cons c cs ih => intro acc; simp only [List.map_cons, RebulkObj.addKeys]; rw [ih, ih]
    exact this r.children r.keys
  have hrules : (r.withTags (fun p => lists (listOf p))).effectiveRules ctx = r.effectiveRules ctx := by
    have : ∀ (cs : List (RebulkObj Ctx)) (acc : List RuleObj),
        RebulkObj.addRules ctx (cs.map (fun c => { c with patterns := c.patterns.map (PatternObj.withTags (fun p => lists (listOf p))) })) acc =
        RebulkObj.addRules ctx cs acc := by
      intro cs
      induction cs with
      | nil => intro acc; rfl
      | cons c cs ih => intro acc; simp only [List.map_cons, RebulkObj.addRules]; rw [ih, ih]
    exact this r.children r.rules
  unfold RebulkObj.matchesIn RebulkObj.matches_
  simp only
  rw [hkeys]
  have hdis : (r.withTags (fun p => lists (listOf p))).disabled = r.disabled := rfl
  rw [hdis]
  have hmp : ∀ f, (r.withTags (fun p => lists (listOf p))).matchesPatterns (env.withLists listOf holds).before input ctx f =
      (r.withTags (fun p => lists (listOf p))).matchesPatterns env input ctx f := fun _ => rfl
  have hlo : (env.withLists listOf holds).listOf = listOf := rfl
  rw [hlo, hmp]
  generalize (if (!r.disabled ctx) = true then ({ Found.empty input with keys := r.effectiveKeys ctx } : Found) else Found.empty input) = f0
  cases (r.withTags (fun p => lists (listOf p))).matchesPatterns env input ctx f0 with
  | error e => rfl
  | ok f =>
    simp only
    have hcf : RebulkObj.checkFound (env.withLists listOf holds).before f = RebulkObj.checkFound env f := rfl
    rw [hcf]
    cases RebulkObj.checkFound env f with
    | some e => rfl
    | none =>
      simp only
      unfold RebulkObj.executeRulesIn RebulkObj.executeRules
      rw [hrules, hdis]
      cases r.disabled ctx with
      | true => rfl
      | false =>
        simp only [Bool.not_false, if_true, executeAll]
        obtain ⟨h1, h2⟩ := hrun (schedule ((r.effectiveRules ctx).map RuleObj.info)).2 (schedule ((r.effectiveRules ctx).map RuleObj.info)).1 f lists
        rw [← h2, ← h1]
        rfl

end

/-! ## The counterexample -/

/-- One string pattern `ab` with `tags=["t"]`. -/
def sessionObj : RebulkObj Unit where
  patterns := [.string {} (Pattern.init 0 { opts := { tags := ["t"] } }) {} [['a', 'b']]]
  rules := [{ info := { id := 7, cls := 7 } }]

/-- A rule with the consequence `AppendTags(["u"])` on all the matches. -/
def sessionEnv : SessionEnv Answer where
  lower := fun s => s
  isinstance := fun _ _ => true
  truthy := fun _ => true
  listOf := fun p => p
  holds := fun _ _ => 0
  rule := fun refs _ => retagRule refs (addTags ["u"]) (fun f => .many f.found.delegate)

/-- The tags found by each call. -/
def tagsOf : Except PyErr Found → List (List String)
  | .error _ => []
  | .ok f => f.found.delegate.map Match.tags

/-- **C96 is false**: with a rule adding a tag, each call finds the tag once more than the previous one. -/
theorem C96_refuted : ∃ (r : RebulkObj Unit) (env : SessionEnv Answer) (input : Str) (lists : TagLists),
    (r.session env [(input, ()), (input, ()), (input, ())] lists).map tagsOf = [[["t", "u"]], [["t", "u", "u"]], [["t", "u", "u", "u"]]] :=
  ⟨sessionObj, sessionEnv, ['x', 'a', 'b'], fun _ => ["t"], by decide +kernel⟩

/-- The same object with a rule that removes the first match: hypotheses and outcome of `C96_partial`. -/
example : let env : SessionEnv Nat := { sessionEnv with
        truthy := fun _ => true
        rule := fun _ _ => withLists ⟨fun _ => true, fun f => (f, .ok 0), fun f _ => ({ f with found := (f.found.pop 0).1 }, none)⟩ }
    (∀ refs r, KeepsPatternTags env.listOf (env.rule refs r)) ∧ (∀ refs r, LooksAtMatches (env.rule refs r)) ∧
    (sessionObj.session env [(['a', 'b', 'a', 'b'], ()), (['a', 'b', 'a', 'b'], ())] (fun _ => ["t"])).map tagsOf = [[["t"]], [["t"]]] :=
  ⟨fun _ _ => (C96_quiet_rules _ _).1, fun _ _ => (C96_quiet_rules (fun p => p) _).2, by decide +kernel⟩

/-- A rule that adds a tag, where the tags of the pattern are given as a single string: the matches have lists of their own. -/
example : let refs : Nat → Nat := fun i => i + 1
    (∀ i p, refs i ≠ (fun _ => 0 : Nat → Nat) p) ∧
    (sessionObj.session { sessionEnv with listOf := fun _ => 0, holds := fun _ => refs } [(['a', 'b'], ()), (['a', 'b'], ())] (fun _ => ["t"])).map tagsOf =
      [[["t", "u"]], [["t", "u"]]] := ⟨by intro i p; simp, by decide +kernel⟩

end Rebulk
