import Verif.Spec.Threads
import Verif.Props.Session
import Verif.Props.Utils
/-!
# C104: calls of `matches` at the same time
-/
namespace Rebulk
open Spec

section
variable {Ctx ρ : Type}

theorem withTags_info (tags : Nat → List String) (p : PatternObj Ctx) : (p.withTags tags).info = p.info := by
  cases p <;> simp only [PatternObj.withTags, PatternObj.info]
theorem withTags_id (tags : Nat → List String) (p : PatternObj Ctx) : (p.withTags tags).id = p.id := by
  cases p <;> simp only [PatternObj.withTags, PatternObj.id, PatternObj.base, Pattern.withTags]

theorem distinctFrom_map {α : Type} (eq : α → α → Bool) (g : α → α) (hg : ∀ a b, eq (g a) (g b) = eq a b) :
    ∀ (source target : List α), distinctFrom eq (target.map g) (source.map g) = (distinctFrom eq target source).map g
  | [], _ => rfl
  | x :: xs, target => by
    have hany : (target.map g).any (fun y => eq y (g x)) = target.any (fun y => eq y x) := by
      rw [List.any_map]
      congr 1
      funext y
      exact hg y x
    simp only [List.map_cons, distinctFrom]
    rw [hany]
    cases target.any (fun y => eq y x) with
    | true => exact distinctFrom_map eq g hg xs target
    | false =>
      have := distinctFrom_map eq g hg xs (target ++ [x])
      rw [List.map_append] at this
      simpa using this

/-- The patterns a call runs, with their tags. -/
theorem effectivePatterns_withTags (tags : Nat → List String) (ctx : Ctx) (r : RebulkObj Ctx) :
    (r.withTags tags).effectivePatterns ctx = (r.effectivePatterns ctx).map (PatternObj.withTags tags) := by
  have main : ∀ (cs : List (RebulkObj Ctx)) (acc : List (PatternObj Ctx)),
      RebulkObj.addPatterns ctx (cs.map (fun c => { c with patterns := c.patterns.map (PatternObj.withTags tags) })) (acc.map (PatternObj.withTags tags)) =
      (RebulkObj.addPatterns ctx cs acc).map (PatternObj.withTags tags) := by
    intro cs
    induction cs with
    | nil => intro acc; rfl
    | cons c cs ih =>
      intro acc
      simp only [List.map_cons, RebulkObj.addPatterns]
      cases c.disabled ctx with
      | true => exact ih acc
      | false =>
        simp only [Bool.not_false, if_true]
        rw [C34_extend_safe _ (by intro x; simp), C34_extend_safe _ (by intro x; simp), ← ih, List.map_append,
          distinctFrom_map _ _ (by intro a b; rw [withTags_id, withTags_id])]
  exact main r.children r.patterns

/-- What comes out of running rules. -/
def ranTo (x : RuleRun (Found × TagLists) ρ) : Except PyErr Found :=
  match x.err with | some e => .error e | none => .ok x.state.1

theorem ranTo_lists {env : SessionEnv ρ} (hk : ∀ refs r, KeepsPatternTags env.listOf (env.rule refs r))
    (hl : ∀ refs r, LooksAtMatches (env.rule refs r)) (refs : Nat → Nat) (e : Option PyErr) (rs : List RuleRef) (f : Found) (l l' : TagLists) :
    ranTo (executeList env.truthy (env.rule refs) e rs (f, l)) = ranTo (executeList env.truthy (env.rule refs) e rs (f, l')) := by
  obtain ⟨h1, h2, _⟩ := executeList_lists (truthy := env.truthy) (hk refs) (hl refs) e rs f l l'
  unfold ranTo
  rw [h1, h2]

/-- `executeList` with its first rule spelled out. -/
theorem ranTo_cons (env : SessionEnv ρ) (refs : Nat → Nat) (e : Option PyErr) (x : RuleRef) (rs : List RuleRef) (s : Found × TagLists) :
    ranTo (executeList env.truthy (env.rule refs) e (x :: rs) s) =
      if (env.rule refs x).enabled s then
        match (env.rule refs x).when_ s with
        | (_, .error e) => .error e
        | (s, .ok a) =>
          if env.truthy a then match (env.rule refs x).then_ s a with
            | (_, some e) => .error e
            | (s, none) => ranTo (executeList env.truthy (env.rule refs) e rs s)
          else ranTo (executeList env.truthy (env.rule refs) e rs s)
      else ranTo (executeList env.truthy (env.rule refs) e rs s) := by
  simp only [executeList, executeRule]
  cases (env.rule refs x).enabled s with
  | false => rfl
  | true =>
    simp only [if_true]
    cases (env.rule refs x).when_ s with
    | mk s1 y =>
      cases y with
      | error e => rfl
      | ok a =>
        simp only
        cases env.truthy a with
        | false => rfl
        | true =>
          simp only [if_true]
          cases (env.rule refs x).then_ s1 a with
          | mk s2 z => cases z <;> rfl

/-- The rest of a call in this phase, made alone with the list objects `lists`, gives the outcome of the whole call. -/
def OnTrack (env : SessionEnv ρ) (T : Nat → RebulkObj Ctx) (b n : Nat) (input : Str) (ctx : Ctx) (lists : TagLists) : Phase Ctx ρ → Prop
  | .begins => True
  | .keyed f => ∃ k1, b < k1 ∧ k1 ≤ n ∧ f = (T k1).startFound input ctx
  | .searching left f => ∃ k1 k2, b < k1 ∧ k1 ≤ k2 ∧ k2 ≤ n ∧
    ((T k2).withTags (fun p => lists (env.listOf p))).matchesPatterns env.before input ctx ((T k1).startFound input ctx) =
      searchPatterns env.lower ctx input (left.map (PatternObj.withTags (fun p => lists (env.listOf p)))) f
  | .searched f => ∃ k1 k2, b < k1 ∧ k1 ≤ k2 ∧ k2 ≤ n ∧
    ((T k2).withTags (fun p => lists (env.listOf p))).matchesPatterns env.before input ctx ((T k1).startFound input ctx) = .ok f ∧
    RebulkObj.checkFound env.before f = none
  | .ruling left e refs f => ∃ k1 k2 k3, b < k1 ∧ k1 ≤ k2 ∧ k2 ≤ k3 ∧ k3 ≤ n ∧
    outcomeOf env (T k1) (T k2) (T k3) input ctx lists = ranTo (executeList env.truthy (env.rule refs) e left (f, lists))
  | .triggered x a left e refs f => ∃ k1 k2 k3, b < k1 ∧ k1 ≤ k2 ∧ k2 ≤ k3 ∧ k3 ≤ n ∧
    outcomeOf env (T k1) (T k2) (T k3) input ctx lists = match (env.rule refs x).then_ (f, lists) a with
      | (_, some e) => .error e
      | (s, none) => ranTo (executeList env.truthy (env.rule refs) e left s)
  | .done x => ∃ k1 k2 k3, b < k1 ∧ k1 ≤ k2 ∧ k2 ≤ k3 ∧ k3 ≤ n ∧ x = outcomeOf env (T k1) (T k2) (T k3) input ctx lists

theorem OnTrack.later {env : SessionEnv ρ} {T : Nat → RebulkObj Ctx} {b n : Nat} {input : Str} {ctx : Ctx} {lists : TagLists} {ph : Phase Ctx ρ}
    (h : OnTrack env T b n input ctx lists ph) : OnTrack env T b (n + 1) input ctx lists ph := by
  cases ph with
  | begins => trivial
  | keyed f => obtain ⟨k1, h1, h2, h3⟩ := h; exact ⟨k1, h1, by omega, h3⟩
  | searching l f => obtain ⟨k1, k2, h1, h2, h3, h4⟩ := h; exact ⟨k1, k2, h1, h2, by omega, h4⟩
  | searched f => obtain ⟨k1, k2, h1, h2, h3, h4⟩ := h; exact ⟨k1, k2, h1, h2, by omega, h4⟩
  | ruling l e refs f => obtain ⟨k1, k2, k3, h1, h2, h3, h4, h5⟩ := h; exact ⟨k1, k2, k3, h1, h2, h3, by omega, h5⟩
  | triggered x a l e refs f => obtain ⟨k1, k2, k3, h1, h2, h3, h4, h5⟩ := h; exact ⟨k1, k2, k3, h1, h2, h3, by omega, h5⟩
  | done x => obtain ⟨k1, k2, k3, h1, h2, h3, h4, h5⟩ := h; exact ⟨k1, k2, k3, h1, h2, h3, by omega, h5⟩

theorem OnTrack.check {env : SessionEnv ρ} {T : Nat → RebulkObj Ctx} {b n k1 k2 : Nat} {input : Str} {ctx : Ctx} {lists : TagLists} {f : Found}
    (h1 : b < k1) (h2 : k1 ≤ k2) (h3 : k2 ≤ n)
    (h : ((T k2).withTags (fun p => lists (env.listOf p))).matchesPatterns env.before input ctx ((T k1).startFound input ctx) = .ok f) :
    OnTrack env T b n input ctx lists (Phase.check env f) := by
  unfold Phase.check
  cases hc : RebulkObj.checkFound env.before f with
  | none => exact ⟨k1, k2, h1, h2, h3, h, hc⟩
  | some e =>
    refine ⟨k1, k2, k2, h1, h2, Nat.le_refl _, h3, ?_⟩
    unfold outcomeOf
    unfold RebulkObj.startFound at h
    rw [h]
    simp only
    rw [hc]

/-- One step of a call, whatever the other calls did to the lists that are not those of patterns. -/
theorem OnTrack.step {env : SessionEnv ρ} (hk : ∀ refs r, KeepsPatternTags env.listOf (env.rule refs r))
    (hl : ∀ refs r, LooksAtMatches (env.rule refs r)) {T : Nat → RebulkObj Ctx} {b n : Nat} (hbn : b < n) {input : Str} {ctx : Ctx} {lists now : TagLists}
    (hnow : ∀ p, now (env.listOf p) = lists (env.listOf p)) {ph : Phase Ctx ρ} (h : OnTrack env T b n input ctx lists ph) :
    OnTrack env T b n input ctx lists (ph.step env (T n) input ctx now).1 ∧ ∀ p, (ph.step env (T n) input ctx now).2 (env.listOf p) = lists (env.listOf p) := by
  have hsame : (fun p => now (env.listOf p)) = fun p => lists (env.listOf p) := funext hnow
  cases ph with
  | begins => exact ⟨⟨n, hbn, Nat.le_refl _, rfl⟩, hnow⟩
  | keyed f =>
    obtain ⟨k1, h1, h2, h3⟩ := h
    refine ⟨?_, hnow⟩
    simp only [Phase.step]
    cases hd : (T n).disabled ctx with
    | true =>
      simp only [Bool.not_true, Bool.false_eq_true, if_false]
      refine OnTrack.check h1 h2 (Nat.le_refl _) ?_
      unfold RebulkObj.matchesPatterns
      have : ((T n).withTags (fun p => lists (env.listOf p))).disabled ctx = true := hd
      rw [this, h3]
      rfl
    | false =>
      simp only [Bool.not_false, if_true]
      refine ⟨k1, n, h1, h2, Nat.le_refl _, ?_⟩
      unfold RebulkObj.matchesPatterns
      have : ((T n).withTags (fun p => lists (env.listOf p))).disabled ctx = false := hd
      rw [this, h3, effectivePatterns_withTags]
      rfl
  | searching left f =>
    obtain ⟨k1, k2, h1, h2, h3, h4⟩ := h
    cases left with
    | nil => exact ⟨OnTrack.check h1 h2 h3 h4, hnow⟩
    | cons p left =>
      refine ⟨?_, hnow⟩
      simp only [Phase.step, Phase.searchOne]
      rw [hsame]
      rw [List.map_cons, searchPatterns, withTags_info] at h4
      cases hd : p.info.disabled ctx with
      | true =>
        rw [hd] at h4
        simp only [Bool.not_true, Bool.false_eq_true, if_false] at h4 ⊢
        exact ⟨k1, k2, h1, h2, h3, h4⟩
      | false =>
        rw [hd] at h4
        simp only [Bool.not_false, if_true] at h4 ⊢
        cases hm : (p.withTags (fun q => lists (env.listOf q))).matches_ env.lower input with
        | error e =>
          rw [hm] at h4
          refine ⟨k1, k2, k2, h1, h2, Nat.le_refl _, h3, ?_⟩
          unfold outcomeOf
          unfold RebulkObj.startFound at h4
          rw [h4]
        | ok ts =>
          rw [hm] at h4
          simp only at h4 ⊢
          cases ha : Found.addAll ts f with
          | error e =>
            rw [ha] at h4
            refine ⟨k1, k2, k2, h1, h2, Nat.le_refl _, h3, ?_⟩
            unfold outcomeOf
            unfold RebulkObj.startFound at h4
            rw [h4]
          | ok f' =>
            rw [ha] at h4
            exact ⟨k1, k2, h1, h2, h3, h4⟩
  | searched f =>
    obtain ⟨k1, k2, h1, h2, h3, h4, h5⟩ := h
    refine ⟨?_, hnow⟩
    have ho : outcomeOf env (T k1) (T k2) (T n) input ctx lists = ((T n).executeRulesIn env ctx lists f).1 := by
      unfold outcomeOf
      unfold RebulkObj.startFound at h4
      rw [h4]
      simp only
      rw [h5]
    unfold RebulkObj.executeRulesIn at ho
    simp only [Phase.step]
    cases hd : (T n).disabled ctx with
    | true =>
      rw [hd] at ho
      simp only [Bool.not_true, Bool.false_eq_true, if_false] at ho ⊢
      exact ⟨k1, k2, n, h1, h2, h3, Nat.le_refl _, ho.symm⟩
    | false =>
      rw [hd] at ho
      simp only [Bool.not_false, if_true] at ho ⊢
      exact ⟨k1, k2, n, h1, h2, h3, Nat.le_refl _, ho⟩
  | ruling left e refs f =>
    obtain ⟨k1, k2, k3, h1, h2, h3, h4, h5⟩ := h
    cases left with
    | nil =>
      refine ⟨⟨k1, k2, k3, h1, h2, h3, h4, ?_⟩, hnow⟩
      rw [h5]
      cases e <;> rfl
    | cons x left =>
      rw [ranTo_lists hk hl refs e (x :: left) f lists now, ranTo_cons] at h5
      simp only [Phase.step]
      cases hen : (env.rule refs x).enabled (f, now) with
      | false =>
        rw [hen] at h5
        simp only [Bool.false_eq_true, if_false] at h5 ⊢
        rw [ranTo_lists hk hl refs e left f now lists] at h5
        exact ⟨⟨k1, k2, k3, h1, h2, h3, h4, h5⟩, hnow⟩
      | true =>
        rw [hen] at h5
        simp only [if_true] at h5 ⊢
        have hkw := (hk refs x).1 (f, now)
        cases hw : (env.rule refs x).when_ (f, now) with
        | mk s y =>
          rw [hw] at h5 hkw
          have hnow' : ∀ p, s.2 (env.listOf p) = lists (env.listOf p) := fun p => (hkw p).trans (hnow p)
          cases y with
          | error e' => exact ⟨⟨k1, k2, k3, h1, h2, h3, h4, h5.symm⟩, hnow'⟩
          | ok a =>
            simp only at h5 ⊢
            refine ⟨?_, hnow'⟩
            cases ht : env.truthy a with
            | false =>
              rw [ht] at h5
              simp only [Bool.false_eq_true, if_false] at h5 ⊢
              have := ranTo_lists hk hl refs e left s.1 s.2 lists
              exact ⟨k1, k2, k3, h1, h2, h3, h4, h5.trans this⟩
            | true =>
              rw [ht] at h5
              simp only [if_true] at h5 ⊢
              refine ⟨k1, k2, k3, h1, h2, h3, h4, h5.trans ?_⟩
              obtain ⟨g1, g2⟩ := (hl refs x s.1 s.2 lists).2.2.2 a
              have hs : s = (s.1, s.2) := rfl
              rw [hs]
              cases hth : (env.rule refs x).then_ (s.1, s.2) a with
              | mk s2 z =>
                cases hth' : (env.rule refs x).then_ (s.1, lists) a with
                | mk s2' z' =>
                  rw [hth, hth'] at g1 g2
                  simp only at g1 g2
                  subst g2
                  cases z with
                  | some e => rfl
                  | none =>
                    have : s2' = (s2.1, s2'.2) := by rw [g1]
                    rw [this]
                    exact ranTo_lists hk hl refs e left s2.1 s2.2 s2'.2
  | triggered x a left e refs f =>
    obtain ⟨k1, k2, k3, h1, h2, h3, h4, h5⟩ := h
    simp only [Phase.step]
    obtain ⟨g1, g2⟩ := (hl refs x f lists now).2.2.2 a
    have hkt := (hk refs x).2 (f, now) a
    cases hth : (env.rule refs x).then_ (f, lists) a with
    | mk s2 z =>
      cases hth' : (env.rule refs x).then_ (f, now) a with
      | mk s2' z' =>
        rw [hth, hth'] at g1 g2
        rw [hth] at h5
        rw [hth'] at hkt
        simp only at g1 g2
        subst g2
        have hnow' : ∀ p, s2'.2 (env.listOf p) = lists (env.listOf p) := fun p => (hkt p).trans (hnow p)
        cases z with
        | some e => exact ⟨⟨k1, k2, k3, h1, h2, h3, h4, h5.symm⟩, hnow'⟩
        | none =>
          refine ⟨⟨k1, k2, k3, h1, h2, h3, h4, ?_⟩, hnow'⟩
          have : s2 = (s2'.1, s2.2) := by rw [← g1]
          rw [this] at h5
          exact h5.trans (ranTo_lists hk hl refs e left s2'.1 s2.2 lists)
  | done x => exact ⟨h, hnow⟩

theorem objectAfter_append (r : RebulkObj Ctx) (es fs : List (Event Ctx)) :
    objectAfter r (es ++ fs) = objectAfter (objectAfter r es) fs := by
  induction es generalizing r with
  | nil => rfl
  | cons e es ih => cases e <;> exact ih _

theorem callsStarted_append (es fs : List (Event Ctx)) : callsStarted (es ++ fs) = callsStarted es ++ callsStarted fs := by
  induction es with
  | nil => rfl
  | cons e es ih => cases e <;> simp [callsStarted, ih]

/-- What is true after each event. -/
theorem pool_invariant {env : SessionEnv ρ} (hk : ∀ refs r, KeepsPatternTags env.listOf (env.rule refs r))
    (hl : ∀ refs r, LooksAtMatches (env.rule refs r)) (r : RebulkObj Ctx) (lists : TagLists) (es : List (Event Ctx)) (n : Nat) :
    let pool := Pool.run env { obj := r, lists := lists } (es.take n)
    pool.obj = objectAfter r (es.take n) ∧ (∀ p, pool.lists (env.listOf p) = lists (env.listOf p)) ∧
    pool.calls.map (fun c => (c.input, c.ctx)) = callsStarted (es.take n) ∧
    ∀ i c, pool.calls[i]? = some c → ∃ b, b < n ∧ es[b]? = some (.call c.input c.ctx) ∧ (callsStarted (es.take b)).length = i ∧
      OnTrack env (fun k => objectAfter r (es.take k)) b n c.input c.ctx lists c.phase := by
  induction n with
  | zero => exact ⟨rfl, fun _ => rfl, rfl, fun i c h => by simp [Pool.run] at h⟩
  | succ n ih =>
    obtain ⟨ho, hls, hc, hcs⟩ := ih
    have htake : es.take (n + 1) = es.take n ++ es[n]?.toList := List.take_succ
    cases he : es[n]? with
    | none =>
      rw [he, Option.toList_none, List.append_nil] at htake
      rw [htake]
      refine ⟨ho, hls, hc, fun i c h => ?_⟩
      obtain ⟨b, h1, h2, h3, h4⟩ := hcs i c h
      exact ⟨b, by omega, h2, h3, h4.later⟩
    | some e =>
      rw [he, Option.toList_some] at htake
      rw [htake, Pool.run, List.foldl_append]
      rw [Pool.run] at ho hls hc hcs
      generalize (es.take n).foldl (Pool.event env) { obj := r, lists := lists } = pool at ho hls hc hcs
      rw [objectAfter_append, callsStarted_append]
      cases e with
      | call input ctx =>
        refine ⟨ho, hls, ?_, fun i c h => ?_⟩
        · simp only [List.foldl_cons, List.foldl_nil, Pool.event, List.map_append, hc, callsStarted, List.map_cons, List.map_nil]
        · simp only [List.foldl_cons, List.foldl_nil, Pool.event] at h
          rw [List.getElem?_append] at h
          split at h
          · obtain ⟨b, h1, h2, h3, h4⟩ := hcs i c h
            exact ⟨b, by omega, h2, h3, h4.later⟩
          · rename_i hi
            have hlen : pool.calls.length = (callsStarted (es.take n)).length := by rw [← hc, List.length_map]
            have hz : i - pool.calls.length = 0 := by
              apply Nat.eq_zero_of_not_pos
              intro hpos
              rw [List.getElem?_eq_none (by show 1 ≤ _; exact hpos)] at h
              exact absurd h (by simp)
            rw [hz] at h
            simp only [List.getElem?_cons_zero, Option.some.injEq] at h
            subst h
            exact ⟨n, by omega, he, by omega, trivial⟩
      | change g =>
        refine ⟨?_, hls, ?_, fun i c h => ?_⟩
        · simp only [List.foldl_cons, List.foldl_nil, Pool.event, objectAfter, ho]
        · simpa [Pool.event, callsStarted] using hc
        · obtain ⟨b, h1, h2, h3, h4⟩ := hcs i c h
          exact ⟨b, by omega, h2, h3, h4.later⟩
      | step j =>
        simp only [List.foldl_cons, List.foldl_nil, Pool.event, objectAfter, callsStarted, List.append_nil]
        cases hj : pool.calls[j]? with
        | none =>
          refine ⟨ho, hls, hc, fun i c h => ?_⟩
          obtain ⟨b, h1, h2, h3, h4⟩ := hcs i c h
          exact ⟨b, by omega, h2, h3, h4.later⟩
        | some cj =>
          obtain ⟨b, h1, h2, h3, h4⟩ := hcs j cj hj
          have hstep := OnTrack.step hk hl (n := n) h1 hls h4
          rw [← ho] at hstep
          refine ⟨ho, hstep.2, ?_, fun i c h => ?_⟩
          · rw [← hc]
            simp only [List.map_set]
            apply List.ext_getElem?
            intro k
            rw [List.getElem?_set]
            split
            · rename_i hjk
              subst hjk
              have hlt : j < pool.calls.length := by
                rcases Nat.lt_or_ge j pool.calls.length with h | h
                · exact h
                · rw [List.getElem?_eq_none h] at hj; exact absurd hj (by simp)
              rw [if_pos (by simpa using hlt), List.getElem?_map, hj]
              rfl
            · rfl
          · simp only at h
            rw [List.getElem?_set] at h
            split at h
            · rename_i hji
              subst hji
              split at h
              · simp only [Option.some.injEq] at h
                subst h
                exact ⟨b, by omega, h2, h3, hstep.1.later⟩
              · exact absurd h (by simp)
            · obtain ⟨b, h1, h2, h3, h4⟩ := hcs i c h
              exact ⟨b, by omega, h2, h3, h4.later⟩

/-- **C104, partial**: any number of calls of `matches` on one object in different threads, scheduled in any way, while other threads register patterns and
rules. When the rules leave the tag lists of the patterns as they are and look only at the matches, each call that has ended has the outcome of a call
made alone that reads the declared keys, then the patterns, then the rules of the object as it was at some times, in this order, after the call began. (Missing: rules that change the tags of
patterns, `C104_refuted`.) -/
theorem C104_partial (env : SessionEnv ρ) (hk : ∀ refs r, KeepsPatternTags env.listOf (env.rule refs r))
    (hl : ∀ refs r, LooksAtMatches (env.rule refs r)) (r : RebulkObj Ctx) (lists : TagLists) (es : List (Event Ctx)) (i : Nat) (c : Call Ctx ρ)
    (hc : (Pool.run env { obj := r, lists := lists } es).calls[i]? = some c) (x : Except PyErr Found) (hx : c.phase = .done x) :
    ∃ b k1 k2 k3, es[b]? = some (.call c.input c.ctx) ∧ (callsStarted (es.take b)).length = i ∧ b < k1 ∧ k1 ≤ k2 ∧ k2 ≤ k3 ∧ k3 ≤ es.length ∧
      x = outcomeOf env (objectAfter r (es.take k1)) (objectAfter r (es.take k2)) (objectAfter r (es.take k3)) c.input c.ctx lists := by
  have h := (pool_invariant hk hl r lists es es.length).2.2.2
  rw [List.take_length] at h
  obtain ⟨b, _, h2, h3, h4⟩ := h i c hc
  rw [hx] at h4
  obtain ⟨k1, k2, k3, g1, g2, g3, g4, g5⟩ := h4
  exact ⟨b, k1, k2, k3, h2, h3, g1, g2, g3, g4, g5⟩

theorem objectAfter_same (r : RebulkObj Ctx) : ∀ (es : List (Event Ctx)), (∀ g, Event.change g ∉ es) → objectAfter r es = r
  | [], _ => rfl
  | .call _ _ :: es, h => objectAfter_same r es (fun g hg => h g (List.mem_cons_of_mem _ hg))
  | .step _ :: es, h => objectAfter_same r es (fun g hg => h g (List.mem_cons_of_mem _ hg))
  | .change g :: _, h => absurd List.mem_cons_self (h g)

/-- **C104.** When the object is not changed meanwhile, each call that has ended has the outcome it has alone: that of `matchesIn`, the model of `C96`. -/
theorem C104_unchanged (env : SessionEnv ρ) (hk : ∀ refs r, KeepsPatternTags env.listOf (env.rule refs r))
    (hl : ∀ refs r, LooksAtMatches (env.rule refs r)) (r : RebulkObj Ctx) (lists : TagLists) (es : List (Event Ctx)) (hes : ∀ g, Event.change g ∉ es)
    (i : Nat) (c : Call Ctx ρ) (hc : (Pool.run env { obj := r, lists := lists } es).calls[i]? = some c) (x : Except PyErr Found) (hx : c.phase = .done x) :
    (callsStarted es)[i]? = some (c.input, c.ctx) ∧ x = (r.matchesIn env c.input c.ctx lists).1 := by
  have hcalls := (pool_invariant hk hl r lists es es.length).2.2.1
  rw [List.take_length] at hcalls
  refine ⟨by rw [← hcalls, List.getElem?_map, hc]; rfl, ?_⟩
  obtain ⟨b, k1, k2, k3, _, _, _, _, _, _, h⟩ := C104_partial env hk hl r lists es i c hc x hx
  have hT : ∀ k, objectAfter r (es.take k) = r := fun k => objectAfter_same r _ (fun g hg => hes g (List.mem_of_mem_take hg))
  rw [hT, hT, hT] at h
  rw [h]
  unfold outcomeOf RebulkObj.matchesIn
  simp only
  split
  · rename_i h1
    simp only [h1]
  · rename_i f h1
    simp only [h1]
    split
    · rename_i h2
      simp only [h2]
    · rename_i h2
      simp only [h2]

/-- How many steps a call has left at most. -/
def Phase.left (r : RebulkObj Ctx) (ctx : Ctx) : Phase Ctx ρ → Nat
  | .begins => (r.effectivePatterns ctx).length + 2 * (schedule ((r.effectiveRules ctx).map RuleObj.info)).1.length + 5
  | .keyed _ => (r.effectivePatterns ctx).length + 2 * (schedule ((r.effectiveRules ctx).map RuleObj.info)).1.length + 4
  | .searching l _ => l.length + 2 * (schedule ((r.effectiveRules ctx).map RuleObj.info)).1.length + 3
  | .searched _ => 2 * (schedule ((r.effectiveRules ctx).map RuleObj.info)).1.length + 2
  | .ruling l _ _ _ => 2 * l.length + 1
  | .triggered _ _ l _ _ _ => 2 * l.length + 2
  | .done _ => 0

theorem Phase.check_left (env : SessionEnv ρ) (r : RebulkObj Ctx) (ctx : Ctx) (f : Found) :
    (Phase.check env f : Phase Ctx ρ).left r ctx ≤ 2 * (schedule ((r.effectiveRules ctx).map RuleObj.info)).1.length + 2 := by
  unfold Phase.check
  split
  · exact Nat.zero_le _
  · exact Nat.le_refl _

theorem Phase.step_left (env : SessionEnv ρ) (r : RebulkObj Ctx) (input : Str) (ctx : Ctx) (lists : TagLists) (ph : Phase Ctx ρ) :
    (ph.step env r input ctx lists).1.left r ctx ≤ ph.left r ctx - 1 := by
  cases ph with
  | begins => exact Nat.le_refl _
  | keyed f =>
    simp only [Phase.step]
    split
    · exact Nat.le_refl _
    · have := Phase.check_left env r ctx f
      simp only [Phase.left] at this ⊢
      omega
  | searching l f =>
    cases l with
    | nil =>
      have := Phase.check_left env r ctx f
      simp only [Phase.step, Phase.left, List.length_nil] at this ⊢
      omega
    | cons p l =>
      simp only [Phase.step, Phase.searchOne]
      repeat' split
      all_goals simp only [Phase.left, List.length_cons]
      all_goals omega
  | searched f =>
    simp only [Phase.step]
    split
    · exact Nat.le_refl _
    · exact Nat.zero_le _
  | ruling l e refs f =>
    cases l with
    | nil => exact Nat.zero_le _
    | cons x l =>
      simp only [Phase.step]
      repeat' split
      all_goals simp only [Phase.left, List.length_cons]
      all_goals omega
  | triggered x a l e refs f =>
    simp only [Phase.step]
    repeat' split
    all_goals simp only [Phase.left]
    all_goals omega
  | done x => exact Nat.zero_le _

theorem pool_left (env : SessionEnv ρ) (i : Nat) : ∀ (es : List (Event Ctx)), (∀ g, Event.change g ∉ es) → ∀ (pool : Pool Ctx ρ) (c : Call Ctx ρ),
    pool.calls[i]? = some c → ∃ c', (Pool.run env pool es).calls[i]? = some c' ∧ c'.ctx = c.ctx ∧ c'.input = c.input ∧
      c'.phase.left pool.obj c.ctx ≤ c.phase.left pool.obj c.ctx - es.countP (isStepOf i)
  | [], _, _, c, h => ⟨c, h, rfl, rfl, by simp⟩
  | .call input ctx :: es, hes, pool, c, h => by
    obtain ⟨c', h1, h2, h3, h4⟩ := pool_left env i es (fun g hg => hes g (List.mem_cons_of_mem _ hg))
      { pool with calls := pool.calls ++ [{ input := input, ctx := ctx }] } c (by
        have hlt : i < pool.calls.length := by
          rcases Nat.lt_or_ge i pool.calls.length with g | g
          · exact g
          · rw [List.getElem?_eq_none g] at h; exact absurd h (by simp)
        simp only
        rw [List.getElem?_append_left hlt]
        exact h)
    exact ⟨c', h1, h2, h3, by simpa [List.countP_cons, isStepOf] using h4⟩
  | .change g :: _, hes, _, _, _ => absurd List.mem_cons_self (hes g)
  | .step j :: es, hes, pool, c, h => by
    have hlt : i < pool.calls.length := by
      rcases Nat.lt_or_ge i pool.calls.length with g | g
      · exact g
      · rw [List.getElem?_eq_none g] at h; exact absurd h (by simp)
    have hes' : ∀ g, Event.change g ∉ es := fun g hg => hes g (List.mem_cons_of_mem _ hg)
    by_cases hij : i = j
    · subst hij
      have hs := Phase.step_left env pool.obj c.input c.ctx pool.lists c.phase
      obtain ⟨c', h1, h2, h3, h4⟩ := pool_left env i es hes' (pool.event env (.step i))
        { c with phase := (c.phase.step env pool.obj c.input c.ctx pool.lists).1 } (by
          simp only [Pool.event, h]
          rw [List.getElem?_set_self hlt])
      have hobj : (pool.event env (.step i)).obj = pool.obj := by simp only [Pool.event, h]
      rw [hobj] at h4
      refine ⟨c', h1, h2, h3, ?_⟩
      simp only [List.countP_cons, isStepOf, beq_self_eq_true, if_true]
      simp only at h4
      omega
    · obtain ⟨c', h1, h2, h3, h4⟩ := pool_left env i es hes' (pool.event env (.step j)) c (by
        simp only [Pool.event]
        split
        · exact h
        · simp only
          rw [List.getElem?_set_ne (fun e => hij e.symm)]
          exact h)
      have hobj : (pool.event env (.step j)).obj = pool.obj := by
        simp only [Pool.event]
        split <;> rfl
      rw [hobj] at h4
      have : (i == j) = false := by simpa using hij
      exact ⟨c', h1, h2, h3, by simpa [List.countP_cons, isStepOf, this] using h4⟩

/-- **C104.** No call waits for another one: on an object that is not changed, a call ends after a number of its own steps that depends on the
object and the context only, however the other calls are scheduled between them, also when these never go on. -/
theorem C104_finishes (r : RebulkObj Ctx) (ctx : Ctx) : ∃ N, ∀ (env : SessionEnv ρ) (lists : TagLists) (before after : List (Event Ctx))
    (i : Nat) (c : Call Ctx ρ), (∀ g, Event.change g ∉ before ++ after) →
    (Pool.run env { obj := r, lists := lists } before).calls[i]? = some c → c.ctx = ctx → c.phase = .begins → N ≤ after.countP (isStepOf i) →
    ∃ c' x, (Pool.run env { obj := r, lists := lists } (before ++ after)).calls[i]? = some c' ∧ c'.phase = .done x := by
  refine ⟨(r.effectivePatterns ctx).length + 2 * (schedule ((r.effectiveRules ctx).map RuleObj.info)).1.length + 5, ?_⟩
  intro env lists before after i c hes hc hctx hb hN
  have hobj : (Pool.run env { obj := r, lists := lists } before).obj = r := by
    have hgen : ∀ (es : List (Event Ctx)), (∀ g, Event.change g ∉ es) → ∀ (pool : Pool Ctx ρ), (Pool.run env pool es).obj = pool.obj := by
      intro es
      induction es with
      | nil => intro _ pool; rfl
      | cons e es ih =>
        intro h pool
        have := ih (fun g hg => h g (List.mem_cons_of_mem _ hg)) (pool.event env e)
        refine this.trans ?_
        cases e with
        | call _ _ => rfl
        | change g => exact absurd List.mem_cons_self (h g)
        | step j => simp only [Pool.event]; split <;> rfl
    exact hgen before (fun g hg => hes g (List.mem_append_left _ hg)) _
  obtain ⟨c', h1, h2, h3, h4⟩ := pool_left env i after (fun g hg => hes g (List.mem_append_right _ hg)) _ c hc
  have hrun : Pool.run env { obj := r, lists := lists } (before ++ after) = Pool.run env (Pool.run env { obj := r, lists := lists } before) after := by
    simp only [Pool.run, List.foldl_append]
  rw [hobj, hctx, hb] at h4
  refine ⟨c', ?_⟩
  rw [hrun]
  cases hp : c'.phase with
  | done x => exact ⟨x, h1, rfl⟩
  | _ => rw [hp] at h4; simp only [Phase.left] at h4; omega

end
/-! ## Examples -/

/-- The tags found by each call, if it has ended. -/
def Pool.tagsFound {Ctx ρ : Type} (p : Pool Ctx ρ) : List (Option (List (List String))) :=
  p.calls.map (fun c => match c.phase with | .done x => some (tagsOf x) | _ => none)

/-- The spans found by each call, if it has ended. -/
def Pool.spansFound {Ctx ρ : Type} (p : Pool Ctx ρ) : List (Option (List (Int × Int))) :=
  p.calls.map (fun c => match c.phase with | .done (.ok f) => some (f.found.delegate.map Match.span) | _ => none)

/-- **C104 is false** with rules that change tags: two calls on one object whose only rule appends a tag. Alone each finds the tags `t`, `u`; when the
second call searches after the rule of the first one ran, it finds `t`, `u`, `u`. -/
theorem C104_refuted : ∃ (r : RebulkObj Unit) (env : SessionEnv Answer) (input : Str) (lists : TagLists) (es : List (Event Unit)),
    (∀ g, Event.change g ∉ es) ∧ callsStarted es = [(input, ()), (input, ())] ∧ tagsOf (r.matchesIn env input () lists).1 = [["t", "u"]] ∧
    (Pool.run env { obj := r, lists := lists } es).tagsFound = [some [["t", "u"]], some [["t", "u", "u"]]] :=
  ⟨sessionObj, sessionEnv, ['x', 'a', 'b'], fun _ => ["t"],
    [.call ['x', 'a', 'b'] (), .call ['x', 'a', 'b'] (), .step 1, .step 1] ++ List.replicate 8 (.step 0) ++ List.replicate 8 (.step 1),
    by intro g; simp, rfl, by decide +kernel, by decide +kernel⟩

/-- A rule that removes the first match. -/
def threadEnv : SessionEnv Nat :=
  { lower := fun s => s
    isinstance := fun _ _ => true
    truthy := fun _ => true
    listOf := fun p => p
    holds := fun _ _ => 0
    rule := fun _ _ => withLists ⟨fun _ => true, fun f => (f, .ok 0), fun f _ => ({ f with found := (f.found.pop 0).1 }, none)⟩ }

/-- Registering one more pattern. -/
def addPattern (r : RebulkObj Unit) : RebulkObj Unit :=
  { r with patterns := r.patterns ++ [.string {} (Pattern.init 1 {}) {} [['x']]] }

/-- Two calls and a registration: the first call had read the patterns already, the second one not. `sessionObj` has the pattern `ab`, and one rule. -/
def threadEvents : List (Event Unit) :=
  [.call ['a', 'b', 'a', 'b', 'x'] (), .step 0, .call ['a', 'b', 'x'] (), .step 0, .step 1, .change addPattern] ++
    (List.replicate 8 [.step 1, .step 0]).flatten

/-- The hypotheses of `C104_partial` and what it gives here. -/
example : (∀ refs r, KeepsPatternTags threadEnv.listOf (threadEnv.rule refs r)) ∧ (∀ refs r, LooksAtMatches (threadEnv.rule refs r)) ∧
    (Pool.run threadEnv { obj := sessionObj, lists := fun _ => ["t"] } threadEvents).spansFound = [some [(2, 4)], some [(2, 3)]] :=
  ⟨fun _ _ => (C96_quiet_rules _ _).1, fun _ _ => (C96_quiet_rules (fun p => p) _).2, by decide +kernel⟩

/-- Same, for `C104_unchanged` and `C104_finishes`. -/
example : let es : List (Event Unit) := threadEvents.filter (fun e => match e with | .change _ => false | _ => true)
    (∀ g, Event.change g ∉ es) ∧ (Pool.run threadEnv { obj := sessionObj, lists := fun _ => ["t"] } es).spansFound = [some [(2, 4)], some []] ∧
    8 ≤ es.countP (isStepOf 0) :=
  ⟨by intro g hg; have := (List.mem_filter.1 hg).2; simp at this, by decide +kernel, by decide⟩

end Rebulk
