import Verif.Spec.RuleLog
import Verif.Props.Rules
/-!
# C95: the log of the rule engine
-/
namespace Rebulk
open Spec

section
variable {σ ρ : Type} (truthy : ρ → Bool) (level : RuleRef → Option Int) (beh : RuleRef → Behaviour σ ρ)

/-- A logged run without its log. -/
def LoggedRun.forget (x : LoggedRun σ ρ) : RuleRun σ ρ := ⟨x.state, callsMade x.events, x.ret, x.err⟩

/-- One run after another. -/
def RuleRun.andThen (x : RuleRun σ ρ) (f : σ → RuleRun σ ρ) : RuleRun σ ρ :=
  match x.err with
  | some _ => x
  | none => { state := (f x.state).state, trace := x.trace ++ (f x.state).trace, ret := x.ret ++ (f x.state).ret, err := (f x.state).err }

theorem callsMade_append (a b : List LogEvent) : callsMade (a ++ b) = callsMade a ++ callsMade b := by
  unfold callsMade; rw [List.filterMap_append]

theorem forget_andThen (x : LoggedRun σ ρ) (f : σ → LoggedRun σ ρ) : (x.andThen f).forget = x.forget.andThen (fun s => (f s).forget) := by
  unfold LoggedRun.andThen RuleRun.andThen
  cases h : x.err with
  | some e => simp [LoggedRun.forget, h]
  | none => simp [LoggedRun.forget, h, callsMade_append]

theorem RuleRun.andThen_assoc (x : RuleRun σ ρ) (f g : σ → RuleRun σ ρ) :
    (x.andThen f).andThen g = x.andThen (fun s => (f s).andThen g) := by
  obtain ⟨st, tr, ret, err⟩ := x
  cases err with
  | some e => rfl
  | none =>
    simp only [RuleRun.andThen]
    cases h : (f st).err <;> simp [List.append_assoc, h]

theorem RuleRun.andThen_congr (x : RuleRun σ ρ) (f g : σ → RuleRun σ ρ) (h : ∀ s, f s = g s) : x.andThen f = x.andThen g := by
  rw [show f = g from funext h]

theorem executeList_cons (e : Option PyErr) (r : RuleRef) (rs : List RuleRef) (s : σ) :
    executeList truthy beh e (r :: rs) s = (executeRule truthy (beh r) r s).andThen (executeList truthy beh e rs) := by
  conv => lhs; unfold executeList
  unfold RuleRun.andThen
  simp only
  cases (executeRule truthy (beh r) r s).err <;> rfl

theorem executeList_append (e : Option PyErr) : ∀ (l1 l2 : List RuleRef) (s : σ),
    executeList truthy beh e (l1 ++ l2) s = (executeList truthy beh none l1 s).andThen (executeList truthy beh e l2)
  | [], l2, s => by simp [executeList, RuleRun.andThen]
  | r :: l1, l2, s => by
    rw [List.cons_append, executeList_cons, executeList_cons, RuleRun.andThen_assoc]
    exact RuleRun.andThen_congr _ _ _ (fun s => executeList_append e l1 l2 s)

theorem forget_rule (r : RuleRef) (s : σ) {l : Int} (h : level r = some l) :
    (executeRuleLogged truthy level (beh r) r s).forget = executeRule truthy (beh r) r s := by
  unfold executeRuleLogged executeRule LoggedRun.forget
  rw [h]
  simp only
  cases (beh r).enabled s with
  | false => rfl
  | true =>
    simp only [if_true]
    cases (beh r).when_ s with
    | mk s1 x =>
      cases x with
      | error e => rfl
      | ok a =>
        simp only
        cases truthy a with
        | false => rfl
        | true =>
          simp only [if_true]
          cases (beh r).then_ s1 a with
          | mk s2 y => cases y <;> rfl

theorem forget_group : ∀ (g : List RuleRef) (s : σ), (∀ r ∈ g, (level r).isSome) →
    (executeGroupLogged truthy level beh g s).forget = executeList truthy beh none g s
  | [], s, _ => rfl
  | r :: g, s, h => by
    obtain ⟨l, hl⟩ := Option.isSome_iff_exists.1 (h r (by simp))
    unfold executeGroupLogged
    rw [forget_andThen, forget_rule truthy level beh r s hl, executeList_cons]
    exact RuleRun.andThen_congr _ _ _ (fun s => forget_group g s (fun r hr => h r (List.mem_cons_of_mem _ hr)))

theorem groupLevel_some : ∀ (g : List RuleRef) (acc : Option Int), (∀ r ∈ g, (level r).isSome) →
    ∃ n, groupLevel level g acc = some n ∧ (n = none ↔ g = [] ∧ acc = none) ∧
      (∀ k, n = some k → (acc = some k ∨ ∃ r ∈ g, level r = some k) ∧ (∀ a, acc = some a → a ≤ k) ∧
        ∀ r ∈ g, ∃ l, level r = some l ∧ l ≤ k)
  | [], acc, _ => ⟨acc, rfl, by simp, fun k hk => ⟨Or.inl hk, fun a ha => by rw [hk] at ha; cases ha; omega, by simp⟩⟩
  | r :: g, acc, h => by
    obtain ⟨l, hl⟩ := Option.isSome_iff_exists.1 (h r (by simp))
    obtain ⟨n, h1, h2, h3⟩ := groupLevel_some g (match acc with
      | none => some l
      | some a => if a < l then some l else some a) (fun r hr => h r (List.mem_cons_of_mem _ hr))
    have hne : n ≠ none := by
      intro he
      have := (h2.1 he).2
      cases acc with
      | none => simp at this
      | some a => simp only at this; split at this <;> cases this
    refine ⟨n, ?_, ?_, ?_⟩
    · unfold groupLevel; rw [hl]; exact h1
    · constructor
      · intro he; exact absurd he hne
      · intro he; simp at he
    · intro k hk
      obtain ⟨h4, h5, h6⟩ := h3 k hk
      have hrl : l ≤ k := by
        cases acc with
        | none => exact h5 l rfl
        | some a =>
          by_cases hal : a < l
          · exact h5 l (by simp [hal])
          · have := h5 a (by simp [hal]); omega
      refine ⟨?_, ?_, ?_⟩
      · rcases h4 with h4 | ⟨r', hr', he⟩
        · cases acc with
          | none => right; exact ⟨r, by simp, by rw [hl]; exact h4⟩
          | some a =>
            simp only at h4
            by_cases hal : a < l
            · rw [if_pos hal] at h4; right; exact ⟨r, by simp, by rw [hl]; exact h4⟩
            · rw [if_neg hal] at h4; exact Or.inl h4
        · exact Or.inr ⟨r', List.mem_cons_of_mem _ hr', he⟩
      · intro a ha
        subst ha
        by_cases hal : a < l
        · omega
        · exact h5 a (by simp [hal])
      · intro r' hr'
        rcases List.mem_cons.1 hr' with rfl | hr'
        · exact ⟨l, hl, hrl⟩
        · exact h6 r' hr'

theorem forget_oneGroup (all : List RuleInfo) (p : Int) (g : List RuleRef) (s : σ) :
    (∀ e, orderGroup all g = .error e → (executeOneGroup truthy level beh all p g s).forget = { state := s, err := some e }) ∧
    (∀ l, orderGroup all g = .ok l → (∀ r ∈ l, (level r).isSome) →
      (executeOneGroup truthy level beh all p g s).forget = executeList truthy beh none l s) := by
  constructor
  · intro e he; unfold executeOneGroup; rw [he]; rfl
  · intro l hl hlev
    obtain ⟨n, hn, _⟩ := groupLevel_some level l none hlev
    unfold executeOneGroup
    rw [hl]
    simp only
    rw [hn]
    simp only
    rw [forget_andThen]
    unfold RuleRun.andThen LoggedRun.forget
    simp only [callsMade, List.filterMap_cons, List.filterMap_nil, List.nil_append]
    have := forget_group truthy level beh l s hlev
    unfold LoggedRun.forget callsMade at this
    rw [this]

theorem forget_groups (all : List RuleInfo) (p : Int) (e : Option PyErr) : ∀ (gs : List (List RuleRef)) (s : σ),
    (∀ r ∈ (orderGroups all e gs).1, (level r).isSome) →
    (executeGroups truthy level beh all p e gs s).forget = executeList truthy beh (orderGroups all e gs).2 (orderGroups all e gs).1 s
  | [], s, _ => rfl
  | g :: gs, s, h => by
    unfold executeGroups
    rw [forget_andThen]
    cases ho : orderGroup all g with
    | error x =>
      rw [(forget_oneGroup truthy level beh all p g s).1 x ho]
      simp [orderGroups, ho, executeList, RuleRun.andThen]
    | ok l =>
      have hsplit : orderGroups all e (g :: gs) = (l ++ (orderGroups all e gs).1, (orderGroups all e gs).2) := by
        simp [orderGroups, ho]
      rw [hsplit] at h ⊢
      rw [(forget_oneGroup truthy level beh all p g s).2 l ho (fun r hr => h r (List.mem_append_left _ hr))]
      simp only
      rw [executeList_append]
      exact RuleRun.andThen_congr _ _ _ (fun s => forget_groups all p e gs s (fun r hr => h r (List.mem_append_right _ hr)))

theorem forget_priority (all : List RuleInfo) (pr : Int × List RuleInfo) (s : σ) (h : ∀ r ∈ (schedulePriority all pr.2).1, (level r).isSome) :
    (executePriority truthy level beh all pr s).forget =
      executeList truthy beh (schedulePriority all pr.2).2 (schedulePriority all pr.2).1 s := by
  unfold executePriority
  unfold schedulePriority at h ⊢
  cases hg : rulesGraph pr.2 with
  | error e => rfl
  | ok graph =>
    rw [hg] at h
    exact forget_groups truthy level beh all pr.1 _ _ s h

theorem executeList_raise (e : PyErr) (f : σ → RuleRun σ ρ) : ∀ (l : List RuleRef) (s : σ),
    (executeList truthy beh (some e) l s).andThen f = executeList truthy beh (some e) l s
  | [], s => rfl
  | r :: l, s => by
    rw [executeList_cons, RuleRun.andThen_assoc]
    exact RuleRun.andThen_congr _ _ _ (fun s => executeList_raise e f l s)

theorem forget_priorities (all : List RuleInfo) : ∀ (gs : List (Int × List RuleInfo)) (s : σ),
    (∀ r ∈ (schedulePriorities all gs).1, (level r).isSome) →
    (executePriorities truthy level beh all gs s).forget =
      executeList truthy beh (schedulePriorities all gs).2 (schedulePriorities all gs).1 s
  | [], s, _ => rfl
  | pr :: rest, s, h => by
    unfold executePriorities
    rw [forget_andThen]
    unfold schedulePriorities at h ⊢
    cases hs : schedulePriority all pr.2 with
    | mk l e =>
      have hp := forget_priority truthy level beh all pr s
      rw [hs] at h hp
      cases e with
      | some e =>
        simp only at h hp ⊢
        rw [hp h, executeList_raise]
      | none =>
        simp only at h hp ⊢
        rw [hp (fun r hr => h r (List.mem_append_left _ hr)), executeList_append]
        exact RuleRun.andThen_congr _ _ _ (fun s => forget_priorities all rest s (fun r hr => h r (List.mem_append_right _ hr)))

/-! ## The shape of the log -/

theorem ruleLogged_lines (r : RuleRef) (s : σ) {l : Int} (h : level r = some l) :
    RuleLines r l (executeRuleLogged truthy level (beh r) r s).events := by
  unfold executeRuleLogged
  rw [h]
  simp only
  split
  · split
    · exact .checked
    · split
      · split <;> exact .ran
      · exact .checked
  · exact .off

theorem andThen_events (x : LoggedRun σ ρ) (f : σ → LoggedRun σ ρ) :
    (x.andThen f).events = x.events ∨ (x.err = none ∧ (x.andThen f).events = x.events ++ (f x.state).events) := by
  unfold LoggedRun.andThen
  cases h : x.err with
  | some e => exact Or.inl rfl
  | none => exact Or.inr ⟨rfl, rfl⟩

theorem groupLogged_lines : ∀ (g : List RuleRef) (s : σ), (∀ r ∈ g, (level r).isSome) →
    ∃ runs : List (RuleRef × List LogEvent), (executeGroupLogged truthy level beh g s).events = (runs.map (fun x => x.2)).flatten ∧
      (∀ x ∈ runs, ∃ l, level x.1 = some l ∧ RuleLines x.1 l x.2) ∧ runs.map (fun x => x.1) <+: g
  | [], s, _ => ⟨[], by simp [executeGroupLogged]⟩
  | r :: g, s, h => by
    obtain ⟨l, hl⟩ := Option.isSome_iff_exists.1 (h r (by simp))
    have h0 := ruleLogged_lines truthy level beh r s hl
    unfold executeGroupLogged
    rcases andThen_events (executeRuleLogged truthy level (beh r) r s) (executeGroupLogged truthy level beh g) with h1 | ⟨_, h1⟩
    · refine ⟨[(r, _)], by rw [h1]; simp; rfl, ?_, by simp⟩
      intro x hx
      rw [List.mem_singleton] at hx
      subst hx
      exact ⟨l, hl, h0⟩
    · obtain ⟨runs, k1, k2, k3⟩ := groupLogged_lines g (executeRuleLogged truthy level (beh r) r s).state
        (fun r hr => h r (List.mem_cons_of_mem _ hr))
      refine ⟨(r, _) :: runs, by rw [h1, k1]; simp; rfl, ?_, by simpa using k3⟩
      intro x hx
      rcases List.mem_cons.1 hx with rfl | hx
      · exact ⟨l, hl, h0⟩
      · exact k2 x hx

theorem groupedLog_append {all : List RuleInfo} {a b : List LogEvent} (ha : GroupedLog all level a) (hb : GroupedLog all level b) : GroupedLog all level (a ++ b) := by
  obtain ⟨p, hp, h1⟩ := ha
  obtain ⟨q, hq, h2⟩ := hb
  refine ⟨p ++ q, by rw [hp, hq, List.flatten_append], fun x hx => ?_⟩
  rcases List.mem_append.1 hx with h | h
  · exact h1 x h
  · exact h2 x h

theorem groupedLog_nil {all : List RuleInfo} : GroupedLog all level [] := ⟨[], rfl, by simp⟩

theorem groupedLog_andThen {all : List RuleInfo} (x : LoggedRun σ ρ) (f : σ → LoggedRun σ ρ) (hx : GroupedLog all level x.events)
    (hf : x.err = none → ∀ s, GroupedLog all level (f s).events) : GroupedLog all level (x.andThen f).events := by
  rcases andThen_events x f with h | ⟨he, h⟩
  · rw [h]; exact hx
  · rw [h]; exact groupedLog_append level hx (hf he _)

theorem pySorted_length {α : Type} (lt : α → α → Bool) (l : List α) : (pySorted lt l).length = l.length := (pySorted_perm lt l).length_eq

theorem groupedLog_oneGroup (all : List RuleInfo) (p : Int) (g : List RuleRef) (hg : g ≠ []) (s : σ)
    (hlev : ∀ l, orderGroup all g = .ok l → ∀ r ∈ l, (level r).isSome ∧ ∃ a ∈ all, a.ref = r ∧ a.priority = p) :
    GroupedLog all level (executeOneGroup truthy level beh all p g s).events := by
  unfold executeOneGroup
  cases ho : orderGroup all g with
  | error e => exact groupedLog_nil level
  | ok l =>
    have hl : ∀ r ∈ l, (level r).isSome := fun r hr => (hlev l ho r hr).1
    have hne : l ≠ [] := by
      unfold orderGroup at ho
      split at ho
      · injection ho with ho
        intro he
        rw [he] at ho
        exact hg (List.eq_nil_of_length_eq_zero (by rw [← pySorted_length, ho]; rfl))
      · cases ho
    obtain ⟨n, hn, h1, h2⟩ := groupLevel_some level l none hl
    simp only
    rw [hn]
    simp only
    cases n with
    | none => exact absurd (h1.1 rfl).1 hne
    | some k =>
      obtain ⟨h3, _, h4⟩ := h2 k rfl
      have h3 : ∃ r ∈ l, level r = some k := by
        rcases h3 with h3 | h3
        · cases h3
        · exact h3
      unfold LoggedRun.andThen
      simp only [Option.getD_some]
      refine ⟨[_], (by simp; rfl), ?_⟩
      intro x hx
      rw [List.mem_singleton] at hx
      subst hx
      obtain ⟨runs, k1, k2, k3⟩ := groupLogged_lines truthy level beh l s hl
      exact ⟨l, k, p, runs, (by rw [← k1]), h3, h4, fun r hr => (hlev l ho r hr).2, k2, k3⟩

theorem groupedLog_groups (all : List RuleInfo) (p : Int) (e : Option PyErr) : ∀ (gs : List (List RuleRef)) (s : σ), (∀ g ∈ gs, g ≠ []) →
    (∀ r ∈ (orderGroups all e gs).1, (level r).isSome ∧ ∃ a ∈ all, a.ref = r ∧ a.priority = p) → GroupedLog all level (executeGroups truthy level beh all p e gs s).events
  | [], s, _, _ => groupedLog_nil level
  | g :: gs, s, hg, h => by
    unfold executeGroups
    unfold orderGroups at h
    refine groupedLog_andThen level _ _ (groupedLog_oneGroup truthy level beh all p g (hg g (by simp)) s (fun l hl r hr => ?_)) ?_
    · rw [hl] at h
      exact h r (List.mem_append_left _ hr)
    · intro herr s'
      cases ho : orderGroup all g with
      | error x =>
        have := congrArg RuleRun.err ((forget_oneGroup truthy level beh all p g s).1 x ho)
        rw [show (executeOneGroup truthy level beh all p g s).err = some x from this] at herr
        cases herr
      | ok l =>
        rw [ho] at h
        exact groupedLog_groups all p e gs s' (fun g hg' => hg g (List.mem_cons_of_mem _ hg')) (fun r hr => h r (List.mem_append_right _ hr))

theorem topoLoop_nonempty : ∀ (fuel : Nat) (D : Deps Nat) r, topoLoop fuel D = some r → ∀ g ∈ r.1, g ≠ []
  | 0, _, _, h => by cases h
  | fuel + 1, D, r, h => by
    unfold topoLoop at h
    simp only at h
    split at h
    · injection h with h; subst h; simp
    · rename_i hne
      cases h' : topoLoop fuel (removeOrdered (orderedItems D) D) with
      | none => rw [h'] at h; cases h
      | some r' =>
        rw [h'] at h
        injection h with h
        subst h
        intro g hg
        rcases List.mem_cons.1 hg with rfl | hg
        · intro he; rw [he] at hne; simp at hne
        · exact topoLoop_nonempty fuel _ r' h' g hg

theorem ruleGroups_nonempty (graph : List (RuleRef × List RuleRef)) : ∀ g ∈ (ruleGroups graph).1, g ≠ [] := by
  unfold ruleGroups
  cases h : toposort (graphFuel (classGraph graph)) (classGraph graph) with
  | none => simp
  | some r =>
    obtain ⟨groups, e⟩ := r
    simp only
    have hne : ∀ g ∈ groups, g ≠ [] := by
      unfold toposort at h
      split at h
      · injection h with h; injection h with h _; subst h; simp
      · unfold topoFrom at h
        cases h' : topoLoop (graphFuel (classGraph graph))
            (discardSelf (classGraph graph) ++ (extraItems (discardSelf (classGraph graph))).map (fun d => (d, []))) with
        | none => rw [h'] at h; cases h
        | some r' =>
          rw [h'] at h
          injection h with h
          injection h with h _
          subst h
          exact topoLoop_nonempty _ _ r' h'
    intro g hg
    obtain ⟨g', hg', rfl⟩ := List.mem_map.1 hg
    intro he
    exact hne g' hg' (List.map_eq_nil_iff.1 he)

theorem groupedLog_priority (all : List RuleInfo) (pr : Int × List RuleInfo) (s : σ) (h : ∀ r ∈ (schedulePriority all pr.2).1, (level r).isSome ∧ ∃ a ∈ all, a.ref = r ∧ a.priority = pr.1) :
    GroupedLog all level (executePriority truthy level beh all pr s).events := by
  unfold executePriority
  unfold schedulePriority at h
  cases hg : rulesGraph pr.2 with
  | error e => exact groupedLog_nil level
  | ok graph =>
    rw [hg] at h
    exact groupedLog_groups truthy level beh all pr.1 _ _ s (ruleGroups_nonempty graph) h

theorem groupedLog_priorities (all : List RuleInfo) : ∀ (gs : List (Int × List RuleInfo)) (s : σ),
    (∀ r ∈ (schedulePriorities all gs).1, (level r).isSome) →
    (∀ pr ∈ gs, ∀ r ∈ (schedulePriority all pr.2).1, ∃ a ∈ all, a.ref = r ∧ a.priority = pr.1) →
    GroupedLog all level (executePriorities truthy level beh all gs s).events
  | [], s, _, _ => groupedLog_nil level
  | pr :: rest, s, h, hq0 => by
    have hq1 := hq0 pr (by simp)
    have hq2 := fun x hx => hq0 x (List.mem_cons_of_mem _ hx)
    unfold executePriorities
    unfold schedulePriorities at h
    cases hs : schedulePriority all pr.2 with
    | mk l e =>
      have hp := forget_priority truthy level beh all pr s
      have hq := groupedLog_priority truthy level beh all pr s
      rw [hs] at h hp hq hq1
      cases e with
      | some e =>
        simp only at h hp hq hq1
        refine groupedLog_andThen level _ _ (hq (fun r hr => ⟨h r hr, hq1 r hr⟩)) (fun herr => ?_)
        have := congrArg RuleRun.err (hp h)
        rw [show (executePriority truthy level beh all pr s).err = (executeList truthy beh (some e) l s).err from this] at herr
        have := ((executeList_considered truthy beh (some e) l s).2 herr).2
        cases this
      | none =>
        simp only at h hp hq hq1
        exact groupedLog_andThen level _ _ (hq (fun r hr => ⟨h r (List.mem_append_left _ hr), hq1 r hr⟩))
          (fun _ s' => groupedLog_priorities all rest s' (fun r hr => h r (List.mem_append_right _ hr)) hq2)

/-! ### Rules without level -/

/-- The logged runs `run` from any state are those of the first rules of the schedule `L`, which all have a level: of all of them, or of those before `g`, one group of rules
one of which has no level (`pool` tells where it is from, and what would come after it); then `AttributeError`. -/
def StopsAt (pool : List RuleRef → List RuleRef → Prop) (L : List RuleRef × Option PyErr) (run : σ → LoggedRun σ ρ) : Prop :=
  ∃ l g rest, L.1 = l ++ (g ++ rest) ∧ (∀ r ∈ l, (level r).isSome) ∧
    ((g ++ rest = [] ∧ ∀ s, (run s).forget = executeList truthy beh L.2 l s) ∨
     ((∃ q ∈ g, level q = none) ∧ pool g rest ∧ ∀ s, (run s).forget = executeList truthy beh (some .attributeError) l s))

theorem groupLevel_none : ∀ (g : List RuleRef) (acc : Option Int), (∃ r ∈ g, level r = none) → groupLevel level g acc = none
  | [], _, h => by obtain ⟨r, hr, _⟩ := h; cases hr
  | r :: g, acc, h => by
    simp only [groupLevel]
    cases hr : level r with
    | none => rfl
    | some l =>
      refine groupLevel_none g _ ?_
      obtain ⟨q, hq, hn⟩ := h
      rcases List.mem_cons.1 hq with rfl | hq
      · rw [hr] at hn; cases hn
      · exact ⟨q, hq, hn⟩

theorem allLevels_or (l : List RuleRef) : (∀ r ∈ l, (level r).isSome) ∨ ∃ q ∈ l, level q = none := by
  by_cases h : ∃ q ∈ l, level q = none
  · exact Or.inr h
  · refine Or.inl (fun r hr => ?_)
    cases hl : level r with
    | none => exact absurd ⟨r, hr, hl⟩ h
    | some x => rfl

theorem stopsAt_groups (all : List RuleInfo) (p : Int) (e : Option PyErr) : ∀ (gs : List (List RuleRef)),
    StopsAt truthy level beh (fun g rest => ∀ r ∈ g ++ rest, r ∈ (orderGroups all e gs).1) (orderGroups all e gs) (executeGroups truthy level beh all p e gs)
  | [] => ⟨[], [], [], rfl, by simp, Or.inl ⟨rfl, fun _ => rfl⟩⟩
  | g :: gs => by
    cases ho : orderGroup all g with
    | error x =>
      have h1 : orderGroups all e (g :: gs) = ([], some x) := by simp [orderGroups, ho]
      rw [h1]
      refine ⟨[], [], [], rfl, by simp, Or.inl ⟨rfl, fun s => ?_⟩⟩
      unfold executeGroups
      rw [forget_andThen, (forget_oneGroup truthy level beh all p g s).1 x ho]
      rfl
    | ok l =>
      have hsplit : orderGroups all e (g :: gs) = (l ++ (orderGroups all e gs).1, (orderGroups all e gs).2) := by
        simp [orderGroups, ho]
      rw [hsplit]
      rcases allLevels_or level l with hl | hl
      · obtain ⟨l', g', rest, h1, h2, h3⟩ := stopsAt_groups all p e gs
        have hrun : ∀ s, (executeGroups truthy level beh all p e (g :: gs) s).forget =
            (executeList truthy beh none l s).andThen (fun s => (executeGroups truthy level beh all p e gs s).forget) := by
          intro s
          simp only [executeGroups]
          rw [forget_andThen, (forget_oneGroup truthy level beh all p g s).2 l ho hl]
        refine ⟨l ++ l', g', rest, by simp only [h1, List.append_assoc], ?_, ?_⟩
        · intro r hr
          rcases List.mem_append.1 hr with hr | hr
          · exact hl r hr
          · exact h2 r hr
        · rcases h3 with ⟨h3, h4⟩ | ⟨h3, h5, h4⟩
          · refine Or.inl ⟨h3, fun s => ?_⟩
            rw [hrun, executeList_append]
            exact RuleRun.andThen_congr _ _ _ h4
          · refine Or.inr ⟨h3, fun r hr => List.mem_append_right _ (h5 r hr), fun s => ?_⟩
            rw [hrun, executeList_append]
            exact RuleRun.andThen_congr _ _ _ h4
      · refine ⟨[], l, (orderGroups all e gs).1, rfl, by simp, Or.inr ⟨hl, fun r hr => hr, fun s => ?_⟩⟩
        simp only [executeGroups, executeOneGroup, ho, groupLevel_none level l none hl]
        rfl

theorem stopsAt_priority (all : List RuleInfo) (pr : Int × List RuleInfo) :
    StopsAt truthy level beh (fun g rest => ∀ r ∈ g ++ rest, r ∈ (schedulePriority all pr.2).1) (schedulePriority all pr.2) (executePriority truthy level beh all pr) := by
  have hx : executePriority truthy level beh all pr = fun s => executePriority truthy level beh all pr s := rfl
  rw [hx]
  unfold executePriority schedulePriority
  cases hg : rulesGraph pr.2 with
  | error e => exact ⟨[], [], [], rfl, by simp, Or.inl ⟨rfl, fun _ => rfl⟩⟩
  | ok graph => exact stopsAt_groups truthy level beh all pr.1 _ _

theorem stopsAt_priorities (all : List RuleInfo) : ∀ (gs : List (Int × List RuleInfo)),
    StopsAt truthy level beh (fun g rest => ∃ before pr after, gs = before ++ pr :: after ∧ (∀ r ∈ g, r ∈ (schedulePriority all pr.2).1) ∧
      ∀ r ∈ rest, ∃ pr' ∈ pr :: after, r ∈ (schedulePriority all pr'.2).1) (schedulePriorities all gs)
      (executePriorities truthy level beh all gs)
  | [] => ⟨[], [], [], rfl, by simp, Or.inl ⟨rfl, fun _ => rfl⟩⟩
  | pr :: rest => by
    have hrun : ∀ s, (executePriorities truthy level beh all (pr :: rest) s).forget =
        (executePriority truthy level beh all pr s).forget.andThen (fun s => (executePriorities truthy level beh all rest s).forget) := by
      intro s
      simp only [executePriorities]
      rw [forget_andThen]
    have hp := stopsAt_priority truthy level beh all pr
    cases hs : schedulePriority all pr.2 with
    | mk l e =>
      rw [hs] at hp
      obtain ⟨l1, g, r1, h1, h2, h3⟩ := hp
      simp only at h1
      have hraise : ∀ x, (∀ s, (executePriority truthy level beh all pr s).forget = executeList truthy beh (some x) l1 s) →
          ∀ s, (executePriorities truthy level beh all (pr :: rest) s).forget = executeList truthy beh (some x) l1 s := by
        intro x hx s
        rw [hrun, hx, executeList_raise]
      rcases h3 with ⟨h3, h4⟩ | ⟨h3, h5, h4⟩
      · have hl : l = l1 := by rw [h1, h3, List.append_nil]
        subst hl
        cases e with
        | some e =>
          have hd : schedulePriorities all (pr :: rest) = (l, some e) := by simp [schedulePriorities, hs]
          rw [hd]
          exact ⟨l, [], [], by simp, h2, Or.inl ⟨rfl, hraise e h4⟩⟩
        | none =>
          have hd : schedulePriorities all (pr :: rest) = (l ++ (schedulePriorities all rest).1, (schedulePriorities all rest).2) := by
            simp [schedulePriorities, hs]
          rw [hd]
          obtain ⟨l2, g2, r2, q1, q2, q3⟩ := stopsAt_priorities all rest
          refine ⟨l ++ l2, g2, r2, by simp only [q1, List.append_assoc], ?_, ?_⟩
          · intro r hr
            rcases List.mem_append.1 hr with hr | hr
            · exact h2 r hr
            · exact q2 r hr
          · rcases q3 with ⟨q3, q4⟩ | ⟨q3, ⟨bf, pr', af, q5, q6⟩, q4⟩
            · refine Or.inl ⟨q3, fun s => ?_⟩
              rw [hrun, h4, executeList_append]
              exact RuleRun.andThen_congr _ _ _ q4
            · refine Or.inr ⟨q3, ⟨pr :: bf, pr', af, by rw [q5]; rfl, q6⟩, fun s => ?_⟩
              rw [hrun, h4, executeList_append]
              exact RuleRun.andThen_congr _ _ _ q4
      · have hin : ∀ r ∈ g ++ r1, r ∈ (schedulePriority all pr.2).1 := by rw [hs]; exact h5
        have hin1 : ∀ r ∈ g, r ∈ (schedulePriority all pr.2).1 := fun r hr => hin r (List.mem_append_left _ hr)
        have hin2 : ∀ r ∈ r1, ∃ pr' ∈ pr :: rest, r ∈ (schedulePriority all pr'.2).1 := fun r hr => ⟨pr, List.mem_cons_self, hin r (List.mem_append_right _ hr)⟩
        cases e with
        | some e =>
          have hd : schedulePriorities all (pr :: rest) = (l, some e) := by simp [schedulePriorities, hs]
          rw [hd]
          exact ⟨l1, g, r1, h1, h2, Or.inr ⟨h3, ⟨[], pr, rest, rfl, hin1, hin2⟩, hraise _ h4⟩⟩
        | none =>
          have hd : schedulePriorities all (pr :: rest) = (l ++ (schedulePriorities all rest).1, (schedulePriorities all rest).2) := by
            simp [schedulePriorities, hs]
          rw [hd]
          refine ⟨l1, g, r1 ++ (schedulePriorities all rest).1, by simp only [h1, List.append_assoc], h2,
            Or.inr ⟨h3, ⟨[], pr, rest, rfl, hin1, fun r hr => ?_⟩, hraise _ h4⟩⟩
          rcases List.mem_append.1 hr with hr | hr
          · exact hin2 r hr
          · obtain ⟨done, more, d1, d2⟩ := schedule_parts all rest
            rw [d2, List.mem_flatMap] at hr
            obtain ⟨kg, hkg, hr⟩ := hr
            exact ⟨kg, List.mem_cons_of_mem _ (by rw [d1]; exact List.mem_append_left _ hkg), hr⟩

end

/-! ## C95 -/

/-- **C95 is false**: the level given to the constructor of a rule is never stored. For a class without a level of its own the rule then has no
level at all; for a class that has one the argument is ignored. The engine raises `AttributeError` on the first such rule, before running any
rule of its group: here the first rule, which has a level, is not run either. -/
theorem C95_refuted :
    (∀ default n : Int, initLogLevel default none (some n) = none) ∧
    (∀ default l n : Int, initLogLevel default (some l) (some n) = some l) ∧
    ∃ (rules : List RuleInfo) (level : RuleRef → Option Int),
      (∀ r ∈ rules, level r.ref = initLogLevel 10 none (if r.id = 1 then some 30 else none)) ∧
      (executeAllLogged (fun _ => true) level recorder rules []).err = some .attributeError ∧
      (executeAllLogged (fun _ => true) level recorder rules []).state = [] ∧
      (executeAll (fun _ => true) recorder rules []).err = none ∧
      (executeAll (fun _ => true) recorder rules []).state = [0, 1] :=
  ⟨fun _ _ => rfl, fun _ _ _ => rfl, [⟨0, 10, 0, .none⟩, ⟨1, 11, 0, .none⟩], fun r => if r.id = 1 then none else some 10,
    by decide, by decide, by decide, by decide, by decide⟩

/-- **C95, partial**: when all the rules that come to be run have a level, logging changes nothing: the run of `C57` – `C60`. The log is made of
parts, each one the record of a group of rules of one priority, at the greatest of their levels, then the runs of the rules of this group from the
first one on: each rule is asked whether it is enabled and its calls are announced, at its level, or it is reported disabled, at its level. A rule created without a level has the level of its class, or else the default. (Missing: levels given to the
constructor.) -/
theorem C95_partial {σ ρ : Type} (truthy : ρ → Bool) (level : RuleRef → Option Int) (beh : RuleRef → Behaviour σ ρ) (rules : List RuleInfo)
    (hc : OnlyClasses rules) (h : ∀ r ∈ rules, (level r.ref).isSome) (s : σ) :
    let logged := executeAllLogged truthy level beh rules s
    let run := executeAll truthy beh rules s
    logged.state = run.state ∧ callsMade logged.events = run.trace ∧ logged.ret = run.ret ∧ logged.err = run.err ∧
    GroupedLog rules level logged.events ∧
    ∀ default l : Int, initLogLevel default none none = some default ∧ initLogLevel default (some l) none = some l := by
  intro logged run
  have hl : ∀ r ∈ (schedule rules).1, (level r).isSome := by
    intro r hr
    obtain ⟨a, ha, rfl⟩ := schedule_refs rules hc r hr
    exact h a ha
  have hf : logged.forget = run := forget_priorities truthy level beh rules _ s hl
  refine ⟨congrArg RuleRun.state hf, congrArg RuleRun.trace hf, congrArg RuleRun.ret hf, congrArg RuleRun.err hf,
    groupedLog_priorities truthy level beh rules _ s hl ?_, fun _ _ => ⟨rfl, rfl⟩⟩
  obtain ⟨_, hg2, _, _⟩ := priority_groups rules
  intro pr hpr r hr
  rw [(hg2 pr hpr).2] at hr
  obtain ⟨a, ha, hp, rfl⟩ := (part_spec rules pr.1 hc).1 r hr
  exact ⟨a, ha, rfl, hp⟩

/-- **C95**, whatever levels the rules have. Without logging the rules of the schedule would be run, in its order (`C57_exact`). With logging either all of them have a level and
the run is the same, or the first ones are run, which all have a level, as they would be without logging, and then `AttributeError` ends the run, if no rule raised before: at a group
of rules of one priority, among which is a rule without level. All rules of greater priorities have been run then. -/
theorem C95_exact {σ ρ : Type} (truthy : ρ → Bool) (level : RuleRef → Option Int) (beh : RuleRef → Behaviour σ ρ) (rules : List RuleInfo)
    (hc : OnlyClasses rules) (s : σ) :
    ((∀ r ∈ (schedule rules).1, (level r).isSome) ∧ (executeAllLogged truthy level beh rules s).forget = executeAll truthy beh rules s) ∨
    ∃ done group rest, (schedule rules).1 = done ++ (group ++ rest) ∧ (∀ r ∈ done, (level r).isSome) ∧ (∃ q ∈ group, level q = none) ∧
      (∃ p, (∀ r ∈ group, ∃ a ∈ rules, a.ref = r ∧ a.priority = p) ∧ ∀ r ∈ rest, ∃ a ∈ rules, a.ref = r ∧ a.priority ≤ p) ∧
      ∃ run : RuleRun σ ρ, Executes truthy beh done s run.state run.trace run.ret run.err ∧
        (executeAllLogged truthy level beh rules s).forget = { run with err := run.err.or (some .attributeError) } := by
  obtain ⟨hg1, hg2, _, _⟩ := priority_groups rules
  obtain ⟨l, g, rest, h1, h2, h3⟩ := stopsAt_priorities truthy level beh rules (groupBy (fun r : RuleInfo => r.priority) (pySorted (fun a b => decide (a.priority > b.priority)) rules))
  have hin : ∀ pr ∈ groupBy (fun r : RuleInfo => r.priority) (pySorted (fun a b => decide (a.priority > b.priority)) rules),
      ∀ r ∈ (schedulePriority rules pr.2).1, ∃ a ∈ rules, a.ref = r ∧ a.priority = pr.1 := by
    intro pr hpr r hr
    rw [(hg2 pr hpr).2] at hr
    obtain ⟨a, ha, hp, rfl⟩ := (part_spec rules pr.1 hc).1 r hr
    exact ⟨a, ha, rfl, hp⟩
  rcases h3 with ⟨h3, h4⟩ | ⟨h3, ⟨bf, pr, af, h5, h6, h7⟩, h4⟩
  · rw [h3, List.append_nil] at h1
    have hl : (schedule rules).1 = l := h1
    refine Or.inl ⟨by rw [hl]; exact h2, ?_⟩
    unfold executeAll
    rw [hl]
    exact h4 s
  · refine Or.inr ⟨l, g, rest, h1, h2, h3, ⟨pr.1, ?_, ?_⟩, ?_⟩
    · exact fun r hr => hin pr (by rw [h5]; simp) r (h6 r hr)
    · intro r hr
      obtain ⟨pr', hpr', hr⟩ := h7 r hr
      obtain ⟨a, ha, hr1, hr2⟩ := hin pr' (by rw [h5]; exact List.mem_append_right _ hpr') r hr
      refine ⟨a, ha, hr1, ?_⟩
      rw [hr2]
      rcases List.mem_cons.1 hpr' with rfl | hpr'
      · exact Int.le_refl _
      · rw [h5, List.pairwise_append] at hg1
        have := (List.pairwise_cons.1 hg1.2.1).1 pr' hpr'
        omega
    · obtain ⟨e', q1, q2⟩ := executeList_executes truthy beh l (some .attributeError) s
      refine ⟨{ executeList truthy beh (some .attributeError) l s with err := e' }, q1, ?_⟩
      have : (executeAllLogged truthy level beh rules s).forget = executeList truthy beh (some .attributeError) l s := h4 s
      rw [this]
      generalize executeList truthy beh (some .attributeError) l s = x at q2
      obtain ⟨x1, x2, x3, x4⟩ := x
      simp only at q2 ⊢
      rw [q2]
      cases e' <;> rfl

/-- The rule of priority 5 is run, then `AttributeError`: the rule 0 of priority 0 has no level. -/
example : OnlyClasses rulesDemo ∧ (schedule rulesDemo).1.map (fun r => r.id) = [2, 0, 3, 1] ∧
    (executeAllLogged (fun _ => true) (fun r => if r.id = 0 then none else some 10) recorder rulesDemo []).state = [2] ∧
    (executeAllLogged (fun _ => true) (fun r => if r.id = 0 then none else some 10) recorder rulesDemo []).err = some .attributeError :=
  ⟨rulesDemo_classes, by decide, by decide, by decide⟩

/-- Two groups at priority 0, one at priority 5; levels 10, 20. -/
example : OnlyClasses rulesDemo ∧ (∀ r ∈ rulesDemo, (some (if r.ref.id = 0 then (20 : Int) else 10)).isSome) ∧
    (executeAllLogged (fun _ => true) (fun r => some (if r.id = 0 then 20 else 10)) recorder rulesDemo []).events.filter
      (fun e => match e with | .group _ _ _ => true | .checking _ _ => true | _ => false) =
    [.group 10 1 5, .checking 10 ⟨2, 12⟩, .group 20 2 0, .checking 20 ⟨0, 10⟩, .checking 10 ⟨3, 13⟩, .group 10 1 0, .checking 10 ⟨1, 11⟩] :=
  ⟨rulesDemo_classes, by decide, by decide⟩

end Rebulk
