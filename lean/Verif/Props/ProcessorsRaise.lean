import Verif.Props.ProcessorsEqual
/-!
# When the default rules raise (`C84`)
-/
namespace Rebulk
open Spec Matches

theorem eqv_initLen {a b : Match} (h : a.eqv b = true) : a.initLen = b.initLen := by
  have h1 := Match.eqv_ancestors h
  have h2 := Match.eqv_start h
  have h3 := Match.eqv_stop h
  unfold Match.initLen Match.initiator
  rw [h1]
  cases b.ancestors with
  | nil => show a.stop - a.start = b.stop - b.start; rw [h2, h3]
  | cons p ps =>
    unfold Match.initiatorFrom
    split
    · show a.stop - a.start = b.stop - b.start; rw [h2, h3]
    · rfl

theorem ownSolver_polite {custom : Nat → Match → Match → Except PyErr SolverRet} (hp : PoliteSolvers custom) (x y : Match) :
    ∃ a, ownSolver (.withDefault custom) x y = .ok a ∧ (a = .default ∨ a = .keepBoth ∨ a = .drop x ∨ a = .drop y) := by
  unfold ownSolver
  cases x.solver with
  | none => exact ⟨_, rfl, .inl rfl⟩
  | some k =>
    simp only
    show ∃ a, custom k x y = .ok a ∧ _
    rcases hp k x y with h | h | h | h
    · exact ⟨_, h, .inl rfl⟩
    · exact ⟨_, h, .inr (.inl rfl)⟩
    · exact ⟨_, h, .inr (.inr (.inl rfl))⟩
    · exact ⟨_, h, .inr (.inr (.inr rfl))⟩

theorem defaultConflict_polite {m c : Match} (hm : 0 ≤ m.initLen) (hc : 0 ≤ c.initLen) :
    ∃ a, defaultConflict m c = .ok a ∧ (a = .default ∨ a = .keepBoth ∨ a = .drop m ∨ a = .drop c) := by
  unfold defaultConflict
  rw [if_neg (by simp; omega)]
  split
  · exact ⟨_, rfl, .inr (.inr (.inr rfl))⟩
  · split
    · exact ⟨_, rfl, .inr (.inr (.inl rfl))⟩
    · exact ⟨_, rfl, .inr (.inl rfl)⟩

theorem askSolvers_polite {custom : Nat → Match → Match → Except PyErr SolverRet} (hp : PoliteSolvers custom) {m c : Match} (hm : 0 ≤ m.initLen)
    (hc : 0 ≤ c.initLen) : ∃ a, askSolvers (.withDefault custom) m c = .ok a ∧ (a = .default ∨ a = .keepBoth ∨ a = .drop m ∨ a = .drop c) := by
  obtain ⟨a, ha, ha'⟩ := ownSolver_polite hp c m
  obtain ⟨b, hb, hb'⟩ := ownSolver_polite hp m c
  obtain ⟨d, hd, hd'⟩ := defaultConflict_polite hm hc
  have hdef : (Solvers.withDefault custom).fallback m c = .ok d := hd
  unfold askSolvers
  rw [ha]
  rcases ha' with rfl | rfl | rfl | rfl
  · simp only
    rw [hb]
    rcases hb' with rfl | rfl | rfl | rfl
    · simp only; rw [hdef]; exact ⟨d, rfl, hd'⟩
    · exact ⟨_, rfl, .inr (.inl rfl)⟩
    · exact ⟨_, rfl, .inr (.inr (.inl rfl))⟩
    · exact ⟨_, rfl, .inr (.inr (.inr rfl))⟩
  · exact ⟨_, rfl, .inr (.inl rfl)⟩
  · exact ⟨_, rfl, .inr (.inr (.inr rfl))⟩
  · exact ⟨_, rfl, .inr (.inr (.inl rfl))⟩

theorem addRemoval_fine (set : List Match) {m c r : Match} (hr : r = m ∨ r = c) (hm : m.start < m.stop) (hc : c.start < c.stop) :
    ∃ set', addRemoval set m c r = .ok set' := by
  have hr' : r.start < r.stop := by rcases hr with rfl | rfl <;> assumption
  have ht : r.truthy? = .ok true := by
    unfold Match.truthy?
    rw [if_neg (by omega)]
    congr 1
    simp; omega
  unfold addRemoval
  rw [ht]
  simp only
  split
  · exact ⟨_, rfl⟩
  · have hk : ∃ k, keeper m c r = .ok k := by
      unfold keeper
      rcases hr with rfl | rfl
      · rw [if_pos (Match.eqv_refl _)]; exact ⟨_, rfl⟩
      · split
        · exact ⟨_, rfl⟩
        · rw [if_pos (Match.eqv_refl _)]; exact ⟨_, rfl⟩
    obtain ⟨k, hk⟩ := hk
    rw [hk]
    simp only
    split <;> exact ⟨_, rfl⟩

theorem resolvePairs_fine {custom : Nat → Match → Match → Except PyErr SolverRet} (hp : PoliteSolvers custom) {m : Match} (hm : m.start < m.stop)
    (hm2 : 0 ≤ m.initLen) : ∀ (cs set : List Match), (∀ c ∈ cs, c.start < c.stop ∧ 0 ≤ c.initLen) →
    ∃ set', resolvePairs (.withDefault custom) m cs set = .ok set'
  | [], set, _ => ⟨set, rfl⟩
  | c :: cs, set, h => by
    obtain ⟨h1, h2⟩ := h c List.mem_cons_self
    have hpair : ∃ set', resolvePair (.withDefault custom) m c set = .ok set' := by
      unfold resolvePair
      obtain ⟨a, ha, ha'⟩ := askSolvers_polite hp hm2 h2
      rw [ha]
      rcases ha' with rfl | rfl | rfl | rfl
      · exact ⟨_, rfl⟩
      · exact ⟨_, rfl⟩
      · exact addRemoval_fine set (.inl rfl) hm h1
      · exact addRemoval_fine set (.inr rfl) hm h1
    obtain ⟨set', hs⟩ := hpair
    unfold resolvePairs
    rw [hs]
    exact resolvePairs_fine hp hm hm2 cs set' (fun x hx => h x (List.mem_cons_of_mem _ hx))

theorem conflicting_covering {s : Matches} (h : Inv s) {m : Match} (hm : m ∈ s.delegate) (hne : m.start < m.stop) :
    ∃ cs, (s.conflicting m).2 = .ok cs ∧ ∀ x ∈ cs, ∃ y ∈ s.delegate, y.eqv x = true ∧ y.start < y.stop := by
  have hmem := conflictSet_mem h m
  have hin : ∃ x ∈ (conflictLoop (pyRange m.start m.stop) s []).2, x.eqv m = true :=
    (hmem m).2 ⟨m, hm, Match.eqv_refl m, m.start, by omega, by omega⟩
  unfold conflicting
  cases hr : removeFirst (fun x => x.eqv m) (conflictLoop (pyRange m.start m.stop) s []).2 with
  | none =>
    obtain ⟨x, hx, hxm⟩ := hin
    have := (removeFirst_none _ _).1 hr x hx
    rw [hxm] at this; cases this
  | some l' =>
    refine ⟨l', by simp only [hr], ?_⟩
    intro x hx
    obtain ⟨a, y, c, h1, h2, _, _⟩ := removeFirst_some _ _ _ hr
    have hx' : x ∈ (conflictLoop (pyRange m.start m.stop) s []).2 := by
      rw [h1]; rw [h2] at hx
      rcases List.mem_append.1 hx with hx | hx
      · exact List.mem_append_left _ hx
      · exact List.mem_append_right _ (List.mem_cons_of_mem _ hx)
    obtain ⟨z, hz, hze, i, hi, _⟩ := (hmem x).1 ⟨x, hx', Match.eqv_refl x⟩
    exact ⟨z, hz, hze, by omega⟩

theorem resolveMatch_fine {custom : Nat → Match → Match → Except PyErr SolverRet} (hp : PoliteSolvers custom) {s0 s : Matches} (hi : Inv s0) (hs : Sim s0 s)
    (hlen : ∀ x ∈ s0.delegate, 0 ≤ x.initLen) {m : Match} (hm : m ∈ s0.delegate) (hne : m.start < m.stop) (set : List Match) :
    ∃ set', (resolveMatch (.withDefault custom) m s set).2 = .ok set' := by
  obtain ⟨cs, h1, h2⟩ := conflicting_covering hi hm hne
  rw [← conflicting_sim_eq hs m] at h1
  unfold resolveMatch
  cases hc : s.conflicting m with
  | mk s1 a =>
    rw [hc] at h1
    simp only at h1; subst h1
    simp only
    split
    · exact ⟨_, rfl⟩
    · have hgood : ∀ c ∈ cs, c.start < c.stop ∧ 0 ≤ c.initLen := by
        intro c hc
        obtain ⟨y, hy, hye, hys⟩ := h2 c hc
        rw [Match.eqv_start hye, Match.eqv_stop hye] at hys
        exact ⟨hys, by rw [← eqv_initLen hye]; exact hlen y hy⟩
      obtain ⟨l, g1, g2, _⟩ := sortByLen_ok (l := publicOf cs) (fun c hc => (hgood c (mem_publicOf.1 hc).1).1)
      rw [g1]
      simp only
      exact resolvePairs_fine hp hne (hlen m hm) l set (fun c hc => hgood c (mem_publicOf.1 (g2.subset hc)).1)

theorem resolveMatch_empty (sv : Solvers) (s : Matches) {m : Match} (hz : m.start = m.stop) (set : List Match) :
    (resolveMatch sv m s set).2 = .error .valueError := by
  have hr : pyRange m.start m.stop = [] := by
    cases h : pyRange m.start m.stop with
    | nil => rfl
    | cons i l =>
      have := mem_pyRange.1 (h ▸ List.mem_cons_self : i ∈ pyRange m.start m.stop)
      omega
  unfold resolveMatch conflicting
  rw [hr]
  simp [conflictLoop, removeFirst]

theorem resolveMatches_outcome {custom : Nat → Match → Match → Except PyErr SolverRet} (hp : PoliteSolvers custom) {s0 : Matches} (hi : Inv s0)
    (hlen : ∀ x ∈ s0.delegate, 0 ≤ x.initLen) : ∀ (ms : List Match) (s : Matches) (set : List Match), Sim s0 s →
    (∀ m ∈ ms, m ∈ s0.delegate ∧ m.start ≤ m.stop) →
    ((∀ m ∈ ms, m.start < m.stop) ∧ ∃ set', (resolveMatches (.withDefault custom) ms s set).2 = .ok set') ∨
    ((∃ m ∈ ms, m.start = m.stop) ∧ (resolveMatches (.withDefault custom) ms s set).2 = .error .valueError)
  | [], s, set, _, _ => .inl ⟨by simp, set, rfl⟩
  | m :: ms, s, set, hs, h => by
    obtain ⟨h1, h2⟩ := h m List.mem_cons_self
    have hsim := resolveMatch_sim (.withDefault custom) m s set
    by_cases hz : m.start = m.stop
    · right
      refine ⟨⟨m, List.mem_cons_self, hz⟩, ?_⟩
      have := resolveMatch_empty (.withDefault custom) s hz set
      unfold resolveMatches
      cases hx : resolveMatch (.withDefault custom) m s set with
      | mk s1 a => rw [hx] at this; simp only at this; subst this; rfl
    · obtain ⟨set', h3⟩ := resolveMatch_fine hp hi hs hlen h1 (by omega) set
      have ih := fun s1 (hs1 : Sim s0 s1) => resolveMatches_outcome hp hi hlen ms s1 set' hs1 (fun x hx => h x (List.mem_cons_of_mem _ hx))
      unfold resolveMatches
      cases hx : resolveMatch (.withDefault custom) m s set with
      | mk s1 a =>
        rw [hx] at h3 hsim
        simp only at h3; subst h3
        simp only
        rcases ih s1 (hs.trans hsim) with ⟨g1, g2⟩ | ⟨⟨x, g1, g2⟩, g3⟩
        · left
          refine ⟨fun x hx => ?_, g2⟩
          rcases List.mem_cons.1 hx with rfl | hx
          · omega
          · exact g1 x hx
        · exact .inr ⟨⟨x, List.mem_cons_of_mem _ g1, g2⟩, g3⟩

/-- **C84**, exactly: on any container, with conflict solvers that do not raise and answer one of the two matches (or nothing, or "default"), resolving conflicts
raises if and only if some public match is empty (or ends before it starts), and then it is a `ValueError`. Equal matches are allowed. -/
theorem C84_exactly {custom : Nat → Match → Match → Except PyErr SolverRet} (hp : PoliteSolvers custom) {b : Bool} {input : Option Str} {s : Matches}
    (h : Reachable b input s) (hlen : ∀ m ∈ s.delegate, 0 ≤ m.initLen) (order : List Match → List Match) (r : RuleRef) :
    ((∀ m ∈ s.delegate, m.priv = false → m.start < m.stop) → (executeRule listTruthy (conflictRule (.withDefault custom) order) r s).err = none) ∧
    ((∃ m ∈ s.delegate, m.priv = false ∧ m.stop ≤ m.start) →
      (executeRule listTruthy (conflictRule (.withDefault custom) order) r s).err = some .valueError) := by
  have hi := h.inv
  have herr : ∀ e s1, conflictWhen (.withDefault custom) s = (s1, .error e) →
      (executeRule listTruthy (conflictRule (.withDefault custom) order) r s).err = some e := by
    intro e s1 he
    unfold executeRule
    rw [if_pos (show (conflictRule (.withDefault custom) order).enabled s = true from rfl),
      show (conflictRule (.withDefault custom) order).when_ s = conflictWhen (.withDefault custom) s from rfl, he]
  by_cases hneg : ∃ m ∈ s.delegate, m.priv = false ∧ m.stop < m.start
  · obtain ⟨m, hm, hpub, hlt⟩ := hneg
    refine ⟨fun hall => ?_, fun _ => ?_⟩
    · have := hall m hm hpub; omega
    · refine herr _ s ?_
      have hs : sortByLen (publicOf s.delegate) = .error .valueError := by
        unfold sortByLen
        rw [if_pos (List.any_eq_true.2 ⟨m, mem_publicOf.2 ⟨hm, hpub⟩, decide_eq_true (by omega)⟩)]
      unfold conflictWhen
      rw [hs]
  · have hle : ∀ m ∈ publicOf s.delegate, m.start ≤ m.stop := by
      intro m hm
      obtain ⟨h1, h2⟩ := mem_publicOf.1 hm
      rcases Int.lt_or_le m.stop m.start with h3 | h3
      · exact absurd ⟨m, h1, h2, h3⟩ hneg
      · exact h3
    have hsort : sortByLen (publicOf s.delegate) = .ok (pySorted (fun a b => decide (a.stop - a.start < b.stop - b.start)) (publicOf s.delegate)) := by
      unfold sortByLen
      rw [if_neg]
      simp only [List.any_eq_true, decide_eq_true_eq, not_exists, not_and]
      intro m hm; have := hle m hm; omega
    have hperm := pySorted_perm (fun a b : Match => decide (a.stop - a.start < b.stop - b.start)) (publicOf s.delegate)
    generalize pySorted (fun a b : Match => decide (a.stop - a.start < b.stop - b.start)) (publicOf s.delegate) = l at hsort hperm
    have hl : ∀ m ∈ l, m ∈ s.delegate ∧ m.start ≤ m.stop := fun m hm =>
      ⟨(mem_publicOf.1 (hperm.subset hm)).1, hle m (hperm.subset hm)⟩
    have hw : conflictWhen (.withDefault custom) s = resolveMatches (.withDefault custom) l s [] := by
      unfold conflictWhen; rw [hsort]
    have hsim := resolveMatches_sim (.withDefault custom) l s []
    rcases resolveMatches_outcome hp hi hlen l s [] (Sim.refl s) hl with ⟨g1, set, g2⟩ | ⟨⟨m, g1, g2⟩, g3⟩
    · refine ⟨fun _ => ?_, ?_⟩
      · unfold executeRule
        rw [if_pos (show (conflictRule (.withDefault custom) order).enabled s = true from rfl),
          show (conflictRule (.withDefault custom) order).when_ s = conflictWhen (.withDefault custom) s from rfl, hw]
        cases hx : resolveMatches (.withDefault custom) l s [] with
        | mk s1 a =>
          rw [hx] at g2 hsim
          simp only at g2; subst g2
          simp only
          split
          · obtain ⟨ret, q1, _⟩ := removeEach_spec (order set) (hi.sim hsim)
            rw [show (conflictRule (.withDefault custom) order).then_ s1 set = ((removeEach (order set) s1).1, none) by
              show dropAnswer (thenRemove (.many (order set)) s1) = _
              rw [thenRemove_many_ok q1]; rfl]
          · rfl
      · rintro ⟨m, hm, hpub, hlt⟩
        have := g1 m (hperm.symm.subset (mem_publicOf.2 ⟨hm, hpub⟩)); omega
    · refine ⟨fun hall => ?_, fun _ => ?_⟩
      · obtain ⟨h1, h2⟩ := mem_publicOf.1 (hperm.subset g1)
        have := hall m h1 h2; omega
      · rw [← hw] at g3
        cases hx : conflictWhen (.withDefault custom) s with
        | mk s1 a => rw [hx] at g3; simp only at g3; subst g3; exact herr _ s1 hx

/-- **C84**, the part that holds: without an empty public match, neither default rule raises, whatever else the container holds. Missing: empty public matches
(`C84_refuted`). -/
theorem C84_partial {custom : Nat → Match → Match → Except PyErr SolverRet} (hp : PoliteSolvers custom) {b : Bool} {input : Option Str} {s : Matches}
    (h : Reachable b input s) (order : List Match → List Match) (r : RuleRef) :
    ((∀ m ∈ s.delegate, 0 ≤ m.initLen) → (∀ m ∈ s.delegate, m.priv = false → m.start < m.stop) →
      (executeRule listTruthy (conflictRule (.withDefault custom) order) r s).err = none) ∧
    (executeRule listTruthy privateRule r s).err = none := by
  refine ⟨fun hlen hne => (C84_exactly hp h hlen order r).1 hne, ?_⟩
  unfold executeRule
  rw [if_pos (show privateRule.enabled s = true from rfl), show privateRule.when_ s = (s, .ok (privateWhen s)) from rfl]
  simp only
  split
  · obtain ⟨ret, q1, _⟩ := removeEach_spec (privateWhen s) h.inv
    rw [show privateRule.then_ s (privateWhen s) = ((removeEach (privateWhen s) s).1, none) by
      show dropAnswer (thenRemove (.many (privateWhen s)) s) = _
      rw [thenRemove_many_ok q1]; rfl]
  · rfl

/-- **C84** does not hold: with one empty public match among others, conflict resolution raises. -/
theorem C84_refuted : ∃ s : Matches, Reachable false none s ∧
    (executeRule listTruthy (conflictRule (.withDefault (fun _ _ _ => .ok .default)) id) ⟨0, 0⟩ s).err = some .valueError := by
  refine ⟨_, ⟨[.append (cm 0 0 6), .append (cm 1 4 4)], ?_, rfl⟩, by decide⟩
  intro op hop
  simp only [List.mem_cons, List.not_mem_nil, or_false] at hop
  rcases hop with rfl | rfl <;> exact ⟨rfl, by simp [Fits, cm, added]⟩

/-- A container with equal matches and a custom solver that meets the hypotheses. -/
example : ∃ s : Matches, Reachable false none s ∧ PoliteSolvers (fun _ a _ => .ok (.drop a)) ∧ (∀ m ∈ s.delegate, 0 ≤ m.initLen) ∧
    (∀ m ∈ s.delegate, m.priv = false → m.start < m.stop) ∧ s.delegate.length = 3 := by
  refine ⟨_, ⟨[.append (cm 0 0 6), .append (cm 1 0 6), .append { cm 2 4 7 with solver := some 0 }], ?_, rfl⟩,
    fun _ _ _ => .inr (.inr (.inl rfl)), by decide, by decide, by decide⟩
  intro op hop
  simp only [List.mem_cons, List.not_mem_nil, or_false] at hop
  rcases hop with rfl | rfl | rfl <;> exact ⟨rfl, by simp [Fits, cm, added]⟩

end Rebulk
