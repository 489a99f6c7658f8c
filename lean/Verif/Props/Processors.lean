import Verif.Lemmas.Processors
import Verif.Props.Consequences
/-!
# Conflict resolution and private matches (`C66`–`C70`, `C82`)

`DistinctMatches l` : the matches found are different objects, no two equal, and the public ones are not empty (`C66_zero_length`: an empty public match
makes `ConflictSolver` raise).
-/
namespace Rebulk
open Spec Matches

/-! ## C68: the solvers asked -/

/-- The solvers are asked in the order: conflicting match (arguments exchanged), match, default; `"__default__"` passes to the next one. -/
theorem C68_order (sv : Solvers) (m c : Match) : askSolvers sv m c = decision sv m c := askSolvers_decision sv m c

/-- `ConflictSolver.when` returns the removed matches of a `RemovalLog`. -/
theorem C68 (sv : Solvers) {s : Matches} (hc : Clean s) (hp : DistinctMatches s.delegate) (hs : SaneSolvers sv s.delegate) :
    ∃ log, (conflictWhen sv s).2 = .ok (log.map Prod.fst) ∧ Sim s (conflictWhen sv s).1 ∧ RemovalLog sv s.delegate log := by
  obtain ⟨ps, h1, h2, h3, h4, _⟩ := conflictWhen_all sv hc hp
  obtain ⟨log, g1, g2⟩ := resolveAll_log hp hs ps [] [] ⟨by simp, List.Pairwise.nil, List.Pairwise.nil, by simp, by simp⟩ h3
  refine ⟨log, h1.trans g1, h2, g2.justified, g2.once, g2.keeperStays, ?_⟩
  intro a b r hab hr
  exact g2.complete (a, b) (by simpa using h4 ⟨_, g1⟩ a b hab) r hr

/-- Two matches never remove each other. -/
theorem C68_not_mutual {sv : Solvers} {l : List Match} {log : List (Match × Match)} (h : RemovalLog sv l log) (a b : Match) :
    ¬ ((a, b) ∈ log ∧ (b, a) ∈ log) := by
  rintro ⟨h1, h2⟩
  have key : ∀ {log : List (Match × Match)}, log.Pairwise (fun e f => e.1 ≠ f.1) → log.Pairwise (fun e f => f.2 ≠ e.1) →
      (a, b) ∈ log → (b, a) ∈ log → a ≠ b → False := by
    intro log
    induction log with
    | nil => intro _ _ h1; cases h1
    | cons e log ih =>
      intro ho hk h1 h2 hne
      rw [List.pairwise_cons] at ho hk
      rcases List.mem_cons.1 h1 with rfl | h1' <;> rcases List.mem_cons.1 h2 with h2' | h2'
      · cases h2'; exact hne rfl
      · exact hk.1 _ h2' rfl
      · subst h2'; exact hk.1 _ h1' rfl
      · exact ih ho.2 hk.2 h1' h2' hne
  exact key h.once h.keeperStays h1 h2 (h.justified _ h1).1.different

/-- What the rule does: the container loses exactly the removed matches, whatever the order in which the set is iterated, nothing is raised, and all
lookups are right. -/
theorem C68_rule (sv : Solvers) {s : Matches} (hc : Clean s) (hp : DistinctMatches s.delegate) (hs : SaneSolvers sv s.delegate)
    (order : List Match → List Match) (ho : ∀ l, (order l).Perm l) (r : RuleRef) :
    ∃ log s', (conflictWhen sv s).2 = .ok (log.map Prod.fst) ∧ RemovalLog sv s.delegate log ∧ RanFine (executeRule listTruthy (conflictRule sv order) r s) s' ∧ Clean s' ∧
      s'.isMarkers = s.isMarkers ∧ KeepsExcept s.delegate s'.delegate (log.map Prod.fst) := by
  obtain ⟨log, h1, h2, h3⟩ := C68 sv hc hp hs
  refine ⟨log, ?_⟩
  have hset : ∀ x ∈ log.map Prod.fst, x ∈ s.delegate := by
    intro x hx
    obtain ⟨e, he, rfl⟩ := List.mem_map.1 hx
    exact (h3.justified e he).1.left
  unfold executeRule
  rw [if_pos (show (conflictRule sv order).enabled s = true from rfl)]
  have hw : (conflictRule sv order).when_ s = ((conflictWhen sv s).1, .ok (log.map Prod.fst)) := by
    show conflictWhen sv s = _
    rw [← h1]
  rw [hw]
  simp only
  have hc1 := hc.sim h2
  by_cases ht : listTruthy (log.map Prod.fst) = true
  · rw [if_pos ht]
    obtain ⟨ret, q1, q2, q3, q4, q5⟩ := removeEach_spec (order (log.map Prod.fst)) hc1.inv
    have hthen : (conflictRule sv order).then_ (conflictWhen sv s).1 (log.map Prod.fst) =
        ((removeEach (order (log.map Prod.fst)) (conflictWhen sv s).1).1, none) := by
      show dropAnswer (thenRemove (.many (order (log.map Prod.fst))) (conflictWhen sv s).1) = _
      rw [thenRemove_many_ok q1]; rfl
    rw [hthen]
    refine ⟨_, h1, h3, ⟨rfl, rfl⟩, q5 hc1, q3.trans h2.markers, ?_⟩
    have hw' := removes_without q4 hc1.noEqual
    rw [h2.delegate] at hw'
    rw [hw']
    refine ⟨List.filter_sublist, ?_⟩
    intro m hm
    rw [mem_without]
    constructor
    · rintro ⟨_, h⟩ hmr
      have := h m ((ho _).symm.subset hmr)
      rw [Match.eqv_refl] at this; cases this
    · intro hmr
      refine ⟨hm, fun x hx => ?_⟩
      cases he : m.eqv x with
      | false => rfl
      | true =>
        have hx' := (ho _).subset hx
        have := noEqual_eq hc.noEqual hm (hset x hx') he
        rw [← this] at hx'
        exact absurd hx' hmr
  · rw [if_neg ht]
    have hnil : log.map Prod.fst = [] := by
      unfold listTruthy at ht
      simpa using ht
    refine ⟨_, h1, h3, ⟨rfl, rfl⟩, hc1, h2.markers, ?_⟩
    rw [h2.delegate, hnil]
    exact ⟨List.Sublist.refl _, fun m hm => ⟨fun _ h => (List.not_mem_nil h), fun _ => hm⟩⟩

/-! ## C66, C67: the default solver -/

theorem plain_decision {custom : Nat → Match → Match → Except PyErr SolverRet} {l : List Match} (h : Plain l) {a b : Match} (hab : Conflict l a b) :
    decision (.withDefault custom) a b =
      if b.initLen < a.initLen then .ok (.drop b) else if a.initLen < b.initLen then .ok (.drop a) else .ok .keepBoth := by
  unfold decision solversInOrder
  rw [h.noSolver a hab.left hab.leftPublic, h.noSolver b hab.right hab.rightPublic]
  have h1 := h.initLen a hab.left hab.leftPublic
  have h2 := h.initLen b hab.right hab.rightPublic
  have : (Solvers.withDefault custom).fallback a b =
      if b.initLen < a.initLen then .ok (.drop b) else if a.initLen < b.initLen then .ok (.drop a) else .ok .keepBoth := by
    show defaultConflict a b = _
    unfold defaultConflict
    rw [if_neg]
    simp only [Bool.or_eq_true, decide_eq_true_eq, not_or]
    omega
  simp only [Option.map_none, Option.toList_none, List.nil_append, List.find?_cons, this]
  by_cases h3 : b.initLen < a.initLen
  · simp only [if_pos h3]; rfl
  · by_cases h4 : a.initLen < b.initLen
    · simp only [if_neg h3, if_pos h4]; rfl
    · simp only [if_neg h3, if_neg h4]; rfl

theorem plain_sane (custom : Nat → Match → Match → Except PyErr SolverRet) {l : List Match} (h : Plain l) : SaneSolvers (.withDefault custom) l := by
  intro a b hab
  rw [plain_decision h hab]
  by_cases h3 : b.initLen < a.initLen
  · rw [if_pos h3]; exact .inr (.inr (.inr rfl))
  · rw [if_neg h3]
    by_cases h4 : a.initLen < b.initLen
    · rw [if_pos h4]; exact .inr (.inr (.inl rfl))
    · rw [if_neg h4]; exact .inr (.inl rfl)

/-- **C66.** With the default solver, no two public matches sharing an index survive unless their initiators have the same length. -/
theorem C66 (custom : Nat → Match → Match → Except PyErr SolverRet) {s : Matches} (hc : Clean s) (hp : DistinctMatches s.delegate) (hpl : Plain s.delegate)
    (order : List Match → List Match) (ho : ∀ l, (order l).Perm l) (r : RuleRef) :
    ∃ s', RanFine (executeRule listTruthy (conflictRule (.withDefault custom) order) r s) s' ∧ Clean s' ∧
      ∀ a ∈ s'.delegate, ∀ b ∈ s'.delegate, a.priv = false → b.priv = false → a ≠ b → Overlap a b → a.initLen = b.initLen := by
  obtain ⟨log, s', _, h1, h2, h3, _, h4, h5⟩ := C68_rule _ hc hp (plain_sane custom hpl) order ho r
  refine ⟨s', h2, h3, fun a ha b hb hap hbp hne hov => ?_⟩
  have hcf : Conflict s.delegate a b := ⟨h4.subset ha, h4.subset hb, hap, hbp, hne, hov⟩
  have hd := plain_decision (custom := custom) hpl hcf
  have hgone : ∀ x, decision (.withDefault custom) a b ≠ .ok (.drop x) := by
    intro x hx
    rcases h1.complete a b x hcf hx with h | h
    · exact ((h5 a hcf.left).1 ha) h
    · exact ((h5 b hcf.right).1 hb) h
  by_cases h6 : b.initLen < a.initLen
  · rw [if_pos h6] at hd; exact absurd hd (hgone _)
  · rw [if_neg h6] at hd
    by_cases h7 : a.initLen < b.initLen
    · rw [if_pos h7] at hd; exact absurd hd (hgone _)
    · omega

/-- **C67.** With the default solver a match is removed only if it is public and shares an index with a public match with a strictly longer initiator;
the survivors keep their order. -/
theorem C67 (custom : Nat → Match → Match → Except PyErr SolverRet) {s : Matches} (hc : Clean s) (hp : DistinctMatches s.delegate) (hpl : Plain s.delegate)
    (order : List Match → List Match) (ho : ∀ l, (order l).Perm l) (r : RuleRef) :
    ∃ s', RanFine (executeRule listTruthy (conflictRule (.withDefault custom) order) r s) s' ∧ Clean s' ∧
      s'.delegate.Sublist s.delegate ∧
      ∀ m ∈ s.delegate, m ∉ s'.delegate → m.priv = false ∧
        ∃ c ∈ s.delegate, c.priv = false ∧ Overlap m c ∧ m.initLen < c.initLen := by
  obtain ⟨log, s', _, h1, h2, h3, _, h4, h5⟩ := C68_rule _ hc hp (plain_sane custom hpl) order ho r
  refine ⟨s', h2, h3, h4, fun m hm hnm => ?_⟩
  have hmr : m ∈ log.map Prod.fst := by
    by_cases h : m ∈ log.map Prod.fst
    · exact h
    · exact absurd ((h5 m hm).2 h) hnm
  obtain ⟨e, he, rfl⟩ := List.mem_map.1 hmr
  obtain ⟨hcf, hd⟩ := h1.justified e he
  refine ⟨hcf.leftPublic, e.2, hcf.right, hcf.rightPublic, hcf.overlap, ?_⟩
  rcases hd with hd | hd
  · rw [plain_decision hpl hcf] at hd
    by_cases h6 : e.2.initLen < e.1.initLen
    · rw [if_pos h6] at hd
      injection hd with hd; injection hd with hd
      exact absurd hd.symm hcf.different
    · rw [if_neg h6] at hd
      by_cases h7 : e.1.initLen < e.2.initLen
      · exact h7
      · rw [if_neg h7] at hd; cases hd
  · rw [plain_decision hpl (conflict_symm hcf)] at hd
    by_cases h6 : e.1.initLen < e.2.initLen
    · exact h6
    · rw [if_neg h6] at hd
      by_cases h7 : e.2.initLen < e.1.initLen
      · rw [if_pos h7] at hd
        injection hd with hd; injection hd with hd
        exact absurd hd.symm hcf.different
      · rw [if_neg h7] at hd; cases hd

/-- A match without conflict, a private match and a match longest among its conflicts are kept. -/
theorem C67_kept (custom : Nat → Match → Match → Except PyErr SolverRet) {s : Matches} (hc : Clean s) (hp : DistinctMatches s.delegate) (hpl : Plain s.delegate)
    (order : List Match → List Match) (ho : ∀ l, (order l).Perm l) (r : RuleRef) :
    ∃ s', RanFine (executeRule listTruthy (conflictRule (.withDefault custom) order) r s) s' ∧
      ∀ m ∈ s.delegate, (m.priv = true ∨ ∀ c ∈ s.delegate, c.priv = false → Overlap m c → c.initLen ≤ m.initLen) → m ∈ s'.delegate := by
  obtain ⟨s', h1, _, _, h4⟩ := C67 custom hc hp hpl order ho r
  refine ⟨s', h1, fun m hm hor => ?_⟩
  by_cases hin : m ∈ s'.delegate
  · exact hin
  · obtain ⟨g1, c, g2, g3, g4, g5⟩ := h4 m hm hin
    rcases hor with hor | hor
    · rw [g1] at hor; cases hor
    · have := hor c g2 g3 g4; omega

/-! ### The exact result when no match has a parent -/

/-- While pairs are handled by increasing length of their first match, only matches not longer than it are being removed. -/
theorem resolveAll_short {custom : Nat → Match → Match → Except PyErr SolverRet} {l : List Match} (hpl : Plain l)
    (hown : ∀ m ∈ l, m.priv = false → m.initLen = m.stop - m.start) :
    ∀ (ps : List (Match × Match)) (set r : List Match), (∀ p ∈ ps, Conflict l p.1 p.2) →
      ps.Pairwise (fun p q => p.1.stop - p.1.start ≤ q.1.stop - q.1.start) →
      (∀ p ∈ ps, ∀ m ∈ set, m.stop - m.start ≤ p.1.stop - p.1.start) → DistinctMatches l → (∀ m ∈ set, m ∈ l) →
      resolveAll (.withDefault custom) ps set = .ok r →
      (∀ m ∈ set, m ∈ r) ∧ ∀ p ∈ ps, p.1.initLen < p.2.initLen → p.1 ∈ r
  | [], set, r, _, _, _, _, _, h => by
    simp only [resolveAll] at h
    injection h with h; subst h
    exact ⟨fun _ h => h, by simp⟩
  | p :: ps, set, r, hps, hpw, hle, hp, hsl, h => by
    rw [List.pairwise_cons] at hpw
    have hcf := hps p List.mem_cons_self
    have hd := plain_decision (custom := custom) hpl hcf
    have o1 := hown p.1 hcf.left hcf.leftPublic
    have o2 := hown p.2 hcf.right hcf.rightPublic
    have n1 := hp.nonEmpty p.1 hcf.left hcf.leftPublic
    have n2 := hp.nonEmpty p.2 hcf.right hcf.rightPublic
    have hstep : ∃ set1, resolvePair (.withDefault custom) p.1 p.2 set = .ok set1 ∧ (∀ m ∈ set, m ∈ set1) ∧
        (∀ m ∈ set1, m ∈ set ∨ (m ∈ l ∧ m.stop - m.start ≤ p.1.stop - p.1.start)) ∧ (p.1.initLen < p.2.initLen → p.1 ∈ set1) := by
      unfold resolvePair
      rw [askSolvers_decision, hd]
      have ht : ∀ x : Match, x.start < x.stop → x.truthy? = .ok true := fun x hx => truthy_of_lt hx
      by_cases h6 : p.2.initLen < p.1.initLen
      · rw [if_pos h6]
        simp only [addRemoval, ht p.2 n2]
        by_cases hin : inSet set p.2 = true
        · rw [if_pos hin]; exact ⟨set, rfl, fun _ h => h, fun _ h => .inl h, fun h => by omega⟩
        · rw [if_neg hin, keeper_right hp.noEqual hcf]
          simp only
          by_cases hik : inSet set p.1 = true
          · rw [if_pos hik]; exact ⟨set, rfl, fun _ h => h, fun _ h => .inl h, fun h => by omega⟩
          · rw [if_neg hik]
            refine ⟨_, rfl, fun m hm => List.mem_append_left _ hm, fun m hm => ?_, fun h => by omega⟩
            rcases List.mem_append.1 hm with hm | hm
            · exact .inl hm
            · rw [List.mem_singleton] at hm; subst hm
              exact .inr ⟨hcf.right, by omega⟩
      · rw [if_neg h6]
        by_cases h7 : p.1.initLen < p.2.initLen
        · rw [if_pos h7]
          simp only [addRemoval, ht p.1 n1]
          by_cases hin : inSet set p.1 = true
          · rw [if_pos hin]
            exact ⟨set, rfl, fun _ h => h, fun _ h => .inl h, fun _ => (inSet_iff hp.identities hsl hcf.left).1 hin⟩
          · rw [if_neg hin, keeper_left hcf]
            simp only
            have hik : ¬ inSet set p.2 = true := by
              intro hik
              have := hle p List.mem_cons_self p.2 ((inSet_iff hp.identities hsl hcf.right).1 hik)
              omega
            rw [if_neg hik]
            refine ⟨_, rfl, fun m hm => List.mem_append_left _ hm, fun m hm => ?_, fun _ => by simp⟩
            rcases List.mem_append.1 hm with hm | hm
            · exact .inl hm
            · rw [List.mem_singleton] at hm; subst hm
              exact .inr ⟨hcf.left, Int.le_refl _⟩
        · rw [if_neg h7]
          exact ⟨set, rfl, fun _ h => h, fun _ h => .inl h, fun h => absurd h h7⟩
    obtain ⟨set1, s1, s2, s3, s4⟩ := hstep
    simp only [resolveAll] at h
    rw [s1] at h
    obtain ⟨g1, g2⟩ := resolveAll_short hpl hown ps set1 r (fun q hq => hps q (List.mem_cons_of_mem _ hq)) hpw.2
      (fun q hq m hm => by
        rcases s3 m hm with h' | ⟨_, h'⟩
        · exact hle q (List.mem_cons_of_mem _ hq) m h'
        · have := hpw.1 q hq; omega)
      hp (fun m hm => by
        rcases s3 m hm with h' | ⟨h', _⟩
        · exact hsl m h'
        · exact h') h
    refine ⟨fun m hm => g1 m (s2 m hm), fun q hq hlt => ?_⟩
    rcases List.mem_cons.1 hq with rfl | hq
    · exact g1 _ (s4 hlt)
    · exact g2 q hq hlt

/-- When no public match has a parent (its initiator is itself), a public match is removed if and only if it shares an index with a longer public
one, whether this one survives or not. -/
theorem C67_exact (custom : Nat → Match → Match → Except PyErr SolverRet) {s : Matches} (hc : Clean s) (hp : DistinctMatches s.delegate) (hpl : Plain s.delegate)
    (hown : ∀ m ∈ s.delegate, m.priv = false → m.initLen = m.stop - m.start)
    (order : List Match → List Match) (ho : ∀ l, (order l).Perm l) (r : RuleRef) :
    ∃ s', RanFine (executeRule listTruthy (conflictRule (.withDefault custom) order) r s) s' ∧ Clean s' ∧
      s'.delegate.Sublist s.delegate ∧
      ∀ m ∈ s.delegate, m ∉ s'.delegate ↔ m.priv = false ∧
        ∃ c ∈ s.delegate, c.priv = false ∧ Overlap m c ∧ m.stop - m.start < c.stop - c.start := by
  obtain ⟨s', h1, h2, h3, h4⟩ := C67 custom hc hp hpl order ho r
  refine ⟨s', h1, h2, h3, fun m hm => ⟨fun hnm => ?_, ?_⟩⟩
  · obtain ⟨g1, c, g2, g3, g4, g5⟩ := h4 m hm hnm
    rw [hown m hm g1, hown c g2 g3] at g5
    exact ⟨g1, c, g2, g3, g4, g5⟩
  · rintro ⟨g1, c, g2, g3, g4, g5⟩ hin
    obtain ⟨log, s'', w1, _, k2, _, _, _, k5⟩ := C68_rule _ hc hp (plain_sane custom hpl) order ho r
    obtain ⟨ps, q1, q2, q3, q4, q5⟩ := conflictWhen_all (.withDefault custom) hc hp
    have hok : resolveAll (.withDefault custom) ps [] = .ok (log.map Prod.fst) := by rw [← q1, w1]
    have hmc : Conflict s.delegate m c := ⟨hm, g2, g1, g3, by intro h; subst h; omega, g4⟩
    have hmem := q4 ⟨_, hok⟩ m c hmc
    have hgone := (resolveAll_short hpl hown ps [] _ q3 q5 (by simp) hp (by simp) hok).2 (m, c) hmem (by
      show m.initLen < c.initLen
      rw [hown m hm g1, hown c g2 g3]; exact g5)
    have hss : s'' = s' := by rw [← k2.state, h1.state]
    subst hss
    exact (k5 m hm).1 hin hgone

/-! ### Examples -/

/-- Matches at 0–6, 4–7, 6–8, a private one at 0–2 and a short one at 1–3. -/
def conflictSample : Matches :=
  (Matches.empty false none).runOps
    [.append (cm 0 0 6), .append (cm 1 4 7), .append (cm 2 6 8), .append { cm 3 0 2 with priv := true }, .append (cm 4 1 3)]

theorem conflictSample_delegate : conflictSample.delegate = [cm 0 0 6, cm 1 4 7, cm 2 6 8, { cm 3 0 2 with priv := true }, cm 4 1 3] := by
  simp [conflictSample, Matches.runOps, Matches.step, Matches.append, Matches.insert, Matches.addMatch, Matches.addMatchBase, Matches.empty,
      Matches.length, clampIdx, cm]

theorem conflictSample_reachable : ReachableInOrder false none conflictSample := by
  refine ⟨_, by decide, ?_, rfl⟩
  intro k
  match k with
  | 0 => decide
  | 1 => decide
  | 2 => decide
  | 3 => decide
  | 4 => decide
  | k + 5 => rw [List.take_of_length_le (by simp)]; decide

theorem conflictSample_proper : DistinctMatches conflictSample.delegate :=
  ⟨by decide, by decide, by decide⟩

theorem conflictSample_plain : Plain conflictSample.delegate := ⟨by decide, by decide⟩

/-- The hypotheses of `C66`, `C67`, `C67_exact` and `C68` are met, and three of the five matches go. -/
example : Clean conflictSample ∧ DistinctMatches conflictSample.delegate ∧ Plain conflictSample.delegate ∧
    (∀ m ∈ conflictSample.delegate, m.priv = false → m.initLen = m.stop - m.start) ∧
    (executeRule listTruthy (conflictRule (.withDefault (fun _ _ _ => .ok .default)) List.reverse) ⟨0, 0⟩ conflictSample).state.delegate.map Match.id = [0, 3] :=
  ⟨clean_of_reachable conflictSample_reachable, conflictSample_proper, conflictSample_plain, by decide, by decide⟩

/-- A solver of the longest match that prefers the other: the longest is removed instead, and nothing is removed in its favour afterwards. -/
example :
    let sv : Solvers := .withDefault (fun _ x _ => .ok (.drop x))
    let s := (Matches.empty false none).runOps [.append { cm 0 0 6 with solver := some 0 }, .append (cm 1 4 7), .append (cm 4 1 3)]
    (executeRule listTruthy (conflictRule sv id) ⟨0, 0⟩ s).state.delegate.map Match.id = [1, 4] := by decide

/-- A solver naming a match equal to none of the two makes the rule raise. -/
example :
    let sv : Solvers := .withDefault (fun _ _ _ => .ok (.drop (cm 9 7 8)))
    let s := (Matches.empty false none).runOps [.append { cm 0 0 6 with solver := some 0 }, .append (cm 1 4 7)]
    (executeRule listTruthy (conflictRule sv id) ⟨0, 0⟩ s).err = some .valueError := by decide

/-- An empty public match makes `ConflictSolver` raise, whatever else there is. -/
theorem C66_zero_length (sv : Solvers) {s : Matches} (hc : Clean s) (m : Match) (hm : s.delegate = [m]) (hpub : m.priv = false)
    (hz : m.start = m.stop) (order : List Match → List Match) (r : RuleRef) :
    (executeRule listTruthy (conflictRule sv order) r s).err = some .valueError := by
  have hpf : publicOf [m] = [m] := by simp [publicOf, hpub]
  have hsort : sortByLen [m] = .ok [m] := by
    unfold sortByLen
    rw [if_neg (by simp; omega)]; rfl
  have hcon : (s.conflicting m).2 = .error .valueError := by
    unfold conflicting
    have : pyRange m.start m.stop = [] := by
      rw [hz]
      cases h : pyRange m.stop m.stop with
      | nil => rfl
      | cons x xs =>
        have : x ∈ pyRange m.stop m.stop := by rw [h]; exact List.mem_cons_self
        rw [mem_pyRange] at this; omega
    rw [this]
    rfl
  have hw : (conflictWhen sv s).2 = .error .valueError := by
    unfold conflictWhen
    rw [hm, hpf, hsort]
    simp only [resolveMatches, resolveMatch]
    cases hr : s.conflicting m with
    | mk s1 e =>
      rw [hr] at hcon
      simp only at hcon
      subst hcon
      rfl
  unfold executeRule
  rw [if_pos (show (conflictRule sv order).enabled s = true from rfl)]
  have : (conflictRule sv order).when_ s = ((conflictWhen sv s).1, .error .valueError) := by
    show conflictWhen sv s = _
    rw [← hw]
  rw [this]

/-! ## C82: the removed match and the survivors -/

/-- A removed match need not overlap any survivor: the match at 4–6 goes because of 5–8, which goes because of 7–11. -/
theorem C82_refuted : ∃ s : Matches, ReachableInOrder false none s ∧ DistinctMatches s.delegate ∧ Plain s.delegate ∧
    let s' := (executeRule listTruthy (conflictRule (.withDefault (fun _ _ _ => .ok .default)) id) ⟨0, 0⟩ s).state
    s.delegate.map Match.span = [(4, 6), (5, 8), (7, 11)] ∧ s'.delegate.map Match.span = [(7, 11)] := by
  refine ⟨(Matches.empty false none).runOps [.append (cm 0 4 6), .append (cm 1 5 8), .append (cm 2 7 11)], ⟨_, by decide, ?_, rfl⟩,
    ⟨by decide, by decide, by decide⟩, ⟨by decide, by decide⟩, by decide, by decide⟩
  intro k
  match k with
  | 0 => decide
  | 1 => decide
  | 2 => decide
  | k + 3 => rw [List.take_of_length_le (by simp)]; decide

/-- What holds of `C82`: following the longer conflicting matches from a removed one, one ends at a survivor; the first of them overlaps the removed
match. -/
theorem C82_partial (custom : Nat → Match → Match → Except PyErr SolverRet) {s : Matches} (hc : Clean s) (hp : DistinctMatches s.delegate) (hpl : Plain s.delegate)
    (order : List Match → List Match) (ho : ∀ l, (order l).Perm l) (r : RuleRef) :
    ∃ s', RanFine (executeRule listTruthy (conflictRule (.withDefault custom) order) r s) s' ∧
      ∀ m ∈ s.delegate, m ∉ s'.delegate → ∃ c, LongerChain s.delegate m c ∧ c ∈ s'.delegate := by
  obtain ⟨s', h1, _, _, h4⟩ := C67 custom hc hp hpl order ho r
  refine ⟨s', h1, ?_⟩
  -- the longest initiator bounds the length of such chains
  obtain ⟨B, hB⟩ : ∃ B : Int, ∀ m ∈ s.delegate, m.initLen ≤ B := by
    clear h1 h4
    induction s.delegate with
    | nil => exact ⟨0, by simp⟩
    | cons x l ih =>
      obtain ⟨B, hB⟩ := ih
      refine ⟨max B x.initLen, fun m hm => ?_⟩
      rcases List.mem_cons.1 hm with rfl | hm
      · omega
      · have := hB m hm; omega
  suffices ∀ (n : Nat) (m : Match), m ∈ s.delegate → m ∉ s'.delegate → B - m.initLen ≤ n → ∃ c, LongerChain s.delegate m c ∧ c ∈ s'.delegate from
    fun m hm hnm => this (B - m.initLen).toNat m hm hnm (by have := hB m hm; omega)
  intro n
  induction n with
  | zero =>
    intro m hm hnm hb
    obtain ⟨g1, c, g2, g3, g4, g5⟩ := h4 m hm hnm
    have := hB c g2
    omega
  | succ n ih =>
    intro m hm hnm hb
    obtain ⟨g1, c, g2, g3, g4, g5⟩ := h4 m hm hnm
    by_cases hcs : c ∈ s'.delegate
    · exact ⟨c, .one ⟨g2, g3, g4, g5⟩, hcs⟩
    · obtain ⟨d, hd, hds⟩ := ih c g2 hcs (by omega)
      exact ⟨d, .more ⟨g2, g3, g4, g5⟩ hd, hds⟩

example : Clean conflictSample ∧ DistinctMatches conflictSample.delegate ∧ Plain conflictSample.delegate ∧ cm 2 6 8 ∈ conflictSample.delegate :=
  ⟨clean_of_reachable conflictSample_reachable, conflictSample_proper, conflictSample_plain, by rw [conflictSample_delegate]; simp⟩

/-! ## C69: the order of the set does not matter -/

/-- Taking out the first match equal to `m`, if any. -/
def cutFirst (l : List Match) (m : Match) : List Match := (removeFirst (fun x => x.eqv m) l).getD l

theorem cutFirst_cons (x : Match) (l : List Match) (m : Match) : cutFirst (x :: l) m = if x.eqv m then l else x :: cutFirst l m := by
  unfold cutFirst
  simp only [removeFirst]
  by_cases h : x.eqv m = true
  · rw [if_pos h, if_pos h]; rfl
  · rw [if_neg h, if_neg h]
    cases removeFirst (fun x => x.eqv m) l <;> rfl

theorem cutFirst_congr {a b : Match} (h : a.eqv b = true) (l : List Match) : cutFirst l a = cutFirst l b := by
  have : (fun x : Match => x.eqv a) = (fun x => x.eqv b) := by
    funext x
    rw [Match.eqv_eq_decide, Match.eqv_eq_decide, (Match.eqv_iff a b).1 h]
  unfold cutFirst; rw [this]

theorem cutFirst_comm (a b : Match) : ∀ l : List Match, cutFirst (cutFirst l a) b = cutFirst (cutFirst l b) a
  | [] => rfl
  | x :: l => by
    by_cases ha : x.eqv a = true <;> by_cases hb : x.eqv b = true
    · rw [cutFirst_cons, cutFirst_cons, if_pos ha, if_pos hb]
      exact (cutFirst_congr (Match.eqv_trans (Match.eqv_symm ha) hb) l).symm
    · rw [cutFirst_cons x l a, cutFirst_cons x l b, if_pos ha, if_neg hb, cutFirst_cons, if_pos ha]
    · rw [cutFirst_cons x l a, cutFirst_cons x l b, if_neg ha, if_pos hb, cutFirst_cons, if_pos hb]
    · rw [cutFirst_cons x l a, cutFirst_cons x l b, if_neg ha, if_neg hb, cutFirst_cons, if_neg hb, cutFirst_cons, if_neg ha, cutFirst_comm a b l]

theorem cutFirst_split {b a : List Match} {x m : Match} (hb : ¬ Holds b m) (hx : x.eqv m = true) : cutFirst (b ++ x :: a) m = b ++ a := by
  induction b with
  | nil => rw [List.nil_append, cutFirst_cons, if_pos hx]; rfl
  | cons y b ih =>
    have hy : ¬ y.eqv m = true := fun h => hb ⟨y, List.mem_cons_self, h⟩
    rw [List.cons_append, cutFirst_cons, if_neg hy, ih (fun ⟨z, hz, h⟩ => hb ⟨z, List.mem_cons_of_mem _ hz, h⟩)]
    rfl

theorem cutFirst_absent {l : List Match} {m : Match} (h : ¬ Holds l m) : cutFirst l m = l := by
  unfold cutFirst
  rw [(removeFirst_none _ _).2]
  · rfl
  · intro x hx
    cases he : x.eqv m with
    | false => rfl
    | true => exact absurd ⟨x, hx, he⟩ h

theorem removes_cutFirst {l ms l' ret : List Match} (h : Removes l ms l' ret) : l' = ms.foldl cutFirst l := by
  induction h with
  | done l => rfl
  | absent hh _ ih => rw [List.foldl_cons, cutFirst_absent hh]; exact ih
  | present hb hx _ ih => rw [List.foldl_cons, cutFirst_split hb hx]; exact ih

theorem cutFirst_perm {ms ms' : List Match} (h : ms.Perm ms') : ∀ l, ms.foldl cutFirst l = ms'.foldl cutFirst l := by
  induction h with
  | nil => intro l; rfl
  | cons m _ ih => intro l; exact ih (cutFirst l m)
  | swap a b ms => intro l; simp only [List.foldl_cons]; rw [cutFirst_comm]
  | trans _ _ ih1 ih2 => intro l; rw [ih1, ih2]

/-- **C69.** What `RemoveMatch` leaves does not depend on the order of the answers, equal matches included. -/
theorem C69 {b : Bool} {input : Option Str} {s : Matches} (h : Reachable b input s) {ms ms' : List Match} (hp : ms.Perm ms') :
    ∃ s1 s2 ret1 ret2, thenRemove (.many ms) s = (s1, .ok (some (.many ret1))) ∧ thenRemove (.many ms') s = (s2, .ok (some (.many ret2))) ∧
      s1.delegate = s2.delegate := by
  obtain ⟨s1, ret1, h1, h2, _⟩ := C61_many h ms
  obtain ⟨s2, ret2, h3, h4, _⟩ := C61_many h ms'
  exact ⟨s1, s2, ret1, ret2, h1, h3, by rw [removes_cutFirst h2, removes_cutFirst h4, cutFirst_perm hp]⟩

/-- The lookups neither. -/
theorem C69_lookups {s : Matches} (h : Tidy s) {ms ms' : List Match} (hp : ms.Perm ms') :
    ∃ s1 s2 ret1 ret2, thenRemove (.many ms) s = (s1, .ok (some (.many ret1))) ∧ thenRemove (.many ms') s = (s2, .ok (some (.many ret2))) ∧
      s1.delegate = s2.delegate ∧ LookupsRight s1 ∧ LookupsRight s2 := by
  obtain ⟨ret1, h1, _, _, h4, _⟩ := removeEach_spec ms h.inv
  obtain ⟨ret2, g1, _, _, g4, _⟩ := removeEach_spec ms' h.inv
  exact ⟨_, _, ret1, ret2, thenRemove_many_ok h1, thenRemove_many_ok g1, by rw [removes_cutFirst h4, removes_cutFirst g4, cutFirst_perm hp],
    exact_lookups (exact_removeEach ms h.inv h.exact_), exact_lookups (exact_removeEach ms' h.inv h.exact_)⟩

/-- In particular for the conflict rule, whatever the solvers do and even if they raise. -/
theorem C69_conflict (sv : Solvers) {s : Matches} (h : Tidy s) (o1 o2 : List Match → List Match) (h1 : ∀ l, (o1 l).Perm l) (h2 : ∀ l, (o2 l).Perm l)
    (r : RuleRef) :
    (executeRule listTruthy (conflictRule sv o1) r s).state.delegate = (executeRule listTruthy (conflictRule sv o2) r s).state.delegate ∧
    (executeRule listTruthy (conflictRule sv o1) r s).err = (executeRule listTruthy (conflictRule sv o2) r s).err := by
  have hi : Inv (conflictWhen sv s).1 := (h.sim (conflictWhen_sim sv s)).inv
  unfold executeRule
  rw [if_pos (show (conflictRule sv o1).enabled s = true from rfl), if_pos (show (conflictRule sv o2).enabled s = true from rfl)]
  have hw1 : (conflictRule sv o1).when_ s = conflictWhen sv s := rfl
  have hw2 : (conflictRule sv o2).when_ s = conflictWhen sv s := rfl
  rw [hw1, hw2]
  cases hw : conflictWhen sv s with
  | mk s1 a =>
    rw [hw] at hi
    cases a with
    | error e => exact ⟨rfl, rfl⟩
    | ok set =>
      simp only
      by_cases ht : listTruthy set = true
      · rw [if_pos ht, if_pos ht]
        obtain ⟨ret1, a1, _, _, a4, _⟩ := removeEach_spec (o1 set) hi
        obtain ⟨ret2, b1, _, _, b4, _⟩ := removeEach_spec (o2 set) hi
        have t1 : (conflictRule sv o1).then_ s1 set = ((removeEach (o1 set) s1).1, none) := by
          show dropAnswer (thenRemove (.many (o1 set)) s1) = _
          rw [thenRemove_many_ok a1]; rfl
        have t2 : (conflictRule sv o2).then_ s1 set = ((removeEach (o2 set) s1).1, none) := by
          show dropAnswer (thenRemove (.many (o2 set)) s1) = _
          rw [thenRemove_many_ok b1]; rfl
        rw [t1, t2]
        refine ⟨?_, rfl⟩
        show (removeEach (o1 set) s1).1.delegate = (removeEach (o2 set) s1).1.delegate
        rw [removes_cutFirst a4, removes_cutFirst b4, cutFirst_perm ((h1 set).trans (h2 set).symm)]
      · rw [if_neg ht, if_neg ht]; exact ⟨rfl, rfl⟩

example : Reachable false none consSample ∧ [cm 7 4 6, cm 0 0 3 (some "a")].Perm [cm 0 0 3 (some "a"), cm 7 4 6] ∧
    (thenRemove (.many [cm 7 4 6, cm 0 0 3 (some "a")]) consSample).1.delegate.map Match.id = [2] :=
  ⟨reachableInOrder_reachable consSample_reachable, List.Perm.swap _ _ _, by decide⟩

/-! ## C70: private matches -/

/-- Removing the private matches when none of them equals a public one. -/
theorem removes_privates {l : List Match} : ∀ {ms l0 l' ret : List Match}, Removes l0 ms l' ret → (∀ m ∈ ms, m ∈ l ∧ m.priv = true) →
    (∀ x ∈ l0, x ∈ l) → (∀ p ∈ l, ∀ q ∈ l, p.priv = true → q.priv = false → q.eqv p = false) →
    publicOf l' = publicOf l0 ∧ l'.Sublist l0 := by
  intro ms l0 l' ret h
  induction h with
  | done => intro _ _ _; exact ⟨rfl, List.Sublist.refl _⟩
  | absent _ _ ih => intro h1 h2 h3; exact ih (fun m hm => h1 m (List.mem_cons_of_mem _ hm)) h2 h3
  | @present before x after ms l' ret m hb hx _ ih =>
    intro h1 h2 h3
    have hxp : x.priv = true := by
      cases hxp : x.priv with
      | true => rfl
      | false =>
        have hm := h1 m List.mem_cons_self
        rw [h3 m hm.1 x (h2 x (by simp)) hm.2 hxp] at hx; cases hx
    obtain ⟨i1, i2⟩ := ih (fun m hm => h1 m (List.mem_cons_of_mem _ hm)) (fun y hy => h2 y (by
      rcases List.mem_append.1 hy with hy | hy
      · exact List.mem_append_left _ hy
      · exact List.mem_append_right _ (List.mem_cons_of_mem _ hy))) h3
    refine ⟨i1.trans ?_, i2.trans (List.Sublist.append (List.Sublist.refl _) (List.sublist_cons_self _ _))⟩
    simp [publicOf, hxp]

/-- Each removal of a contained match makes the list shorter by one; with as many answers as private matches, none is left. -/
theorem removes_count {l ms l' ret : List Match} (h : Removes l ms l' ret) : l'.length + ret.length = l.length := by
  induction h with
  | done => rfl
  | absent _ _ ih => exact ih
  | present _ _ _ ih => simp only [List.length_append, List.length_cons] at ih ⊢; omega

/-- Removing matches of the list itself, one each, takes out something every time. -/
theorem removes_own : ∀ {l ms l' ret : List Match}, Removes l ms l' ret → (∀ e : Match, ms.countP (fun x => x.eqv e) ≤ l.countP (fun x => x.eqv e)) → ret = ms := by
  intro l ms l' ret h
  induction h with
  | done => intro _; rfl
  | @absent l ms l' ret m hh _ _ =>
    intro hcnt
    exfalso
    have := hcnt m
    rw [List.countP_cons, if_pos (Match.eqv_refl m)] at this
    have hpos : 0 < l.countP (fun x => x.eqv m) := by omega
    obtain ⟨x, hx, he⟩ := List.countP_pos_iff.1 hpos
    exact hh ⟨x, hx, he⟩
  | @present before x after ms l' ret m hb hx _ ih =>
    intro hcnt
    rw [ih]
    intro e
    have := hcnt e
    rw [List.countP_append] at this ⊢
    rw [List.countP_cons, List.countP_cons] at this
    have hxe : x.eqv e = m.eqv e := by
      rw [Match.eqv_eq_decide, Match.eqv_eq_decide, (Match.eqv_iff x m).1 hx]
    rw [hxe] at this
    omega

/-- What the rule does, by case. -/
theorem privateRule_spec {s : Matches} (h : Inv s)
    (hsep : ∀ p ∈ s.delegate, ∀ q ∈ s.delegate, p.priv = true → q.priv = false → q.eqv p = false) (r : RuleRef) :
    ∃ s', RanFine (executeRule listTruthy privateRule r s) s' ∧ (s' = s ∨ s' = (removeEach (privateWhen s) s).1) ∧
      s'.delegate = s.delegate.filter (fun m => !m.priv) := by
  unfold executeRule
  rw [if_pos (show privateRule.enabled s = true from rfl)]
  have hw : privateRule.when_ s = (s, .ok (privateWhen s)) := rfl
  rw [hw]
  simp only
  by_cases ht : listTruthy (privateWhen s) = true
  · rw [if_pos ht]
    obtain ⟨ret, q1, _, _, q4, _⟩ := removeEach_spec (privateWhen s) h
    have hthen : privateRule.then_ s (privateWhen s) = ((removeEach (privateWhen s) s).1, none) := by
      show dropAnswer (thenRemove (.many (privateWhen s)) s) = _
      rw [thenRemove_many_ok q1]; rfl
    rw [hthen]
    refine ⟨_, ⟨rfl, rfl⟩, .inr rfl, ?_⟩
    show (removeEach (privateWhen s) s).1.delegate = _
    obtain ⟨p1, p2⟩ := removes_privates q4 (fun m hm => List.mem_filter.1 hm) (fun _ h => h) hsep
    have p3 := removes_count q4
    have p4 : ret = privateWhen s := removes_own q4 (fun e => List.Sublist.countP_le List.filter_sublist)
    rw [p4] at p3
    have hlen : (privateWhen s).length + (publicOf s.delegate).length = s.delegate.length := by
      unfold privateWhen publicOf
      clear p3 p1 p2 p4 q4 q1 hsep h hw hthen ht
      induction s.delegate with
      | nil => rfl
      | cons x l ih => cases hx : x.priv <;> simp [hx] at ih ⊢ <;> omega
    have hsub : (publicOf (removeEach (privateWhen s) s).1.delegate).Sublist (removeEach (privateWhen s) s).1.delegate := List.filter_sublist
    have := hsub.eq_of_length (by rw [p1]; omega)
    rw [← this, p1]; rfl
  · rw [if_neg ht]
    refine ⟨s, ⟨rfl, rfl⟩, .inl rfl, ?_⟩
    have hnil : privateWhen s = [] := by
      unfold listTruthy at ht
      simpa using ht
    refine (List.filter_eq_self.2 (fun m hm => ?_)).symm
    cases hp : m.priv with
    | false => rfl
    | true =>
      have : m ∈ privateWhen s := List.mem_filter.2 ⟨hm, hp⟩
      rw [hnil] at this; cases this

/-- **C70**, when no private match equals a public one: exactly the public matches are left, in order, and nothing is raised. (Private matches may equal
one another.)

Missing: a private match equal to a public one found before it (`C70_refuted`). -/
theorem C70_partial {b : Bool} {input : Option Str} {s : Matches} (h : Reachable b input s)
    (hsep : ∀ p ∈ s.delegate, ∀ q ∈ s.delegate, p.priv = true → q.priv = false → q.eqv p = false) (r : RuleRef) :
    ∃ s', RanFine (executeRule listTruthy privateRule r s) s' ∧ Reachable b input s' ∧
      s'.delegate = s.delegate.filter (fun m => !m.priv) := by
  obtain ⟨s', h1, h2, h3⟩ := privateRule_spec h.inv hsep r
  refine ⟨s', h1, ?_, h3⟩
  rcases h2 with h2 | h2
  · rw [h2]; exact h
  · rw [h2]; exact reachable_removeEach _ h

/-- The lookups are right too. -/
theorem C70_lookups {s : Matches} (h : Tidy s)
    (hsep : ∀ p ∈ s.delegate, ∀ q ∈ s.delegate, p.priv = true → q.priv = false → q.eqv p = false) (r : RuleRef) :
    ∃ s', RanFine (executeRule listTruthy privateRule r s) s' ∧ Tidy s' ∧ LookupsRight s' ∧ s'.isMarkers = s.isMarkers ∧
      s'.delegate = s.delegate.filter (fun m => !m.priv) := by
  obtain ⟨s', h1, h2, h3⟩ := privateRule_spec h.inv hsep r
  refine ⟨s', h1, ?_⟩
  rcases h2 with h2 | h2
  · rw [h2]; rw [h2] at h3; exact ⟨h, exact_lookups h.exact_, rfl, h3⟩
  · obtain ⟨_, _, q2, q3, _⟩ := removeEach_spec (privateWhen s) h.inv
    have q4 := exact_removeEach (privateWhen s) h.inv h.exact_
    rw [h2]; rw [h2] at h3; exact ⟨⟨q2, q4⟩, exact_lookups q4, q3, h3⟩

example : Reachable false none conflictSample ∧
    (∀ p ∈ conflictSample.delegate, ∀ q ∈ conflictSample.delegate, p.priv = true → q.priv = false → q.eqv p = false) ∧
    (executeRule listTruthy privateRule ⟨0, 0⟩ conflictSample).state.delegate.map Match.id = [0, 1, 2, 4] :=
  ⟨reachableInOrder_reachable conflictSample_reachable, by decide, by decide⟩

/-- A private match equal to a public one found before it: the public one is removed and the private one stays. -/
theorem C70_refuted : ∃ s : Matches, Reachable false none s ∧ s.delegate.map (fun m => (m.id, m.priv)) = [(0, false), (1, true)] ∧
    (executeRule listTruthy privateRule ⟨0, 0⟩ s).state.delegate.map (fun m => (m.id, m.priv)) = [(1, true)] :=
  ⟨(Matches.empty false none).runOps [.append (cm 0 0 3), .append { cm 1 0 3 with priv := true }], ⟨_, by decide, rfl⟩, by decide, by decide⟩

end Rebulk
