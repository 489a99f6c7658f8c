import Verif.Lemmas.Consequences
import Verif.Lemmas.Queries
import Verif.Lemmas.Sort
import Verif.Spec.Processors
/-!
# Lemmas on conflict resolution
-/
namespace Rebulk
open Spec Matches

theorem askSolvers_decision (sv : Solvers) (m c : Match) : askSolvers sv m c = decision sv m c := by
  unfold askSolvers decision solversInOrder ownSolver
  cases hc : c.solver with
  | none =>
    cases hm : m.solver with
    | none =>
      simp only [Option.map_none, Option.toList_none, List.nil_append, List.find?_cons]
      cases hf : sv.fallback m c with
      | error e => rfl
      | ok r => cases r <;> rfl
    | some k =>
      simp only [Option.map_none, Option.toList_none, List.nil_append, Option.map_some, Option.toList_some, List.cons_append, List.find?_cons]
      cases h1 : sv.custom k m c with
      | error e => rfl
      | ok r => cases r with
        | default => cases hf : sv.fallback m c with
          | error e => rfl
          | ok r => cases r <;> rfl
        | keepBoth => rfl
        | drop x => rfl
  | some k =>
    simp only [Option.map_some, Option.toList_some, List.cons_append, List.nil_append, List.find?_cons]
    cases h1 : sv.custom k c m with
    | error e => rfl
    | ok r => cases r with
      | keepBoth => rfl
      | drop x => rfl
      | default =>
        cases hm : m.solver with
        | none =>
          simp only [Option.map_none, Option.toList_none, List.nil_append, List.find?_cons]
          cases hf : sv.fallback m c with
          | error e => rfl
          | ok r => cases r <;> rfl
        | some k =>
          simp only [Option.map_some, Option.toList_some, List.cons_append, List.nil_append, List.find?_cons]
          cases h1 : sv.custom k m c with
          | error e => rfl
          | ok r => cases r with
            | default => cases hf : sv.fallback m c with
              | error e => rfl
              | ok r => cases r <;> rfl
            | keepBoth => rfl
            | drop x => rfl

/-! ## The pairs looked at -/

theorem noEqual_eq {l : List Match} (h : NoEqual l) {a b : Match} (ha : a ∈ l) (hb : b ∈ l) (he : a.eqv b = true) : a = b := by
  induction l with
  | nil => cases ha
  | cons x l ih =>
    unfold NoEqual at h
    rw [List.pairwise_cons] at h
    rcases List.mem_cons.1 ha with rfl | ha' <;> rcases List.mem_cons.1 hb with rfl | hb'
    · rfl
    · rw [h.1 b hb'] at he; cases he
    · have := h.1 a ha'
      rw [Match.eqv_symm he] at this; cases this
    · exact ih h.2 ha' hb'

theorem conflicting_sim_eq {s s' : Matches} (h : Sim s s') (m : Match) : (s'.conflicting m).2 = (s.conflicting m).2 := by
  have : (conflictLoop (pyRange m.start m.stop) s' []).2 = (conflictLoop (pyRange m.start m.stop) s []).2 := by
    rw [(conflictLoop_spec _ s' []).2, (conflictLoop_spec _ s []).2]
    simp only [h.index]
  unfold conflicting
  simp only [this]
  cases removeFirst (fun x => x.eqv m) (conflictLoop (pyRange m.start m.stop) s []).2 <;> rfl

theorem conflicting_members {s : Matches} (h : Clean s) {m : Match} (hm : m ∈ s.delegate) (hne : m.start < m.stop) :
    ∃ cs, (s.conflicting m).2 = .ok cs ∧ ∀ x, x ∈ cs ↔ x ∈ s.delegate ∧ Overlap m x ∧ x ≠ m := by
  have hmem := conflictSet_mem h.inv m
  have hno : NoEqual (conflictLoop (pyRange m.start m.stop) s []).2 := by
    rw [(conflictLoop_spec _ s []).2]; exact noEqual_addMissing _ _ List.Pairwise.nil
  have hsub : ∀ x ∈ (conflictLoop (pyRange m.start m.stop) s []).2, x ∈ s.delegate := by
    intro x hx
    rw [(conflictLoop_spec _ s []).2] at hx
    rcases addMissing_subset _ _ hx with hx | hx
    · cases hx
    · obtain ⟨i, _, hx⟩ := List.mem_flatMap.1 hx
      rw [h.exact_.viewIndex i, filed_index] at hx
      exact (List.mem_filter.1 hx).1
  have hin : ∃ x ∈ (conflictLoop (pyRange m.start m.stop) s []).2, x.eqv m = true :=
    (hmem m).2 ⟨m, hm, Match.eqv_refl m, m.start, by omega, by omega⟩
  unfold conflicting
  cases hr : removeFirst (fun x => x.eqv m) (conflictLoop (pyRange m.start m.stop) s []).2 with
  | none =>
    obtain ⟨x, hx, hxm⟩ := hin
    have := (removeFirst_none _ _).1 hr x hx
    rw [hxm] at this; cases this
  | some l' =>
    refine ⟨l', by simp only [hr], ?_⟩
    have hsub' : ∀ x ∈ l', x ∈ s.delegate := by
      obtain ⟨a, y, c, h1, h2, _, _⟩ := removeFirst_some _ _ _ hr
      intro x hx
      refine hsub x ?_
      rw [h1]; rw [h2] at hx
      rcases List.mem_append.1 hx with hx | hx
      · exact List.mem_append_left _ hx
      · exact List.mem_append_right _ (List.mem_cons_of_mem _ hx)
    have hkey := removeFirst_eqv_mem hno hr
    intro x
    constructor
    · intro hx
      have hxs := hsub' x hx
      obtain ⟨h1, h2⟩ := (hkey x).1 ⟨x, hx, Match.eqv_refl x⟩
      obtain ⟨y, hy, hyx, i, hi1, hi2⟩ := (hmem x).1 h1
      refine ⟨hxs, ⟨i, hi2, ?_⟩, ?_⟩
      · rw [Match.eqv_start hyx, Match.eqv_stop hyx] at hi1; exact hi1
      · intro hxm; rw [hxm, Match.eqv_refl] at h2; cases h2
    · rintro ⟨hxs, ⟨i, hi1, hi2⟩, hne'⟩
      have hmx : m.eqv x = false := by
        cases hmx : m.eqv x with
        | false => rfl
        | true => exact absurd (noEqual_eq h.noEqual hm hxs hmx).symm hne'
      obtain ⟨y, hy, hyx⟩ := (hkey x).2 ⟨(hmem x).2 ⟨x, hxs, Match.eqv_refl x, i, hi2, hi1⟩, hmx⟩
      rw [← noEqual_eq h.noEqual (hsub' y hy) hxs hyx]; exact hy

theorem sortByLen_ok {l : List Match} (h : ∀ m ∈ l, m.start < m.stop) :
    ∃ r, sortByLen l = .ok r ∧ r.Perm l ∧ r.Pairwise (fun a b => a.stop - a.start ≤ b.stop - b.start) := by
  refine ⟨pySorted (fun a b => decide (a.stop - a.start < b.stop - b.start)) l, ?_, pySorted_perm _ _, ?_⟩
  · unfold sortByLen
    rw [if_neg]
    simp only [List.any_eq_true, decide_eq_true_eq, not_exists, not_and]
    intro m hm; have := h m hm; omega
  · exact (pySorted_isStableSort (fun a b : Match => decide (a.stop - a.start < b.stop - b.start)) (fun a b : Int => a ≤ b)
      (fun m => m.stop - m.start) (fun a b h => by have := of_decide_eq_true h; constructor <;> omega)
      (fun a b h => by have := of_decide_eq_false h; omega) (fun a b c h1 h2 => by omega) l).sorted

/-- The loops of `when`, as one loop over pairs. -/
def resolveAll (sv : Solvers) : List (Match × Match) → List Match → Except PyErr (List Match)
  | [], set => .ok set
  | p :: ps, set => match resolvePair sv p.1 p.2 set with
    | .error e => .error e
    | .ok set => resolveAll sv ps set

theorem resolveAll_append (sv : Solvers) : ∀ (ps qs : List (Match × Match)) (set : List Match),
    resolveAll sv (ps ++ qs) set = (match resolveAll sv ps set with | .error e => .error e | .ok set => resolveAll sv qs set)
  | [], _, _ => rfl
  | p :: ps, qs, set => by
    simp only [List.cons_append, resolveAll]
    cases resolvePair sv p.1 p.2 set with
    | error e => rfl
    | ok set => exact resolveAll_append sv ps qs set

theorem resolvePairs_all (sv : Solvers) (m : Match) : ∀ (cs : List Match) (set : List Match),
    resolvePairs sv m cs set = resolveAll sv (cs.map (fun c => (m, c))) set
  | [], _ => rfl
  | c :: cs, set => by
    simp only [resolvePairs, List.map_cons, resolveAll]
    cases resolvePair sv m c set with
    | error e => rfl
    | ok set => exact resolvePairs_all sv m cs set

theorem mem_publicOf {l : List Match} {m : Match} : m ∈ publicOf l ↔ m ∈ l ∧ m.priv = false := by
  unfold publicOf; rw [List.mem_filter]; simp

theorem resolveMatch_all (sv : Solvers) {s s0 : Matches} (hc : Clean s0) (hp : DistinctMatches s0.delegate) (hs : Sim s0 s) {m : Match}
    (hm : m ∈ publicOf s0.delegate) (set : List Match) :
    ∃ ps, (resolveMatch sv m s set).2 = resolveAll sv ps set ∧ Sim s0 (resolveMatch sv m s set).1 ∧
      (∀ p, p ∈ ps ↔ p.1 = m ∧ Conflict s0.delegate p.1 p.2) := by
  obtain ⟨hm1, hm2⟩ := mem_publicOf.1 hm
  obtain ⟨cs, h1, h2⟩ := conflicting_members hc hm1 (hp.nonEmpty m hm1 hm2)
  have h1' : (s.conflicting m).2 = .ok cs := by rw [conflicting_sim_eq hs, h1]
  have hsim := hs.trans (conflicting_sim s m)
  unfold resolveMatch
  cases hr : s.conflicting m with
  | mk s1 r =>
    rw [hr] at h1' hsim
    simp only at h1' hsim
    subst h1'
    simp only
    by_cases he : cs.isEmpty = true
    · rw [if_pos he]
      refine ⟨[], rfl, hsim, ?_⟩
      intro p
      constructor
      · intro h; cases h
      · rintro ⟨rfl, hcf⟩
        have : p.2 ∈ cs := (h2 p.2).2 ⟨hcf.right, hcf.overlap, fun h => hcf.different h.symm⟩
        have hnil : cs = [] := by simpa using he
        rw [hnil] at this; cases this
    · rw [if_neg he]
      obtain ⟨r, q1, q2, _⟩ := sortByLen_ok (l := publicOf cs) (fun x hx => by
        obtain ⟨hx1, hx2⟩ := mem_publicOf.1 hx
        exact hp.nonEmpty x ((h2 x).1 hx1).1 hx2)
      rw [q1]
      refine ⟨r.map (fun c => (m, c)), resolvePairs_all sv m r set, hsim, ?_⟩
      intro p
      constructor
      · intro h
        obtain ⟨c, hcr, rfl⟩ := List.mem_map.1 h
        obtain ⟨hc1, hc2⟩ := mem_publicOf.1 (q2.subset hcr)
        obtain ⟨g1, g2, g3⟩ := (h2 c).1 hc1
        exact ⟨rfl, hm1, g1, hm2, hc2, fun h => g3 h.symm, g2⟩
      · rintro ⟨rfl, hcf⟩
        refine List.mem_map.2 ⟨p.2, q2.symm.subset (mem_publicOf.2 ⟨(h2 p.2).2 ⟨hcf.right, hcf.overlap, fun h => hcf.different h.symm⟩,
          hcf.rightPublic⟩), rfl⟩

theorem resolveMatches_all (sv : Solvers) {s0 : Matches} (hc : Clean s0) (hp : DistinctMatches s0.delegate) :
    ∀ (ms : List Match) (s : Matches) (set : List Match), Sim s0 s → (∀ m ∈ ms, m ∈ publicOf s0.delegate) →
    ms.Pairwise (fun a b => a.stop - a.start ≤ b.stop - b.start) →
    (∃ ps, (resolveMatches sv ms s set).2 = resolveAll sv ps set ∧ Sim s0 (resolveMatches sv ms s set).1 ∧
      (∀ p ∈ ps, p.1 ∈ ms ∧ Conflict s0.delegate p.1 p.2) ∧
      ((∃ r, resolveAll sv ps set = .ok r) → ∀ p : Match × Match, p.1 ∈ ms → Conflict s0.delegate p.1 p.2 → p ∈ ps) ∧
      ps.Pairwise (fun p q => p.1.stop - p.1.start ≤ q.1.stop - q.1.start))
  | [], s, set, hs, _, _ => ⟨[], rfl, hs, by simp, by simp, List.Pairwise.nil⟩
  | m :: ms, s, set, hs, hsub, hpw => by
    rw [List.pairwise_cons] at hpw
    obtain ⟨ps, h1, h2, h3⟩ := resolveMatch_all sv hc hp hs (hsub m List.mem_cons_self) set
    simp only [resolveMatches]
    cases hr : resolveMatch sv m s set with
    | mk s1 r =>
      rw [hr] at h1 h2
      simp only at h1 h2
      have hself : ∀ p ∈ ps, p.1 = m := fun p hp => ((h3 p).1 hp).1
      have hpw0 : ps.Pairwise (fun p q => p.1.stop - p.1.start ≤ q.1.stop - q.1.start) := by
        refine List.pairwise_iff_forall_sublist.2 (fun {a b} hab => ?_)
        have ha := hself a (hab.subset List.mem_cons_self)
        have hb := hself b (hab.subset (List.mem_cons_of_mem _ List.mem_cons_self))
        rw [ha, hb]; exact Int.le_refl _
      cases r with
      | error e =>
        refine ⟨ps, h1, h2, fun p hpp => ⟨by rw [hself p hpp]; exact List.mem_cons_self, ((h3 p).1 hpp).2⟩, ?_, hpw0⟩
        rintro ⟨r, hr⟩
        rw [← h1] at hr; cases hr
      | ok set1 =>
        obtain ⟨qs, g1, g2, g3, g4, g5⟩ := resolveMatches_all sv hc hp ms s1 set1 h2
          (fun x hx => hsub x (List.mem_cons_of_mem _ hx)) hpw.2
        refine ⟨ps ++ qs, ?_, g2, ?_, ?_, ?_⟩
        · rw [resolveAll_append, ← h1]; exact g1
        · intro p hpp
          rcases List.mem_append.1 hpp with hpp | hpp
          · exact ⟨by rw [hself p hpp]; exact List.mem_cons_self, ((h3 p).1 hpp).2⟩
          · exact ⟨List.mem_cons_of_mem _ (g3 p hpp).1, (g3 p hpp).2⟩
        · rintro ⟨r, hr⟩ p hpm hcf
          rw [resolveAll_append, ← h1] at hr
          rcases List.mem_cons.1 hpm with hpm | hpm
          · exact List.mem_append_left _ ((h3 p).2 ⟨hpm, hcf⟩)
          · exact List.mem_append_right _ (g4 ⟨r, hr⟩ p hpm hcf)
        · rw [List.pairwise_append]
          refine ⟨hpw0, g5, ?_⟩
          intro p hpp q hq
          rw [hself p hpp]
          exact hpw.1 q.1 (g3 q hq).1

theorem conflictWhen_all (sv : Solvers) {s : Matches} (hc : Clean s) (hp : DistinctMatches s.delegate) :
    ∃ ps, (conflictWhen sv s).2 = resolveAll sv ps [] ∧ Sim s (conflictWhen sv s).1 ∧
      (∀ p ∈ ps, Conflict s.delegate p.1 p.2) ∧
      ((∃ r, resolveAll sv ps [] = .ok r) → ∀ a b, Conflict s.delegate a b → (a, b) ∈ ps) ∧
      ps.Pairwise (fun p q => p.1.stop - p.1.start ≤ q.1.stop - q.1.start) := by
  unfold conflictWhen
  obtain ⟨r, q1, q2, q3⟩ := sortByLen_ok (l := publicOf s.delegate) (fun x hx => by
    obtain ⟨hx1, hx2⟩ := mem_publicOf.1 hx
    exact hp.nonEmpty x hx1 hx2)
  rw [q1]
  obtain ⟨ps, h1, h2, h3, h4, h5⟩ := resolveMatches_all sv hc hp r s [] (Sim.refl s) (fun m hm => q2.subset hm) q3
  refine ⟨ps, h1, h2, fun p hpp => (h3 p hpp).2, fun hr a b hab => ?_, h5⟩
  exact h4 hr (a, b) (q2.symm.subset (mem_publicOf.2 ⟨hab.left, hab.leftPublic⟩)) hab

/-! ## The removal set -/

theorem ids_eq {l : List Match} (h : (l.map Match.id).Nodup) {a b : Match} (ha : a ∈ l) (hb : b ∈ l) (he : a.id = b.id) : a = b := by
  induction l with
  | nil => cases ha
  | cons x l ih =>
    rw [List.map_cons, List.nodup_cons] at h
    rcases List.mem_cons.1 ha with rfl | ha' <;> rcases List.mem_cons.1 hb with rfl | hb'
    · rfl
    · exact absurd (List.mem_map.2 ⟨b, hb', he.symm⟩) h.1
    · exact absurd (List.mem_map.2 ⟨a, ha', he⟩) h.1
    · exact ih h.2 ha' hb'

theorem inSet_iff {l set : List Match} (h : (l.map Match.id).Nodup) (hs : ∀ m ∈ set, m ∈ l) {m : Match} (hm : m ∈ l) :
    inSet set m = true ↔ m ∈ set := by
  unfold inSet
  rw [List.any_eq_true]
  constructor
  · rintro ⟨x, hx, he⟩
    rw [← ids_eq h (hs x hx) hm (by simpa using he)]; exact hx
  · intro hm'; exact ⟨m, hm', by simp⟩

theorem conflict_symm {l : List Match} {a b : Match} (h : Conflict l a b) : Conflict l b a :=
  ⟨h.right, h.left, h.rightPublic, h.leftPublic, fun he => h.different he.symm, by
    obtain ⟨i, h1, h2⟩ := h.overlap
    exact ⟨i, h2, h1⟩⟩

theorem keeper_left {l : List Match} {a b : Match} (_h : Conflict l a b) : keeper a b a = .ok b := by
  unfold keeper; rw [if_pos (Match.eqv_refl a)]

theorem keeper_right {l : List Match} {a b : Match} (hn : NoEqual l) (h : Conflict l a b) : keeper a b b = .ok a := by
  unfold keeper
  rw [if_neg, if_pos (Match.eqv_refl b)]
  intro he
  exact h.different (noEqual_eq hn h.left h.right he)

/-- What is true of the log while pairs are handled: `done` are the pairs handled. -/
structure LogSoFar (sv : Solvers) (l : List Match) (done : List (Match × Match)) (log : List (Match × Match)) : Prop where
  justified : ∀ e ∈ log, Conflict l e.1 e.2 ∧ (decision sv e.1 e.2 = .ok (.drop e.1) ∨ decision sv e.2 e.1 = .ok (.drop e.1))
  once : log.Pairwise (fun e f => e.1 ≠ f.1)
  keeperStays : log.Pairwise (fun e f => f.2 ≠ e.1)
  complete : ∀ p ∈ done, ∀ r, decision sv p.1 p.2 = .ok (.drop r) → p.1 ∈ log.map Prod.fst ∨ p.2 ∈ log.map Prod.fst
  source : ∀ e ∈ log, (e.1, e.2) ∈ done ∨ (e.2, e.1) ∈ done

theorem addRemoval_log {sv : Solvers} {l : List Match} (hp : DistinctMatches l) {done log : List (Match × Match)} {m c r k : Match}
    (h : LogSoFar sv l done log) (hcf : Conflict l m c) (hrk : keeper m c r = .ok k) (hrm : (r = m ∧ k = c) ∨ (r = c ∧ k = m))
    (hd : decision sv m c = .ok (.drop r)) :
    ∃ log', addRemoval (log.map Prod.fst) m c r = .ok (log'.map Prod.fst) ∧ LogSoFar sv l (done ++ [(m, c)]) log' := by
  have hset : ∀ x ∈ log.map Prod.fst, x ∈ l := by
    intro x hx
    obtain ⟨e, he, rfl⟩ := List.mem_map.1 hx
    exact (h.justified e he).1.left
  have hrl : r ∈ l := by rcases hrm with ⟨rfl, _⟩ | ⟨rfl, _⟩; exact hcf.left; exact hcf.right
  have hkl : k ∈ l := by rcases hrm with ⟨_, rfl⟩ | ⟨_, rfl⟩; exact hcf.right; exact hcf.left
  have hrp : r.priv = false := by rcases hrm with ⟨rfl, _⟩ | ⟨rfl, _⟩; exact hcf.leftPublic; exact hcf.rightPublic
  have hkeep : ∀ log' : List (Match × Match), (∀ x ∈ log.map Prod.fst, x ∈ log'.map Prod.fst) → (m ∈ log'.map Prod.fst ∨ c ∈ log'.map Prod.fst) →
      ∀ p ∈ done ++ [(m, c)], ∀ r, decision sv p.1 p.2 = .ok (.drop r) → p.1 ∈ log'.map Prod.fst ∨ p.2 ∈ log'.map Prod.fst := by
    intro log' hsub hmc p hpp r' hr'
    rcases List.mem_append.1 hpp with hpp | hpp
    · rcases h.complete p hpp r' hr' with h' | h'
      · exact .inl (hsub _ h')
      · exact .inr (hsub _ h')
    · rw [List.mem_singleton] at hpp; subst hpp; exact hmc
  have hpast : ∀ e ∈ log, (e.1, e.2) ∈ done ++ [(m, c)] ∨ (e.2, e.1) ∈ done ++ [(m, c)] := by
    intro e he
    rcases h.source e he with h' | h'
    · exact .inl (List.mem_append_left _ h')
    · exact .inr (List.mem_append_left _ h')
  have ht : r.truthy? = .ok true := by
    have := hp.nonEmpty r hrl hrp
    unfold Match.truthy?
    rw [if_neg (by omega)]
    have : (r.stop - r.start != 0) = true := by simp; omega
    rw [this]
  unfold addRemoval
  simp only [ht]
  by_cases hin : inSet (log.map Prod.fst) r = true
  · rw [if_pos hin]
    have hin' := (inSet_iff hp.identities hset hrl).1 hin
    refine ⟨log, rfl, h.justified, h.once, h.keeperStays, hkeep log (fun _ h => h) ?_, hpast⟩
    rcases hrm with ⟨rfl, _⟩ | ⟨rfl, _⟩
    · exact .inl hin'
    · exact .inr hin'
  · rw [if_neg hin, hrk]
    have hin' : r ∉ log.map Prod.fst := fun hx => hin ((inSet_iff hp.identities hset hrl).2 hx)
    simp only
    by_cases hik : inSet (log.map Prod.fst) k = true
    · rw [if_pos hik]
      have hik' := (inSet_iff hp.identities hset hkl).1 hik
      refine ⟨log, rfl, h.justified, h.once, h.keeperStays, hkeep log (fun _ h => h) ?_, hpast⟩
      rcases hrm with ⟨_, rfl⟩ | ⟨_, rfl⟩
      · exact .inr hik'
      · exact .inl hik'
    · rw [if_neg hik]
      have hik' : k ∉ log.map Prod.fst := fun hx => hik ((inSet_iff hp.identities hset hkl).2 hx)
      refine ⟨log ++ [(r, k)], by simp, ?_, ?_, ?_, hkeep _ (fun x hx => by simp [List.mem_map] at hx ⊢; exact .inl hx) ?_, ?_⟩
      · intro e he
        rcases List.mem_append.1 he with he | he
        · exact h.justified e he
        · rw [List.mem_singleton] at he; subst he
          rcases hrm with ⟨rfl, rfl⟩ | ⟨rfl, rfl⟩
          · exact ⟨hcf, .inl hd⟩
          · exact ⟨conflict_symm hcf, .inr hd⟩
      · rw [List.pairwise_append]
        refine ⟨h.once, List.pairwise_singleton _ _, ?_⟩
        intro e he f hf
        rw [List.mem_singleton] at hf; subst hf
        intro hef
        exact hin' (List.mem_map.2 ⟨e, he, hef⟩)
      · rw [List.pairwise_append]
        refine ⟨h.keeperStays, List.pairwise_singleton _ _, ?_⟩
        intro e he f hf
        rw [List.mem_singleton] at hf; subst hf
        intro hef
        exact hik' (List.mem_map.2 ⟨e, he, hef.symm⟩)
      · rcases hrm with ⟨rfl, _⟩ | ⟨rfl, _⟩
        · exact .inl (by simp)
        · exact .inr (by simp)
      · intro e he
        rcases List.mem_append.1 he with he | he
        · exact hpast e he
        · rw [List.mem_singleton] at he; subst he
          rcases hrm with ⟨rfl, rfl⟩ | ⟨rfl, rfl⟩
          · exact .inl (by simp)
          · exact .inr (by simp)

theorem resolvePair_log {sv : Solvers} {l : List Match} (hp : DistinctMatches l) (hs : SaneSolvers sv l) {done log : List (Match × Match)} {m c : Match}
    (h : LogSoFar sv l done log) (hcf : Conflict l m c) :
    ∃ log', resolvePair sv m c (log.map Prod.fst) = .ok (log'.map Prod.fst) ∧ LogSoFar sv l (done ++ [(m, c)]) log' := by
  have hnop : (∀ r, decision sv m c ≠ .ok (.drop r)) → LogSoFar sv l (done ++ [(m, c)]) log := by
    intro hd
    refine ⟨h.justified, h.once, h.keeperStays, ?_, ?_⟩
    · intro p hpp r hr
      rcases List.mem_append.1 hpp with hpp | hpp
      · exact h.complete p hpp r hr
      · rw [List.mem_singleton] at hpp; subst hpp; exact absurd hr (hd r)
    · intro e he
      rcases h.source e he with h' | h'
      · exact .inl (List.mem_append_left _ h')
      · exact .inr (List.mem_append_left _ h')
  unfold resolvePair
  rw [askSolvers_decision]
  rcases hs m c hcf with hd | hd | hd | hd <;> rw [hd]
  · exact ⟨log, rfl, hnop (fun r hr => by rw [hd] at hr; cases hr)⟩
  · exact ⟨log, rfl, hnop (fun r hr => by rw [hd] at hr; cases hr)⟩
  · exact addRemoval_log hp h hcf (keeper_left hcf) (.inl ⟨rfl, rfl⟩) hd
  · exact addRemoval_log hp h hcf (keeper_right hp.noEqual hcf) (.inr ⟨rfl, rfl⟩) hd

theorem resolveAll_log {sv : Solvers} {l : List Match} (hp : DistinctMatches l) (hs : SaneSolvers sv l) : ∀ (ps done log : List (Match × Match)),
    LogSoFar sv l done log → (∀ p ∈ ps, Conflict l p.1 p.2) →
    ∃ log', resolveAll sv ps (log.map Prod.fst) = .ok (log'.map Prod.fst) ∧ LogSoFar sv l (done ++ ps) log'
  | [], done, log, h, _ => ⟨log, rfl, by rw [List.append_nil]; exact h⟩
  | p :: ps, done, log, h, hps => by
    obtain ⟨log1, h1, h2⟩ := resolvePair_log hp hs h (hps p List.mem_cons_self)
    obtain ⟨log2, h3, h4⟩ := resolveAll_log hp hs ps (done ++ [p]) log1 h2 (fun q hq => hps q (List.mem_cons_of_mem _ hq))
    refine ⟨log2, ?_, by simpa using h4⟩
    simp only [resolveAll]
    rw [h1]; exact h3

theorem resolveMatch_sim (sv : Solvers) (m : Match) (s : Matches) (set : List Match) : Sim s (resolveMatch sv m s set).1 := by
  have h := conflicting_sim s m
  unfold resolveMatch
  cases hr : s.conflicting m with
  | mk s1 r =>
    rw [hr] at h
    cases r with
    | error e => exact h
    | ok cs =>
      simp only
      split
      · exact h
      · cases sortByLen (publicOf cs) <;> exact h

theorem resolveMatches_sim (sv : Solvers) : ∀ (ms : List Match) (s : Matches) (set : List Match), Sim s (resolveMatches sv ms s set).1
  | [], s, _ => Sim.refl s
  | m :: ms, s, set => by
    have h := resolveMatch_sim sv m s set
    simp only [resolveMatches]
    cases hr : resolveMatch sv m s set with
    | mk s1 r =>
      rw [hr] at h
      cases r with
      | error e => exact h
      | ok set1 => exact h.trans (resolveMatches_sim sv ms s1 set1)

theorem conflictWhen_sim (sv : Solvers) (s : Matches) : Sim s (conflictWhen sv s).1 := by
  unfold conflictWhen
  cases sortByLen (publicOf s.delegate) with
  | error e => exact Sim.refl s
  | ok ms => exact resolveMatches_sim sv ms s []

end Rebulk
