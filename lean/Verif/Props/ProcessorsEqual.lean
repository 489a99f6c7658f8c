import Verif.Props.Processors
/-!
# Conflict resolution when equal matches are found (`C66`, `C67`, `C70`)

Several patterns often find equal matches. Then `conflicting` gives one representative of each class of equal matches.
-/
namespace Rebulk
open Spec Matches

/-- The conflicts found for a match: each one is contained, overlaps it and does not equal it; every such match is represented. -/
theorem conflicting_reps {s : Matches} (h : Tidy s) {m : Match} (hm : m ∈ s.delegate) (hne : m.start < m.stop) :
    ∃ cs, (s.conflicting m).2 = .ok cs ∧ (∀ x ∈ cs, x ∈ s.delegate ∧ Overlap m x ∧ m.eqv x = false) ∧
      ∀ x ∈ s.delegate, Overlap m x → m.eqv x = false → ∃ y ∈ cs, y.eqv x = true := by
  have hmem := conflictSet_mem h.inv m
  have hno : NoEqual (conflictLoop (pyRange m.start m.stop) s []).2 := by
    rw [(conflictLoop_spec _ s []).2]; exact noEqual_addMissing _ _ List.Pairwise.nil
  have hsub : ∀ x ∈ (conflictLoop (pyRange m.start m.stop) s []).2, x ∈ s.delegate := by
    intro x hx
    rw [(conflictLoop_spec _ s []).2] at hx
    rcases addMissing_subset _ _ hx with hx | hx
    · cases hx
    · obtain ⟨i, _, hx⟩ := List.mem_flatMap.1 hx
      rw [h.exact_.viewIndex i, filed_index] at hx
      exact (List.mem_filter.1 hx).1
  have hin : ∃ x ∈ (conflictLoop (pyRange m.start m.stop) s []).2, x.eqv m = true :=
    (hmem m).2 ⟨m, hm, Match.eqv_refl m, m.start, by omega, by omega⟩
  unfold conflicting
  cases hr : removeFirst (fun x => x.eqv m) (conflictLoop (pyRange m.start m.stop) s []).2 with
  | none =>
    obtain ⟨x, hx, hxm⟩ := hin
    have := (removeFirst_none _ _).1 hr x hx
    rw [hxm] at this; cases this
  | some l' =>
    refine ⟨l', by simp only [hr], ?_, ?_⟩
    · intro x hx
      obtain ⟨a, y, c, h1, h2, _, _⟩ := removeFirst_some _ _ _ hr
      have hxs : x ∈ s.delegate := by
        refine hsub x ?_
        rw [h1]; rw [h2] at hx
        rcases List.mem_append.1 hx with hx | hx
        · exact List.mem_append_left _ hx
        · exact List.mem_append_right _ (List.mem_cons_of_mem _ hx)
      obtain ⟨h1, h2⟩ := (removeFirst_eqv_mem hno hr x).1 ⟨x, hx, Match.eqv_refl x⟩
      obtain ⟨y, hy, hyx, i, hi1, hi2⟩ := (hmem x).1 h1
      refine ⟨hxs, ⟨i, hi2, ?_⟩, h2⟩
      rw [Match.eqv_start hyx, Match.eqv_stop hyx] at hi1; exact hi1
    · intro x hxs ⟨i, hi1, hi2⟩ hmx
      exact (removeFirst_eqv_mem hno hr x).2 ⟨(hmem x).2 ⟨x, hxs, Match.eqv_refl x, i, hi2, hi1⟩, hmx⟩

/-- The removal set while the matches are visited by increasing length: objects that lose to a longer match, none longer than `n`. -/
structure LosersUpTo (l : List Match) (n : Int) (set : List Match) : Prop where
  mem : ∀ x ∈ set, x ∈ l
  lose : ∀ x ∈ set, LosesToLonger l x
  short : ∀ x ∈ set, x.stop - x.start ≤ n
  nodup : set.Nodup

theorem LosersUpTo.mono {l set : List Match} {n k : Int} (h : LosersUpTo l n set) (hk : n ≤ k) : LosersUpTo l k set :=
  ⟨h.mem, h.lose, fun x hx => by have := h.short x hx; omega, h.nodup⟩

theorem LosersUpTo.snoc {l set : List Match} {n : Int} (h : LosersUpTo l n set) {x : Match} (hx : x ∈ l) (hl : LosesToLonger l x)
    (hs : x.stop - x.start ≤ n) (hn : x ∉ set) : LosersUpTo l n (set ++ [x]) := by
  refine ⟨?_, ?_, ?_, ?_⟩
  · intro y hy
    rcases List.mem_append.1 hy with hy | hy
    · exact h.mem y hy
    · rw [List.mem_singleton] at hy; subst hy; exact hx
  · intro y hy
    rcases List.mem_append.1 hy with hy | hy
    · exact h.lose y hy
    · rw [List.mem_singleton] at hy; subst hy; exact hl
  · intro y hy
    rcases List.mem_append.1 hy with hy | hy
    · exact h.short y hy
    · rw [List.mem_singleton] at hy; subst hy; exact hs
  · rw [List.nodup_append]
    refine ⟨h.nodup, by simp, ?_⟩
    intro a ha b hb hab
    rw [List.mem_singleton] at hb
    subst hb; subst hab; exact hn ha

theorem ordinary_plain {l : List Match} (h : Ordinary l) : Plain l :=
  ⟨h.noSolver, fun m hm hp => by have := h.nonEmpty m hm hp; rw [h.noParent m hm hp]; omega⟩

theorem overlap_symm {a b : Match} (h : Overlap a b) : Overlap b a := by
  obtain ⟨i, h1, h2⟩ := h; exact ⟨i, h2, h1⟩

/-- One pair. -/
theorem resolvePair_losers (custom : Nat → Match → Match → Except PyErr SolverRet) {l : List Match} (ho : Ordinary l) {m c : Match} (hm : m ∈ l)
    (hmp : m.priv = false) (hc : c ∈ l) (hcp : c.priv = false) (hov : Overlap m c) (hne : m.eqv c = false) {set : List Match}
    (h : LosersUpTo l (m.stop - m.start) set) :
    ∃ set', resolvePair (.withDefault custom) m c set = .ok set' ∧ LosersUpTo l (m.stop - m.start) set' ∧ (∀ x ∈ set, x ∈ set') ∧
      (m.stop - m.start < c.stop - c.start → m ∈ set') := by
  have hcf : Conflict l m c := ⟨hm, hc, hmp, hcp, (by rintro rfl; rw [Match.eqv_refl] at hne; cases hne), hov⟩
  have n1 := ho.nonEmpty m hm hmp
  have n2 := ho.nonEmpty c hc hcp
  unfold resolvePair
  rw [askSolvers_decision, plain_decision (custom := custom) (ordinary_plain ho) hcf, ho.noParent m hm hmp, ho.noParent c hc hcp]
  have ht : ∀ x : Match, x.start < x.stop → x.truthy? = .ok true := fun x hx => truthy_of_lt hx
  by_cases h6 : c.stop - c.start < m.stop - m.start
  · rw [if_pos h6]
    simp only [addRemoval, ht c n2]
    by_cases hin : inSet set c = true
    · rw [if_pos hin]; exact ⟨set, rfl, h, fun _ hx => hx, fun _ => by omega⟩
    · have hk : keeper m c c = .ok m := by
        unfold keeper; rw [if_neg (by rw [hne]; simp), if_pos (Match.eqv_refl c)]
      rw [if_neg hin, hk]
      simp only
      by_cases hik : inSet set m = true
      · rw [if_pos hik]; exact ⟨set, rfl, h, fun _ hx => hx, fun _ => by omega⟩
      · rw [if_neg hik]
        refine ⟨_, rfl, h.snoc hc ⟨hcp, m, hm, hmp, overlap_symm hov, h6⟩ (by omega) ?_, fun x hx => List.mem_append_left _ hx, fun _ => by omega⟩
        exact fun hcs => hin ((inSet_iff ho.identities h.mem hc).2 hcs)
  · rw [if_neg h6]
    by_cases h7 : m.stop - m.start < c.stop - c.start
    · rw [if_pos h7]
      simp only [addRemoval, ht m n1]
      by_cases hin : inSet set m = true
      · rw [if_pos hin]
        exact ⟨set, rfl, h, fun _ hx => hx, fun _ => (inSet_iff ho.identities h.mem hm).1 hin⟩
      · rw [if_neg hin, keeper_left hcf]
        simp only
        have hik : ¬ inSet set c = true := by
          intro hik
          have := h.short c ((inSet_iff ho.identities h.mem hc).1 hik)
          omega
        rw [if_neg hik]
        refine ⟨_, rfl, h.snoc hm ⟨hmp, c, hc, hcp, hov, h7⟩ (Int.le_refl _) ?_, fun x hx => List.mem_append_left _ hx, fun _ => by simp⟩
        exact fun hms => hin ((inSet_iff ho.identities h.mem hm).2 hms)
    · rw [if_neg h7]
      exact ⟨set, rfl, h, fun _ hx => hx, fun h => absurd h h7⟩

theorem resolvePairs_losers (custom : Nat → Match → Match → Except PyErr SolverRet) {l : List Match} (ho : Ordinary l) {m : Match} (hm : m ∈ l)
    (hmp : m.priv = false) : ∀ (cs set : List Match), (∀ c ∈ cs, c ∈ l ∧ c.priv = false ∧ Overlap m c ∧ m.eqv c = false) →
    LosersUpTo l (m.stop - m.start) set →
    ∃ set', resolvePairs (.withDefault custom) m cs set = .ok set' ∧ LosersUpTo l (m.stop - m.start) set' ∧ (∀ x ∈ set, x ∈ set') ∧
      ((∃ c ∈ cs, m.stop - m.start < c.stop - c.start) → m ∈ set')
  | [], set, _, h => ⟨set, rfl, h, fun _ hx => hx, by simp⟩
  | c :: cs, set, hcs, h => by
    obtain ⟨c1, c2, c3, c4⟩ := hcs c List.mem_cons_self
    obtain ⟨set1, h1, h2, h3, h4⟩ := resolvePair_losers custom ho hm hmp c1 c2 c3 c4 h
    obtain ⟨set2, g1, g2, g3, g4⟩ := resolvePairs_losers custom ho hm hmp cs set1 (fun x hx => hcs x (List.mem_cons_of_mem _ hx)) h2
    refine ⟨set2, ?_, g2, fun x hx => g3 x (h3 x hx), ?_⟩
    · simp only [resolvePairs]; rw [h1]; exact g1
    · rintro ⟨d, hd, hlt⟩
      rcases List.mem_cons.1 hd with rfl | hd
      · exact g3 m (h4 hlt)
      · exact g4 ⟨d, hd, hlt⟩

theorem resolveMatch_losers (custom : Nat → Match → Match → Except PyErr SolverRet) {s0 s : Matches} (ht : Tidy s0) (ho : Ordinary s0.delegate)
    (hs : Sim s0 s) {m : Match} (hm : m ∈ s0.delegate) (hmp : m.priv = false) {set : List Match}
    (h : LosersUpTo s0.delegate (m.stop - m.start) set) :
    ∃ set', (resolveMatch (.withDefault custom) m s set).2 = .ok set' ∧ LosersUpTo s0.delegate (m.stop - m.start) set' ∧ (∀ x ∈ set, x ∈ set') ∧
      (LosesToLonger s0.delegate m → m ∈ set') := by
  obtain ⟨cs, h1, h2, h3⟩ := conflicting_reps ht hm (ho.nonEmpty m hm hmp)
  have h1' : (s.conflicting m).2 = .ok cs := by rw [conflicting_sim_eq hs, h1]
  have hwit : LosesToLonger s0.delegate m → ∃ c ∈ publicOf cs, m.stop - m.start < c.stop - c.start := by
    rintro ⟨_, c, hc, hcp, hov, hlt⟩
    have hmc : m.eqv c = false := by
      cases he : m.eqv c with
      | false => rfl
      | true => have q1 := Match.eqv_start he; have q2 := Match.eqv_stop he; omega
    obtain ⟨y, hy, hyc⟩ := h3 c hc hov hmc
    refine ⟨y, mem_publicOf.2 ⟨hy, ?_⟩, ?_⟩
    · rw [ho.equalAlike y (h2 y hy).1 c hc hyc]; exact hcp
    · rw [Match.eqv_start hyc, Match.eqv_stop hyc]; exact hlt
  unfold resolveMatch
  cases hr : s.conflicting m with
  | mk s1 r =>
    rw [hr] at h1'
    simp only at h1'; subst h1'
    simp only
    by_cases he : cs.isEmpty = true
    · rw [if_pos he]
      refine ⟨set, rfl, h, fun _ hx => hx, fun hl => ?_⟩
      obtain ⟨c, hc, _⟩ := hwit hl
      have : cs = [] := by simpa using he
      subst this; cases hc
    · rw [if_neg he]
      obtain ⟨cs', q1, q2, _⟩ := sortByLen_ok (l := publicOf cs) (fun x hx => by
        obtain ⟨hx1, hx2⟩ := mem_publicOf.1 hx
        exact ho.nonEmpty x (h2 x hx1).1 hx2)
      rw [q1]
      simp only
      obtain ⟨set', g1, g2, g3, g4⟩ := resolvePairs_losers custom ho hm hmp cs' set (fun c hc => by
        obtain ⟨hc1, hc2⟩ := mem_publicOf.1 (q2.mem_iff.1 hc)
        obtain ⟨r1, r2, r3⟩ := h2 c hc1
        exact ⟨r1, hc2, r2, r3⟩) h
      refine ⟨set', g1, g2, g3, fun hl => g4 ?_⟩
      obtain ⟨c, hc, hlt⟩ := hwit hl
      exact ⟨c, q2.mem_iff.2 hc, hlt⟩

theorem resolveMatches_losers (custom : Nat → Match → Match → Except PyErr SolverRet) {s0 : Matches} (ht : Tidy s0) (ho : Ordinary s0.delegate) :
    ∀ (ms : List Match) (s : Matches) (set : List Match) (n : Int), Sim s0 s → (∀ m ∈ ms, m ∈ publicOf s0.delegate) →
    ms.Pairwise (fun a b => a.stop - a.start ≤ b.stop - b.start) → (∀ m ∈ ms, n ≤ m.stop - m.start) → LosersUpTo s0.delegate n set →
    ∃ set', (resolveMatches (.withDefault custom) ms s set).2 = .ok set' ∧ (∃ k, LosersUpTo s0.delegate k set') ∧ (∀ x ∈ set, x ∈ set') ∧
      ∀ m ∈ ms, LosesToLonger s0.delegate m → m ∈ set'
  | [], s, set, n, _, _, _, _, h => ⟨set, rfl, ⟨n, h⟩, fun _ hx => hx, by simp⟩
  | m :: ms, s, set, n, hs, hsub, hpw, hn, h => by
    obtain ⟨hm, hmp⟩ := mem_publicOf.1 (hsub m List.mem_cons_self)
    rw [List.pairwise_cons] at hpw
    obtain ⟨set1, h1, h2, h3, h4⟩ := resolveMatch_losers custom ht ho hs hm hmp (h.mono (hn m List.mem_cons_self))
    have hsim := hs.trans (resolveMatch_sim (.withDefault custom) m s set)
    simp only [resolveMatches]
    cases hr : resolveMatch (.withDefault custom) m s set with
    | mk s1 r =>
      rw [hr] at h1 hsim
      simp only at h1; subst h1
      simp only
      obtain ⟨set2, g1, g2, g3, g4⟩ := resolveMatches_losers custom ht ho ms s1 set1 (m.stop - m.start) hsim
        (fun x hx => hsub x (List.mem_cons_of_mem _ hx)) hpw.2 hpw.1 h2
      refine ⟨set2, g1, g2, fun x hx => g3 x (h3 x hx), fun x hx hl => ?_⟩
      rcases List.mem_cons.1 hx with rfl | hx
      · exact g3 _ (h4 hl)
      · exact g4 x hx hl

/-- `ConflictSolver.when` returns exactly the public matches that share an index with a longer public one, each once. -/
theorem conflictWhen_losers (custom : Nat → Match → Match → Except PyErr SolverRet) {s : Matches} (ht : Tidy s) (ho : Ordinary s.delegate) :
    ∃ set, (conflictWhen (.withDefault custom) s).2 = .ok set ∧ set.Nodup ∧ ∀ m, m ∈ set ↔ m ∈ s.delegate ∧ LosesToLonger s.delegate m := by
  unfold conflictWhen
  obtain ⟨r, q1, q2, q3⟩ := sortByLen_ok (l := publicOf s.delegate) (fun x hx => by
    obtain ⟨hx1, hx2⟩ := mem_publicOf.1 hx
    exact ho.nonEmpty x hx1 hx2)
  rw [q1]
  simp only
  obtain ⟨set, g1, ⟨k, g2⟩, _, g4⟩ := resolveMatches_losers custom ht ho r s [] 0 (Sim.refl s) (fun m hm => q2.mem_iff.1 hm) q3
    (fun m hm => by
      obtain ⟨hx1, hx2⟩ := mem_publicOf.1 (q2.mem_iff.1 hm)
      have := ho.nonEmpty m hx1 hx2; omega)
    ⟨by simp, by simp, by simp, List.Pairwise.nil⟩
  refine ⟨set, g1, g2.nodup, fun m => ⟨fun hm => ⟨g2.mem m hm, g2.lose m hm⟩, fun hm => ?_⟩⟩
  exact g4 m (q2.mem_iff.2 (mem_publicOf.2 ⟨hm.1, hm.2.1⟩)) hm.2

/-! ## Removing whole classes of equal matches -/

theorem removes_classes {l ms l' ret : List Match} (h : Removes l ms l' ret) (e : Match) :
    l'.countP (fun x => x.eqv e) + ret.countP (fun x => x.eqv e) = l.countP (fun x => x.eqv e) := by
  induction h with
  | done => simp
  | absent _ _ ih => exact ih
  | @present before x after ms l' ret m _ hx _ ih =>
    have hxe : x.eqv e = m.eqv e := by
      rw [Match.eqv_eq_decide, Match.eqv_eq_decide, (Match.eqv_iff x m).1 hx]
    rw [List.countP_append] at ih ⊢
    rw [List.countP_cons, List.countP_cons, hxe]
    omega

/-- Removing all the matches of some classes of equal matches is filtering. -/
theorem removes_closed {l ms l' ret : List Match} (h : Removes l ms l' ret) (q : Match → Bool) (hp : ms.Perm (l.filter q))
    (hq : ∀ a ∈ l, ∀ b ∈ l, a.eqv b = true → q a = q b) : l' = l.filter (fun m => !q m) := by
  have hret : ret = ms := removes_own h (fun e => by
    rw [hp.countP_eq]; exact List.Sublist.countP_le List.filter_sublist)
  have hlen := removes_count h
  have hsub := (removes_sublist h).1
  have hall : ∀ x ∈ l', (!q x) = true := by
    intro x hx
    cases hqx : q x with
    | false => rfl
    | true =>
      exfalso
      have hxl := hsub.subset hx
      have h1 := removes_classes h x
      have h2 : ret.countP (fun y => y.eqv x) = l.countP (fun y => y.eqv x) := by
        rw [hret, hp.countP_eq, List.countP_filter]
        refine List.countP_congr (fun y hy => ?_)
        constructor
        · intro h; exact (Bool.and_eq_true _ _ ▸ h).1
        · intro h; rw [Bool.and_eq_true]; exact ⟨h, by rw [hq y hy x hxl h]; exact hqx⟩
      have h3 : 0 < l'.countP (fun y => y.eqv x) := List.countP_pos_iff.2 ⟨x, hx, Match.eqv_refl x⟩
      omega
  have hsub' : l'.Sublist (l.filter (fun m => !q m)) := by
    have := hsub.filter (fun m => !q m)
    rwa [List.filter_eq_self.2 hall] at this
  refine hsub'.eq_of_length ?_
  have h4 : (l.filter q).length + (l.filter (fun m => !q m)).length = l.length := by
    clear h hp hq hret hlen hsub hall hsub'
    induction l with
    | nil => rfl
    | cons x l ih => cases hx : q x <;> simp [hx] at ih ⊢ <;> omega
  rw [hret, hp.length_eq] at hlen
  omega

theorem losesToLonger_congr {l : List Match} {a b : Match} (he : a.eqv b = true) (hp : a.priv = b.priv) :
    LosesToLonger l a → LosesToLonger l b := by
  rintro ⟨h1, c, h2, h3, ⟨i, h4, h5⟩, h6⟩
  refine ⟨by rw [← hp]; exact h1, c, h2, h3, ⟨i, ?_, h5⟩, ?_⟩
  · unfold Covers at *; rw [← Match.eqv_start he, ← Match.eqv_stop he]; exact h4
  · rw [← Match.eqv_start he, ← Match.eqv_stop he]; exact h6

open Classical in
/-- **C66, C67** with equal matches allowed: the conflict rule leaves exactly, in order, the private matches and the public ones that share no index with a
longer public one. -/
theorem C67_equal_matches (custom : Nat → Match → Match → Except PyErr SolverRet) {s : Matches} (ht : Tidy s) (ho : Ordinary s.delegate)
    (order : List Match → List Match) (hord : ∀ l, (order l).Perm l) (r : RuleRef) :
    ∃ s', RanFine (executeRule listTruthy (conflictRule (.withDefault custom) order) r s) s' ∧ Tidy s' ∧ s'.isMarkers = s.isMarkers ∧
      s'.delegate = s.delegate.filter (fun m => decide (¬ LosesToLonger s.delegate m)) := by
  obtain ⟨set, h1, h2, h3⟩ := conflictWhen_losers custom ht ho
  have hsim := conflictWhen_sim (.withDefault custom) s
  unfold executeRule
  rw [if_pos (show (conflictRule (.withDefault custom) order).enabled s = true from rfl)]
  have hw : (conflictRule (.withDefault custom) order).when_ s = conflictWhen (.withDefault custom) s := rfl
  rw [hw]
  cases hc : conflictWhen (.withDefault custom) s with
  | mk s1 a =>
    rw [hc] at h1 hsim
    simp only at h1; subst h1
    simp only
    have ht1 := ht.sim hsim
    by_cases htr : listTruthy set = true
    · rw [if_pos htr]
      obtain ⟨ret, q1, q2, q3, q4, _⟩ := removeEach_spec (order set) ht1.inv
      have hthen : (conflictRule (.withDefault custom) order).then_ s1 set = ((removeEach (order set) s1).1, none) := by
        show dropAnswer (thenRemove (.many (order set)) s1) = _
        rw [thenRemove_many_ok q1]; rfl
      rw [hthen]
      refine ⟨_, ⟨rfl, rfl⟩, ⟨q2, exact_removeEach _ ht1.inv ht1.exact_⟩, q3.trans hsim.markers, ?_⟩
      show (removeEach (order set) s1).1.delegate = _
      rw [hsim.delegate] at q4
      have hnd : s.delegate.Nodup := by
        have := ho.identities
        exact List.Pairwise.of_map (S := fun a b => a ≠ b) Match.id (fun a b hab he => hab (by rw [he])) this
      have := removes_closed q4 (fun m => decide (LosesToLonger s.delegate m)) ((hord set).trans ?_) ?_
      · rw [this]; congr 1; funext m; rw [decide_not]
      · rw [List.perm_ext_iff_of_nodup h2 (hnd.filter _)]
        intro m
        rw [h3, List.mem_filter, decide_eq_true_eq]
      · intro a ha b hb he
        have hp := ho.equalAlike a ha b hb he
        exact decide_eq_decide.2 ⟨losesToLonger_congr he hp, losesToLonger_congr (Match.eqv_symm he) hp.symm⟩
    · rw [if_neg htr]
      refine ⟨s1, ⟨rfl, rfl⟩, ht1, hsim.markers, ?_⟩
      have hnil : set = [] := by unfold listTruthy at htr; simpa using htr
      rw [hsim.delegate]
      refine (List.filter_eq_self.2 (fun m hm => ?_)).symm
      rw [decide_eq_true_eq]
      intro hl
      have := (h3 m).2 ⟨hm, hl⟩
      rw [hnil] at this; cases this

/-- Two equal matches at 0–3 (different objects), a longer one at 1–5 and two equal private ones: both short ones go. -/
example : let s := (empty false none).runOps [.append (cm 0 0 3), .append (cm 1 0 3), .append (cm 2 1 5), .append { cm 3 6 8 with priv := true },
      .append { cm 4 6 8 with priv := true }, .append (cm 5 6 7)]
    ReachableByValue false none s ∧ Ordinary s.delegate ∧
    (executeRule listTruthy (conflictRule (.withDefault (fun _ _ _ => .ok .default)) List.reverse) ⟨0, 0⟩ s).state.delegate.map Match.id = [2, 3, 4, 5] :=
  ⟨⟨_, by decide, rfl⟩, ⟨by decide, by decide, by decide, by decide, by decide⟩, by decide⟩

/-- A private match equal to a public one makes conflict resolution miss the public one: found after it, the public match at 0–2 does not see the
public match at 0–5, of which a private double was found first. Both survive. -/
theorem C66_equal_refuted : ∃ s : Matches, ReachableByValue false none s ∧ (s.delegate.map Match.id).Nodup ∧
    s.delegate.map (fun m => (m.span, m.priv)) = [((0, 2), true), ((0, 2), false), ((0, 5), true), ((0, 5), false)] ∧
    let s' := (executeRule listTruthy (conflictRule (.withDefault (fun _ _ _ => .ok .default)) id) ⟨0, 0⟩ s).state
    s'.delegate.map Match.id = [0, 1, 2, 3] :=
  ⟨(empty false none).runOps [.append { cm 0 0 2 with priv := true }, .append (cm 1 0 2), .append { cm 2 0 5 with priv := true }, .append (cm 3 0 5)],
    ⟨_, by decide, rfl⟩, by decide, by decide, by decide⟩

end Rebulk
