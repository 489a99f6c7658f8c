import Verif.Props.LocalityDefault
import Verif.Props.ProcessorsRaise
/-!
# The default rules on their own result (`C127`)
-/
namespace Rebulk
open Spec Matches
variable {Ctx : Type}

theorem conflict_sub {l l' : List Match} (h : ∀ m ∈ l', m ∈ l) {a b : Match} (hc : Conflict l' a b) : Conflict l a b :=
  ⟨h a hc.left, h b hc.right, hc.leftPublic, hc.rightPublic, hc.different, hc.overlap⟩

theorem distinct_sublist {l l' : List Match} (h : l'.Sublist l) (hd : DistinctMatches l) : DistinctMatches l' :=
  ⟨List.Pairwise.sublist h hd.noEqual, hd.identities.sublist (h.map _), fun m hm => hd.nonEmpty m (h.subset hm)⟩

theorem sane_sublist {sv : Solvers} {l l' : List Match} (h : l'.Sublist l) (hs : SaneSolvers sv l) : SaneSolvers sv l' := fun a b hc =>
  hs a b (conflict_sub (fun _ hm => h.subset hm) hc)

/-- **C127**, the conflict rule: asked again about what it left, or about a part of it, it has nothing to remove. -/
theorem C127_rule (sv : Solvers) {s t : Matches} (hc : Clean s) (hp : DistinctMatches s.delegate) (hs : SaneSolvers sv s.delegate)
    (order : List Match → List Match) (ho : ∀ l, (order l).Perm l) (r : RuleRef) (ht : Clean t)
    (hsub : t.delegate.Sublist (executeRule listTruthy (conflictRule sv order) r s).state.delegate) : (conflictWhen sv t).2 = .ok [] := by
  obtain ⟨log, s', _, h2, h3, _, _, h6⟩ := C68_rule sv hc hp hs order ho r
  rw [h3.state] at hsub
  have hsub' : t.delegate.Sublist s.delegate := hsub.trans h6.1
  obtain ⟨log2, g1, _, g3⟩ := C68 sv ht (distinct_sublist hsub' hp) (sane_sublist hsub' hs)
  have hnot : ∀ m ∈ t.delegate, m ∉ log.map Prod.fst := fun m hm => (h6.2 m (hsub'.subset hm)).1 (hsub.subset hm)
  cases log2 with
  | nil => exact g1
  | cons e l =>
    exfalso
    obtain ⟨j1, j2⟩ := g3.justified e List.mem_cons_self
    have j1' := conflict_sub (fun _ hm => hsub'.subset hm) j1
    rcases j2 with j2 | j2
    · rcases h2.complete _ _ _ j1' j2 with h | h
      · exact hnot _ j1.left h
      · exact hnot _ j1.right h
    · have j3 : Conflict s.delegate e.2 e.1 := ⟨j1'.right, j1'.left, j1'.rightPublic, j1'.leftPublic, fun he => j1'.different he.symm,
        let ⟨i, a, b⟩ := j1'.overlap; ⟨i, b, a⟩⟩
      rcases h2.complete _ _ _ j3 j2 with h | h
      · exact hnot _ j1.right h
      · exact hnot _ j1.left h

theorem polite_sane {custom : Nat → Match → Match → Except PyErr SolverRet} (hp : PoliteSolvers custom) {l : List Match} (hl : ∀ m ∈ l, m.priv = false → 0 ≤ m.initLen) :
    SaneSolvers (.withDefault custom) l := by
  intro a b hc
  obtain ⟨x, h1, h2⟩ := askSolvers_polite hp (hl a hc.left hc.leftPublic) (hl b hc.right hc.rightPublic)
  rw [← askSolvers_decision, h1]
  rcases h2 with rfl | rfl | rfl | rfl <;> simp

/-- **C127**: the default rules, run again on the result of `matches()`, leave it as it is: when no two matches found are equal, whatever the conflict solvers. -/
theorem C127_partial {env : Env (List Match)} {custom : Nat → Match → Match → Except PyErr SolverRet} {order : List Match → List Match}
    (hrule : env.rule = defaultRule (.withDefault custom) order) (ho : ∀ l, (order l).Perm l) (hpol : PoliteSolvers custom) (ht : env.truthy = listTruthy)
    (hk : env.checkKeys = false) {r : RebulkObj Ctx} (hr : DefaultRulesOnly r) (input : Str) (ctx : Ctx) (hd : r.disabled ctx = false) {ts : List MTree}
    (hc : Collects env.lower ctx input (r.effectivePatterns ctx) ts) (hne : NoEqual (rootsOf false ts))
    (hpos : ∀ m ∈ rootsOf false ts, m.priv = false → m.start < m.stop ∧ 0 ≤ m.initLen) :
    ∃ f f', r.matches_ env input ctx = .ok f ∧ r.executeRules env ctx f = .ok f' ∧ f'.found.delegate = f.found.delegate ∧ f'.markers = f.markers := by
  obtain ⟨F, h1, h2, h3, h4, h5⟩ := searchPatterns_collects hc (gathering_empty input (r.effectiveKeys ctx))
  have h4 : F.found.delegate.map content = (rootsOf false ts).map content := h4
  have hno : NoEqual F.found.delegate := noEqual_content h4 hne
  have hclean : Clean F.found := ⟨h2.foundTidy.inv, h2.foundTidy.exact_, hno⟩
  have hdm : DistinctMatches F.found.delegate := by
    refine ⟨hno, (List.nodup_append.1 h2.nodup).1, ?_⟩
    intro m hm hp
    obtain ⟨x, hx, he⟩ := content_mem h4 hm
    rw [← content_start he, ← content_stop he]; exact (hpos x hx ((content_priv he).trans hp)).1
  have hsane : SaneSolvers (.withDefault custom) F.found.delegate := polite_sane hpol (fun m hm hp => by
    obtain ⟨x, hx, he⟩ := content_mem h4 hm
    rw [← content_initLen he]; exact (hpos x hx ((content_priv he).trans hp)).2)
  obtain ⟨a, b, hab⟩ := defaultRules_effective hr ctx
  obtain ⟨d1, _⟩ := default_does hrule ho ht hab hd h2.foundTidy
  obtain ⟨log, s', l1, _, l3, l4, _, l6⟩ := C68_rule (.withDefault custom) hclean hdm hsane order ho ⟨a, 0⟩
  obtain ⟨f, m1, m2, m3, m4⟩ := d1 _ l1
  obtain ⟨c1, _⟩ := conflict_exec (.withDefault custom) ho h2.foundTidy ⟨a, 0⟩
  obtain ⟨_, c2, _⟩ := c1 _ l1
  rw [l3.state] at c2
  have hsep : ∀ p ∈ s'.delegate, ∀ q ∈ s'.delegate, p.priv = true → q.priv = false → q.eqv p = false := by
    intro p hp q hq hpp hqp
    cases he : q.eqv p with
    | false => rfl
    | true =>
      have := noEqual_eq l4.noEqual hq hp he
      subst this
      rw [hpp] at hqp; cases hqp
  obtain ⟨s2, k1, k2, _, _, k5⟩ := C70_lookups l4.tidy hsep ⟨b, 1⟩
  have hres : f.found.delegate = s'.delegate.filter (fun m => !m.priv) := by
    obtain ⟨_, p2, _⟩ := private_exec l4.tidy ⟨b, 1⟩
    rw [k1.state, k5] at p2
    rw [p2, m2]
    unfold ruled privateWhen
    rw [← c2]
  have hsub : f.found.delegate.Sublist s'.delegate := by rw [hres]; exact List.filter_sublist
  have hfclean : Clean f.found := ⟨m4.inv, m4.exact_, List.Pairwise.sublist (hsub.trans l6.1) hno⟩
  have hagain := C127_rule (.withDefault custom) hclean hdm hsane order ho ⟨a, 0⟩ hfclean (by rw [l3.state]; exact hsub)
  obtain ⟨e1, _⟩ := default_does hrule ho ht hab hd m4
  obtain ⟨f', n1, n2, n3, _⟩ := e1 _ hagain
  refine ⟨f, f', (matches_found hk hd h1).trans m1, n1, ?_, n3⟩
  rw [n2]
  have : (f.found.delegate.filter (fun m => m.priv)) = [] := by
    rw [hres, List.filter_filter]
    exact List.filter_eq_nil_iff.2 (fun m _ => by cases m.priv <;> simp)
  unfold ruled
  simp only [List.foldl_nil, this]

theorem ordinary_sublist {l l' : List Match} (h : l'.Sublist l) (ho : Ordinary l) : Ordinary l' :=
  ⟨ho.identities.sublist (h.map _), fun m hm => ho.nonEmpty m (h.subset hm), fun m hm => ho.noSolver m (h.subset hm), fun m hm => ho.noParent m (h.subset hm),
   fun a ha b hb => ho.equalAlike a (h.subset ha) b (h.subset hb)⟩

open Classical in
/-- What the default rules leave of ordinary matches. -/
theorem ordinary_run {env : Env (List Match)} {custom : Nat → Match → Match → Except PyErr SolverRet} {order : List Match → List Match}
    (hrule : env.rule = defaultRule (.withDefault custom) order) (ho : ∀ l, (order l).Perm l) (ht : env.truthy = listTruthy)
    {r : RebulkObj Ctx} (hr : DefaultRulesOnly r) {ctx : Ctx} (hd : r.disabled ctx = false) {F : Found} (h : Tidy F.found) (hord : Ordinary F.found.delegate) :
    ∃ f, r.executeRules env ctx F = .ok f ∧ Tidy f.found ∧ f.markers = F.markers ∧
      f.found.delegate = (F.found.delegate.filter (fun m => decide (¬ LosesToLonger F.found.delegate m))).filter (fun m => !m.priv) := by
  obtain ⟨a, b, hab⟩ := defaultRules_effective hr ctx
  obtain ⟨d1, _⟩ := default_does hrule ho ht hab hd h
  obtain ⟨s1, g1, g2, _, g4⟩ := C67_equal_matches custom h hord order ho ⟨a, 0⟩
  obtain ⟨c1, c2⟩ := conflict_exec (.withDefault custom) ho h ⟨a, 0⟩
  cases hw : (conflictWhen (.withDefault custom) F.found).2 with
  | error e => have := c2 e hw; rw [g1.err] at this; cases this
  | ok set =>
    obtain ⟨f, m1, m2, m3, m4⟩ := d1 set hw
    obtain ⟨_, q2, _⟩ := c1 set hw
    rw [g1.state] at q2
    have hsep : ∀ p ∈ s1.delegate, ∀ q ∈ s1.delegate, p.priv = true → q.priv = false → q.eqv p = false := by
      intro p hp q hq hpp hqp
      rw [g4] at hp hq
      cases he : q.eqv p with
      | false => rfl
      | true =>
        have := hord.equalAlike q (List.mem_filter.1 hq).1 p (List.mem_filter.1 hp).1 he
        rw [hpp, hqp] at this; cases this
    obtain ⟨s2, k1, _, _, _, k5⟩ := C70_lookups g2 hsep ⟨b, 1⟩
    obtain ⟨_, p2, _⟩ := private_exec g2 ⟨b, 1⟩
    rw [k1.state, k5] at p2
    refine ⟨f, m1, m4, m3, ?_⟩
    rw [← g4, p2, m2]
    unfold ruled privateWhen
    rw [← q2]

open Classical in
/-- **C127** with equal matches allowed, when they are ordinary ones. -/
theorem C127_ordinary {env : Env (List Match)} (henv : DefaultEnv env) {r : RebulkObj Ctx} (hr : DefaultRulesOnly r) (input : Str) (ctx : Ctx)
    (hd : r.disabled ctx = false) {ts : List MTree} (hc : Collects env.lower ctx input (r.effectivePatterns ctx) ts) (ho : OrdinaryFound (rootsOf false ts)) :
    ∃ f f', r.matches_ env input ctx = .ok f ∧ r.executeRules env ctx f = .ok f' ∧ f'.found.delegate = f.found.delegate ∧ f'.markers = f.markers := by
  obtain ⟨custom, order, hrule, hord⟩ := henv.rule
  obtain ⟨F, h1, h2, h3, h4, h5⟩ := searchPatterns_collects hc (gathering_empty input (r.effectiveKeys ctx))
  have h4 : F.found.delegate.map content = (rootsOf false ts).map content := h4
  have hO := ordinary_of_found h4 (List.nodup_append.1 h2.nodup).1 ho
  obtain ⟨f, f1, f2, f3, f4⟩ := ordinary_run hrule hord henv.truthy hr hd h2.foundTidy hO
  have hsub : f.found.delegate.Sublist F.found.delegate := by rw [f4]; exact List.filter_sublist.trans List.filter_sublist
  obtain ⟨f', g1, g2, g3, g4⟩ := ordinary_run hrule hord henv.truthy hr hd f2 (ordinary_sublist hsub hO)
  refine ⟨f, f', (matches_found henv.unchecked hd h1).trans f1, g1, ?_, g3⟩
  rw [g4]
  have hmem : ∀ m ∈ f.found.delegate, ¬ LosesToLonger f.found.delegate m ∧ m.priv = false := by
    intro m hm
    have hm' := hm
    rw [f4] at hm'
    obtain ⟨h, hp⟩ := List.mem_filter.1 hm'
    refine ⟨fun ⟨x, c, hc, y⟩ => of_decide_eq_true (List.mem_filter.1 h).2 ⟨x, c, hsub.subset hc, y⟩, by simpa using hp⟩
  rw [List.filter_eq_self.2 (fun m hm => decide_eq_true (hmem m hm).1), List.filter_eq_self.2 (fun m hm => by simp [(hmem m hm).2])]

/-- The hypotheses of the first theorem are met, with a conflict solver that drops the longer match and conflicts of three matches. -/
example : let env : Env (List Match) := { exEnv with rule := defaultRule (.withDefault (fun _ a _ => .ok (.drop a))) List.reverse }
    let r := exRebulk [exPattern 1 {} ["ab"], exPattern 2 { solver := some 0 } ["bcd"]] [exPattern 4 {} ["def"], exPattern 3 { priv := true } ["c"]]
    PoliteSolvers (fun _ a _ => .ok (.drop a)) ∧
    (∃ ts, Collects env.lower () "abcdef".toList (r.effectivePatterns ()) ts ∧ NoEqual (rootsOf false ts) ∧
      ∀ m ∈ rootsOf false ts, m.priv = false → m.start < m.stop ∧ 0 ≤ m.initLen) ∧
    ∃ f, r.matches_ env "abcdef".toList () = .ok f ∧ f.found.delegate.map Match.span = [(0, 2), (3, 6)] :=
  ⟨fun _ _ _ => .inr (.inr (.inl rfl)), ⟨_, .enabled rfl rfl (.enabled rfl rfl (.enabled rfl rfl (.enabled rfl rfl .nil))), by unfold NoEqual; decide, by decide⟩,
    _, rfl, by decide⟩

/-- **C127** is false when a private and a public match are equal: run again, the rules remove one more match. -/
theorem C127_refuted : ∃ (r : RebulkObj Unit) (input : Str) (f f' : Found), DefaultRulesOnly r ∧ r.matches_ exEnv input () = .ok f ∧
    r.executeRules exEnv () f = .ok f' ∧ f.found.delegate.map Match.span = [(0, 2), (0, 5)] ∧ f'.found.delegate.map Match.span = [(0, 5)] :=
  ⟨exRebulk [exPattern 1 { priv := true } ["ab"], exPattern 2 {} ["ab"], exPattern 3 { priv := true } ["abcde"], exPattern 4 {} ["abcde"]] [],
    "abcde".toList, _, _, exRebulk_default _ _, rfl, rfl, by decide, by decide⟩

end Rebulk
