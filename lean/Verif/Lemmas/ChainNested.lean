import Verif.Lemmas.ChainOrder
/-!
# Strings, regular expressions and chains as parts of chains
-/
namespace Rebulk
open Spec

theorem processMatch_span {s : Str} {t : MTree} (p : Pattern) (idx : Nat) (child : Bool) (h : Nested s t) :
    Nested s (p.processMatch idx child t).1 ∧ (p.processMatch idx child t).1.root.ancestors = t.root.ancestors ∧
      (p.processMatch idx child t).1.root.matchIndex = idx ∧ (p.processMatch idx child t).1.root.start = t.root.start ∧
      (p.processMatch idx child t).1.root.stop = t.root.stop := by
  obtain ⟨_, h2, h3, h4, h5⟩ := configure_inText (p := p) (idx := idx) (child := child) (nested_iff.1 h).1
  exact ⟨nested_configure p idx child h, h2, h3, h4, h5⟩

theorem processMatches_nested {p : Pattern} (hn : NoProcessors p) {idx : Nat} {t : MTree} {s : Str} (h : Nested s t) :
    ∃ out, p.processMatches idx t = .ok out ∧ ∀ x ∈ out, Nested s x ∧ x.root.matchIndex = idx ∧ Within t.root.start t.root.stop x := by
  have hkeep : ∀ t : MTree, Nested s t → Pattern.keepGoing (Pattern.processProcessor none t) = .ok (some t) :=
    fun t ht => keepGoing_pos (nested_iff.1 ht).1.nonempty
  unfold Pattern.processMatches Pattern.processMatchesWith
  rw [hn.1, hkeep t h, hn.2.1]
  simp only
  obtain ⟨h1, h2, h3, h4, h5⟩ := processMatch_span p idx false h
  cases hpm : p.processMatch idx false t with
  | mk t1 ok =>
    rw [hpm] at h1 h2 h3 h4 h5
    simp only at h1 h2 h3 h4 h5
    cases ok with
    | false => exact ⟨[], rfl, by simp⟩
    | true =>
      simp only
      rw [processChildren_eq]
      by_cases hall : t1.children.all (fun c => (p.processMatch idx true c).2) = true
      · rw [if_pos hall]
        simp only
        have h1' := nested_iff.1 h1
        have hk : ∀ k ∈ configuredChildren p idx t1.children, Nested s k ∧ k.root.matchIndex = idx ∧ Within t1.root.start t1.root.stop k := by
          intro k hk
          obtain ⟨k0, hk0, rfl⟩ := List.mem_map.1 hk
          obtain ⟨w, n⟩ := h1'.2 k0 hk0
          obtain ⟨g1, _, g3, g4, g5⟩ := processMatch_span p idx true n
          refine ⟨g1, g3, ?_⟩
          unfold Within
          rw [g4, g5]; exact w
        have hT : Nested s (.node t1.root (configuredChildren p idx t1.children)) :=
          nested_iff.2 ⟨h1'.1, fun k hk' => ⟨(hk k hk').2.2, (hk k hk').1⟩⟩
        rw [hkeep _ hT]
        refine ⟨_, rfl, ?_⟩
        intro x hx
        rw [← h4, ← h5]
        rcases emitted_sub hx with rfl | hxc
        · exact ⟨hT, h3, Int.le_refl _, Int.le_refl _⟩
        · exact hk x hxc
      · rw [if_neg hall]
        exact ⟨[], rfl, by simp⟩

theorem processRaws_nested {p : Pattern} (hn : NoProcessors p) {s : Str} :
    ∀ (l : List MTree) (k : Nat), (∀ t ∈ l, Nested s t) → ∃ out, Pattern.processRaws p.processMatches k l = .ok out ∧
      ∀ x ∈ out, Nested s x ∧ ∃ (i : Nat) (t : MTree), l[i]? = some t ∧ x.root.matchIndex = k + i ∧ Within t.root.start t.root.stop x
  | [], k, _ => ⟨[], rfl, by simp⟩
  | t :: l, k, h => by
    obtain ⟨o1, e1, h1⟩ := processMatches_nested hn (idx := k) (h t (by simp))
    obtain ⟨o2, e2, h2⟩ := processRaws_nested hn l (k + 1) (fun t ht => h t (List.mem_cons_of_mem _ ht))
    refine ⟨o1 ++ o2, by simp only [Pattern.processRaws, e1, e2], ?_⟩
    intro x hx
    rcases List.mem_append.1 hx with hx | hx
    · obtain ⟨a1, a2, a3⟩ := h1 x hx
      exact ⟨a1, 0, t, rfl, a2, a3⟩
    · obtain ⟨a1, i, t', a2, a3, a4⟩ := h2 x hx
      exact ⟨a1, i + 1, t', by simpa using a2, by omega, a4⟩

/-- One sub-pattern whose raw matches are nested, separate and in order gives a tidy part. -/
theorem tidy_of_raws {p : Pattern} (hn : NoProcessors p)
    {raw : Str → Except PyErr (List MTree)} (hinv : ∀ s, raw s ≠ .error .invalidChain) (hdiv : ∀ s, raw s ≠ .error .diverges)
    (hraw : ∀ s l, raw s = .ok l → (∀ t ∈ l, Nested s t ∧ t.root.ancestors = []) ∧ LeftToRight l)
    {search : Str → Except PyErr (List MTree × List MTree)} (hs : ∀ s, search s = oneSearch p raw s)
    (start : Int) (stop : Option Int) (hidden : Bool) :
    TidyPart { search := search, start := start, stop := stop, hidden := hidden } := by
  have key : ∀ s em raws, search s = .ok (em, raws) → ∃ l, raw s = .ok l ∧ raws = l.mapIdx (p.rawAfter p.processMatch) ∧
      ∀ x ∈ em, Nested s x ∧ ∃ (i : Nat) (t : MTree), l[i]? = some t ∧ x.root.matchIndex = i ∧ Within t.root.start t.root.stop x := by
    intro s em raws h
    rw [hs s] at h
    unfold oneSearch at h
    cases hr : raw s with
    | error e => rw [hr] at h; cases h
    | ok l =>
      rw [hr] at h
      simp only [collectRaws, Pattern.matchesWithRaws, Pattern.processAll] at h
      obtain ⟨out, ho, hx⟩ := processRaws_nested hn l 0 (fun t ht => ((hraw s l hr).1 t ht).1)
      have ho : Pattern.processRaws (p.processMatchesWith p.processMatch) 0 l = .ok out := ho
      rw [ho] at h
      simp only [Pattern.postProcess, hn.2.2, List.append_nil, List.flatMap_cons, List.flatMap_nil, Except.ok.injEq, Prod.mk.injEq] at h
      obtain ⟨rfl, rfl⟩ := h
      refine ⟨l, rfl, rfl, ?_⟩
      intro x hx'
      obtain ⟨a1, i, t, a2, a3, a4⟩ := hx x hx'
      exact ⟨a1, i, t, a2, by omega, a4⟩
  have after : ∀ s (t : MTree) i, Nested s t → t.root.ancestors = [] → InText s (p.rawAfter p.processMatch i t).root ∧
      (p.rawAfter p.processMatch i t).root.ancestors = [] ∧ (p.rawAfter p.processMatch i t).root.matchIndex = i ∧
      (p.rawAfter p.processMatch i t).root.start = t.root.start ∧ (p.rawAfter p.processMatch i t).root.stop = t.root.stop := by
    intro s t i ht ha
    have hne := (nested_iff.1 ht).1.nonempty
    have htr : t.root.truthy? = .ok true := by
      unfold Match.truthy?
      rw [if_neg (by omega)]
      simp; omega
    have : p.rawAfter p.processMatch i t = (p.processMatch i false t).1 := by
      unfold Pattern.rawAfter
      rw [hn.1]
      simp only [Pattern.processProcessor, htr]
    rw [this]
    obtain ⟨h1, h2, h3, h4, h5⟩ := processMatch_span p i false ht
    exact ⟨(nested_iff.1 h1).1, by rw [h2, ha], h3, h4, h5⟩
  have noerr : ∀ s e, (∀ s, raw s ≠ .error e) → search s ≠ .error e := by
    intro s e hne
    rw [hs s]
    unfold oneSearch
    cases hr : raw s with
    | error e' => have := hne s; rw [hr] at this; simpa [collectRaws] using this
    | ok l =>
      simp only [collectRaws, Pattern.matchesWithRaws, Pattern.processAll]
      obtain ⟨out, ho, hx⟩ := processRaws_nested hn l 0 (fun t ht => ((hraw s l hr).1 t ht).1)
      have ho : Pattern.processRaws (p.processMatchesWith p.processMatch) 0 l = .ok out := ho
      rw [ho]; simp
  refine ⟨⟨fun s => noerr s _ hinv, fun s => noerr s _ hdiv, ?_, ?_⟩, ?_, ?_⟩
  · intro s em raws h
    obtain ⟨l, hl, rfl, _⟩ := key s em raws h
    obtain ⟨hl1, hl2⟩ := hraw s l hl
    have get : ∀ (i : Nat) (r : MTree), (l.mapIdx (p.rawAfter p.processMatch))[i]? = some r →
        ∃ t, l[i]? = some t ∧ t ∈ l ∧ r = p.rawAfter p.processMatch i t := by
      intro i r hr
      rw [List.getElem?_mapIdx] at hr
      cases ht : l[i]? with
      | none => rw [ht] at hr; cases hr
      | some t => rw [ht] at hr; cases hr; exact ⟨t, rfl, List.mem_of_getElem? ht, rfl⟩
    have mem : ∀ r ∈ l.mapIdx (p.rawAfter p.processMatch), ∃ i t, t ∈ l ∧ r = p.rawAfter p.processMatch i t := by
      intro r hr
      obtain ⟨i, hi⟩ := List.getElem?_of_mem hr
      obtain ⟨t, _, ht, he⟩ := get i r hi
      exact ⟨i, t, ht, he⟩
    refine ⟨?_, ?_, ?_, ?_⟩
    · intro r hr
      obtain ⟨i, t, ht, rfl⟩ := mem r hr
      exact (after s t i (hl1 t ht).1 (hl1 t ht).2).1
    · intro r hr
      obtain ⟨i, t, ht, rfl⟩ := mem r hr
      exact (after s t i (hl1 t ht).1 (hl1 t ht).2).2.1
    · rw [List.pairwise_iff_getElem]
      intro i j hi hj hij
      have hi' : i < l.length := by simpa using hi
      have hj' : j < l.length := by simpa using hj
      have ai := after s l[i] i (hl1 _ (List.getElem_mem hi')).1 (hl1 _ (List.getElem_mem hi')).2
      have aj := after s l[j] j (hl1 _ (List.getElem_mem hj')).1 (hl1 _ (List.getElem_mem hj')).2
      rw [List.getElem_mapIdx, List.getElem_mapIdx, ai.2.2.2.2, aj.2.2.2.1]
      exact (List.pairwise_iff_getElem.1 hl2) i j hi' hj' hij
    · intro i r hr
      obtain ⟨t, _, ht, rfl⟩ := get i r hr
      exact (after s t i (hl1 t ht).1 (hl1 t ht).2).2.2.1
  · intro s em raws h e he
    have := ((key s em raws h).choose_spec.2.2 e he).1
    have := nested_iff.1 this
    exact ⟨this.1, fun k hk => (nested_iff.1 (this.2 k hk).2).1⟩
  · intro s em raws h e he
    exact ((key s em raws h).choose_spec.2.2 e he).1
  · intro s em raws h e he
    obtain ⟨l, hl, rfl, hx⟩ := key s em raws h
    obtain ⟨hl1, _⟩ := hraw s l hl
    obtain ⟨_, i, t, ht, hi, hw⟩ := hx e he
    have htm := List.mem_of_getElem? ht
    obtain ⟨_, _, a3, a4, a5⟩ := after s t i (hl1 t htm).1 (hl1 t htm).2
    refine ⟨p.rawAfter p.processMatch i t, ?_, by rw [a3, hi], by rw [a4, a5]; exact hw⟩
    apply List.mem_of_getElem? (i := i)
    rw [List.getElem?_mapIdx, ht]; rfl

/-- A part made of one non-empty string. -/
theorem tidy_string (id : Nat) (o : PatternOpts) (hpre : o.preMatch = none) (hpost : o.postMatch = none) (hpp : o.postProcessor = none)
    (lower : Str → Str) (so : StringOpts) (hic : so.ignoreCase = false) (sub : Str) (hsub : sub ≠ [])
    (start : Int) (stop : Option Int) (hidden : Bool) :
    TidyPart { search := (Pattern.init id o).partOfString lower so [sub], start := start, stop := stop, hidden := hidden } := by
  have main : ∀ s, ∃ l, (Pattern.init id o).matchString lower so s sub = .ok l ∧ (∀ t ∈ l, Nested s t ∧ t.root.ancestors = []) ∧ LeftToRight l := by
    intro s
    obtain ⟨l, h1, h2, h3⟩ := string_raws id o lower so hic sub hsub s
    refine ⟨l, h1, ?_, h3⟩
    intro t ht
    obtain ⟨h4, h5, h6⟩ := h2 t ht
    exact ⟨nested_iff.2 ⟨h4.root, by rw [h5]; simp⟩, h6⟩
  exact tidy_of_raws (p := Pattern.init id o) ⟨hpre, hpost, hpp⟩ (raw := fun s => (Pattern.init id o).matchString lower so s sub)
    (fun s => by obtain ⟨l, h, _⟩ := main s; simp [h]) (fun s => by obtain ⟨l, h, _⟩ := main s; simp [h])
    (fun s l h => by
      obtain ⟨l', h', h2⟩ := main s
      have h : (Pattern.init id o).matchString lower so s sub = .ok l := h
      rw [h'] at h
      cases h
      exact h2) (fun s => rfl) start stop hidden

theorem reChildren_within {p : Pattern} {rc : Bool} {s : Str} {main : Match} {a b : Int} : ∀ {names : List (Option String)} {gs : List ReGroup},
    (∀ g ∈ gs, ∀ sp ∈ g.used rc, a ≤ sp.1 ∧ sp.2 ≤ b) → ∀ k ∈ p.reChildren rc s main names gs, a ≤ k.start ∧ k.stop ≤ b
  | [], _, _, k, hk => by simp [Pattern.reChildren] at hk
  | _ :: _, [], _, k, hk => by simp [Pattern.reChildren] at hk
  | n :: ns, g :: gs, h, k, hk => by
    unfold Pattern.reChildren at hk
    rcases List.mem_append.1 hk with hk | hk
    · obtain ⟨hk, _⟩ := List.mem_filter.1 hk
      obtain ⟨sp, hsp, rfl⟩ := List.mem_map.1 hk
      exact h g (by simp) sp hsp
    · exact reChildren_within (fun g hg => h g (List.mem_cons_of_mem _ hg)) k hk

theorem reMatch_nested {p : Pattern} (hm : p.opts.marker = false) {rc : Bool} {names : List (Option String)} {s : Str} {o : ReObj}
    (h1 : 0 ≤ o.start ∧ o.start ≤ o.stop ∧ o.stop ≤ s.length)
    (h2 : ∀ g ∈ o.groups, ∀ sp ∈ g.used rc, 0 ≤ sp.1 ∧ sp.1 ≤ sp.2 ∧ sp.2 ≤ s.length)
    (h3 : ∀ g ∈ o.groups, ∀ sp ∈ g.used rc, o.start ≤ sp.1 ∧ sp.2 ≤ o.stop) {l : List MTree} (h : p.reMatch rc names s o = .ok l) :
    ∀ t ∈ l, Nested s t := by
  obtain ⟨l', e, hc⟩ := reMatch_in hm (names := names) h1 h2
  rw [h] at e
  cases e
  intro t ht
  rcases hc with rfl | ⟨t', rfl, hin, _, hs, he⟩
  · cases ht
  · rw [List.mem_singleton] at ht; subst ht
    refine nested_iff.2 ⟨hin.root, ?_⟩
    intro k hk
    refine ⟨?_, nested_iff.2 ⟨(hin.child k hk).1, by rw [(hin.child k hk).2]; simp⟩⟩
    unfold Pattern.reMatch at h
    simp only at h
    split at h
    · cases h
    · split at h
      · cases h
        obtain ⟨c, hc, rfl⟩ := List.mem_map.1 hk
        exact reChildren_within h3 c hc
      · cases h

theorem matchRegex_nested {p : Pattern} (hm : p.opts.marker = false) {rc : Bool} {re : Regex} {s : Str} : ∀ {os : List ReObj} {l : List MTree},
    (∀ o ∈ os, 0 ≤ o.start ∧ o.start ≤ o.stop ∧ o.stop ≤ s.length) →
    (∀ o ∈ os, ∀ g ∈ o.groups, ∀ sp ∈ g.used rc, 0 ≤ sp.1 ∧ sp.1 ≤ sp.2 ∧ sp.2 ≤ s.length) →
    (∀ o ∈ os, ∀ g ∈ o.groups, ∀ sp ∈ g.used rc, o.start ≤ sp.1 ∧ sp.2 ≤ o.stop) →
    Pattern.matchRegex.go p rc re s os = .ok l → ∀ t ∈ l, Nested s t
  | [], l, _, _, _, h => by cases h; simp
  | o :: os, l, h1, h2, h3, h => by
    unfold Pattern.matchRegex.go at h
    split at h
    · cases h
    · rename_i l1 hl1
      split at h
      · cases h
      · rename_i l2 hl2
        cases h
        intro t ht
        rcases List.mem_append.1 ht with ht | ht
        · exact reMatch_nested hm (h1 o (by simp)) (h2 o (by simp)) (h3 o (by simp)) hl1 t ht
        · exact matchRegex_nested hm (fun o ho => h1 o (List.mem_cons_of_mem _ ho)) (fun o ho => h2 o (List.mem_cons_of_mem _ ho))
            (fun o ho => h3 o (List.mem_cons_of_mem _ ho)) hl2 t ht

/-- A part made of one regular expression whose groups lie within its matches. -/
theorem tidy_regex (id : Nat) (o : PatternOpts) (hm : o.opts.marker = false) (hpre : o.preMatch = none) (hpost : o.postMatch = none)
    (hpp : o.postProcessor = none) (rc : Bool) (re : Regex) (hre : ScansText re) (hgi : GroupsInside re) (start : Int) (stop : Option Int) (hidden : Bool) :
    TidyPart { search := (Pattern.init id o).partOfRegex rc [re], start := start, stop := stop, hidden := hidden } := by
  have main : ∀ s, ∃ l, (Pattern.init id o).matchRegex rc re s = .ok l ∧ (∀ t ∈ l, Nested s t ∧ t.root.ancestors = []) ∧ LeftToRight l := by
    intro s
    obtain ⟨l, h1, h2, h3, _⟩ := matchRegex_in (p := Pattern.init id o) (re := re) hm (rc := rc) (hre.inText s) (hre.ordered s)
      (fun o ho g hg => hre.groups s o ho g hg rc)
    exact ⟨l, h1, fun t ht => ⟨matchRegex_nested hm (hre.inText s) (fun o ho g hg => hre.groups s o ho g hg rc)
      (fun o ho g hg => hgi s o ho g hg rc) h1 t ht, (h2 t ht).2⟩, h3⟩
  exact tidy_of_raws (p := Pattern.init id o) ⟨hpre, hpost, hpp⟩ (raw := fun s => (Pattern.init id o).matchRegex rc re s)
    (fun s => by obtain ⟨l, h, _⟩ := main s; simp [h]) (fun s => by obtain ⟨l, h, _⟩ := main s; simp [h])
    (fun s l h => by
      obtain ⟨l', h', h2⟩ := main s
      have h : (Pattern.init id o).matchRegex rc re s = .ok l := h
      rw [h'] at h
      cases h
      exact h2) (fun s => rfl) start stop hidden

/-! ## Chains in chains -/

theorem nextGroups_honest (c : Chain) (input : Str) (hidden : Bool) (groups : Dict Nat (List MTree)) : ∀ (gs : Dict Nat (List MTree)) (st : ChainSt),
    c.nextGroups input hidden groups gs st ≠ .error .invalidChain
  | [], st => by simp [Chain.nextGroups]
  | (i, raws) :: rest, st => by
    unfold Chain.nextGroups
    split
    · simp
    · simp only
      split
      · exact nextGroups_honest c input hidden groups rest _
      · split
        · rename_i e he
          unfold Chain.breakerEval at he
          split at he
          · cases he
          · split at he
            · cases he; simp
            · cases he
        · exact nextGroups_honest c input hidden groups rest _
        · exact nextGroups_honest c input hidden groups rest _

theorem runParts_honest (c : Chain) (input : Str) : ∀ (parts : List Part) (first : Bool) (st : ChainSt),
    c.runParts input first parts st ≠ .error .invalidChain
  | [], first, st => by simp [Chain.runParts]
  | part :: rest, first, st => by
    unfold Chain.runParts
    split
    · simp
    · rename_i e hne _
      intro h
      injection h with h
      exact absurd h (by rintro rfl; exact hne rfl)
    · split
      · rename_i e he
        unfold Chain.toNext at he
        simp only at he
        split at he
        · cases he
        · intro h; injection h with h; subst h; exact nextGroups_honest c input part.hidden _ _ _ he
      · exact runParts_honest c input rest false _

theorem loop_honest (c : Chain) (input : Str) : ∀ (fuel : Nat) (ci : Str) (o : Int) (acc : List MTree), c.loop input fuel ci o acc ≠ .error .invalidChain
  | 0, ci, o, acc => by unfold Chain.loop; split <;> simp
  | fuel + 1, ci, o, acc => by
    unfold Chain.loop
    split
    · split
      · rename_i e he
        intro h; injection h with h; subst h; exact runParts_honest c input _ _ _ he
      · split
        · simp
        · split
          · split
            · rename_i e he
              unfold Chain.build at he
              split at he
              · cases he; simp
              · simp only at he
                split at he
                · cases he; simp
                · cases he
            · exact loop_honest c input fuel _ _ _
          · exact loop_honest c input fuel _ _ _
    · simp

theorem chainProcess_valid {p : Pattern} (h : NoValidators p) : Chain.processMatch p = p.processMatch := by
  funext idx child t
  unfold Chain.processMatch
  have : (p.processMatch idx child t).2 = true := h child _
  cases hm : p.processMatch idx child t with
  | mk t1 b => rw [hm] at this; simp only at this; subst this; rfl

/-- A chain of tidy parts, without processors and validators, is itself a tidy part. -/
theorem tidy_chain (c : Chain) (hp : ∀ p ∈ c.parts, TidyPart p) (hn : NoProcessors c.pattern) (hv : NoValidators c.pattern)
    (start : Int) (stop : Option Int) (hidden : Bool) : TidyPart (c.part start stop hidden) := by
  refine tidy_of_raws (p := c.pattern) hn (raw := c.rawMatches) (fun s => loop_honest c s _ _ _ _) ?_ (fun s l h => rawMatches_order hp h) ?_ start stop hidden
  · intro s
    exact (loop_terminates c s (fun p h => (hp p h).regular.forwardSearch) s.length 0 s 0 [] (Or.inl ⟨rfl, rfl⟩) (by omega)).1
  · intro s
    unfold Chain.run oneSearch
    cases c.rawMatches s with
    | error e => rfl
    | ok l => rw [chainProcess_valid hv]; rfl

end Rebulk
