import Verif.Lemmas.Chain
import Verif.Props.Pattern
/-!
# Parts made of one string or one regular expression are regular
-/
namespace Rebulk
open Spec

theorem configure_shape (p : Pattern) (idx : Nat) (child : Bool) (m : Match) :
    ∃ pr l f, p.configure idx child m = { m with matchIndex := idx, priv := pr, lit := l, formatter := f } := by
  have hp : ∀ m : Match, ∃ pr, p.processPrivate child m = { m with priv := pr } := fun m => ⟨_, ite_priv _ m⟩
  have hv : ∀ m : Match, ∃ l, p.processValue child m = { m with lit := l } := fun m => ⟨_, ite_lit _ _ m⟩
  have hf : ∀ m : Match, ∃ f, p.processFormatter child m = { m with formatter := f } := fun m => ⟨_, ite_formatter _ _ m⟩
  unfold Pattern.configure
  obtain ⟨pr, h1⟩ := hp (Pattern.processIndex idx m)
  rw [h1]
  obtain ⟨l, h2⟩ := hv { Pattern.processIndex idx m with priv := pr }
  rw [h2]
  obtain ⟨f, h3⟩ := hf { Pattern.processIndex idx m with priv := pr, lit := l }
  exact ⟨pr, l, f, h3⟩

theorem configure_inText {p : Pattern} {idx : Nat} {child : Bool} {m : Match} {s : Str} (h : InText s m) :
    InText s (p.configure idx child m) ∧ (p.configure idx child m).ancestors = m.ancestors ∧ (p.configure idx child m).matchIndex = idx ∧
      (p.configure idx child m).start = m.start ∧ (p.configure idx child m).stop = m.stop := by
  obtain ⟨pr, l, f, he⟩ := configure_shape p idx child m
  rw [he]
  exact ⟨⟨h.lo, h.nonempty, h.hi, h.input, h.raw⟩, rfl, rfl, rfl, rfl⟩

/-- A match found in `s` whose children are found in `s` and have no children. -/
structure TreeIn (s : Str) (t : MTree) : Prop where
  root : InText s t.root
  child : ∀ k ∈ t.children, InText s k.root ∧ k.children = []

theorem sameButLinks_inText {s : Str} {a b : Match} (hs : SameButLinks a b) (h : InText s a) : InText s b := by
  unfold SameButLinks at hs
  cases a; cases b
  simp only [Match.mk.injEq] at hs
  obtain ⟨rfl, rfl, rfl, rfl, rfl, rfl, rfl, rfl, rfl, rfl, rfl, rfl, rfl, rfl, rfl, _⟩ := hs
  exact ⟨h.lo, h.nonempty, h.hi, h.input, h.raw⟩

theorem processMatch_in {p : Pattern} {idx : Nat} {child : Bool} {t : MTree} {s : Str} (h : TreeIn s t) :
    TreeIn s (p.processMatch idx child t).1 ∧ (p.processMatch idx child t).1.root.ancestors = t.root.ancestors ∧
      (p.processMatch idx child t).1.root.matchIndex = idx ∧ (p.processMatch idx child t).1.root.start = t.root.start ∧
      (p.processMatch idx child t).1.root.stop = t.root.stop := by
  obtain ⟨h1, h2, h3, h4, h5⟩ := configure_inText (p := p) (idx := idx) (child := child) h.root
  refine ⟨⟨h1, ?_⟩, h2, h3, h4, h5⟩
  intro k hk
  have hk : k ∈ (t.setRoot (p.configure idx child t.root)).children := hk
  rw [setRoot_children, List.mem_map] at hk
  obtain ⟨k0, hk0, rfl⟩ := hk
  refine ⟨sameButLinks_inText (relink_same _ _ _) (h.child k0 hk0).1, ?_⟩
  rw [relink_children, (h.child k0 hk0).2]; rfl

theorem emitted_sub {p : Pattern} {T x : MTree} (h : x ∈ p.emitted T) : x = T ∨ x ∈ T.children := by
  unfold Pattern.emitted at h
  rcases List.mem_append.1 h with h | h
  · split at h
    · rw [List.mem_singleton] at h; exact Or.inl h
    · cases h
  · split at h
    · exact Or.inr (List.mem_filter.1 h).1
    · cases h

theorem processMatches_in {p : Pattern} (hpre : p.preMatch = none) (hpost : p.postMatch = none) {idx : Nat} {t : MTree} {s : Str}
    (h : TreeIn s t) : ∃ out, p.processMatches idx t = .ok out ∧
      ∀ x ∈ out, (InText s x.root ∧ ∀ k ∈ x.children, InText s k.root) ∧
        (x.root.stop = t.root.stop ∨ p.children = true ∨ p.every = true ∨ p.privateChildren = true) ∧ x.root.matchIndex = idx := by
  have hkeep : ∀ t : MTree, TreeIn s t → Pattern.keepGoing (Pattern.processProcessor none t) = .ok (some t) :=
    fun t ht => keepGoing_pos ht.root.nonempty
  unfold Pattern.processMatches Pattern.processMatchesWith
  rw [hpre, hkeep t h, hpost]
  simp only
  obtain ⟨h1, h2, h3, h4, h5⟩ := processMatch_in (p := p) (idx := idx) (child := false) h
  cases hpm : p.processMatch idx false t with
  | mk t1 ok =>
    rw [hpm] at h1 h2 h3 h4 h5
    simp only at h1 h2 h3 h4 h5
    cases ok with
    | false => exact ⟨[], rfl, by simp⟩
    | true =>
      simp only
      rw [processChildren_eq]
      by_cases hall : t1.children.all (fun c => (p.processMatch idx true c).2) = true
      · rw [if_pos hall]
        simp only
        have hT : TreeIn s (.node t1.root (configuredChildren p idx t1.children)) := by
          refine ⟨h1.root, ?_⟩
          intro k hk
          obtain ⟨k0, hk0, rfl⟩ := List.mem_map.1 hk
          have hk1 := h1.child k0 hk0
          have := processMatch_in (p := p) (idx := idx) (child := true) (t := k0) (s := s) ⟨hk1.1, by rw [hk1.2]; simp⟩
          refine ⟨this.1.root, ?_⟩
          have hc : (p.processMatch idx true k0).1.children = (k0.setRoot (p.configure idx true k0.root)).children := rfl
          rw [hc, setRoot_children, hk1.2]; rfl
        rw [hkeep _ hT]
        refine ⟨_, rfl, ?_⟩
        intro x hx
        rcases emitted_sub hx with rfl | hxc
        · exact ⟨⟨hT.root, fun k hk => (hT.child k hk).1⟩, Or.inl h5, h3⟩
        · refine ⟨⟨(hT.child x hxc).1, by rw [(hT.child x hxc).2]; simp⟩, ?_, ?_⟩
          · unfold Pattern.emitted at hx
            rcases List.mem_append.1 hx with hx | hx
            · split at hx
              · rw [List.mem_singleton] at hx; subst hx; exact Or.inl h5
              · cases hx
            · split at hx
              · rename_i hinc
                simp only [Pattern.shouldIncludeChildren, Bool.or_eq_true] at hinc
                rcases hinc with (hinc | hinc) | hinc
                · exact Or.inr (Or.inl hinc)
                · exact Or.inr (Or.inr (Or.inl hinc))
                · exact Or.inr (Or.inr (Or.inr hinc))
              · cases hx
          · obtain ⟨k0, hk0, rfl⟩ := List.mem_map.1 hxc
            exact (processMatch_in (p := p) (idx := idx) (child := true) (t := k0) (s := s)
              ⟨(h1.child k0 hk0).1, by rw [(h1.child k0 hk0).2]; simp⟩).2.2.1
      · rw [if_neg hall]
        exact ⟨[], rfl, by simp⟩

theorem processRaws_in {p : Pattern} (hpre : p.preMatch = none) (hpost : p.postMatch = none) {s : Str} :
    ∀ (l : List MTree) (k : Nat), (∀ t ∈ l, TreeIn s t) → ∃ out, Pattern.processRaws p.processMatches k l = .ok out ∧
      ∀ x ∈ out, (InText s x.root ∧ ∀ k ∈ x.children, InText s k.root) ∧
        ∃ (i : Nat) (t : MTree), l[i]? = some t ∧ x.root.matchIndex = k + i ∧
          (x.root.stop = t.root.stop ∨ p.children = true ∨ p.every = true ∨ p.privateChildren = true)
  | [], k, _ => ⟨[], rfl, by simp⟩
  | t :: l, k, h => by
    obtain ⟨o1, e1, h1⟩ := processMatches_in hpre hpost (idx := k) (h t (by simp))
    obtain ⟨o2, e2, h2⟩ := processRaws_in hpre hpost l (k + 1) (fun t ht => h t (List.mem_cons_of_mem _ ht))
    refine ⟨o1 ++ o2, by simp only [Pattern.processRaws, e1, e2], ?_⟩
    intro x hx
    rcases List.mem_append.1 hx with hx | hx
    · obtain ⟨a1, a2, a3⟩ := h1 x hx
      exact ⟨a1, 0, t, rfl, a3, a2⟩
    · obtain ⟨a1, i, t', a2, a3, a4⟩ := h2 x hx
      exact ⟨a1, i + 1, t', by simpa using a2, by omega, a4⟩

/-- The search of a part whose pattern has one sub-pattern with raw matches `raw`. -/
def oneSearch (p : Pattern) (raw : Str → Except PyErr (List MTree)) (s : Str) : Except PyErr (List MTree × List MTree) :=
  match collectRaws [raw s] with
  | .error e => .error e
  | .ok raws => p.matchesWithRaws p.processMatch raws

/-- One sub-pattern whose raw matches are separate and in order gives a regular part. -/
theorem regular_of_raws {p : Pattern} (hpre : p.preMatch = none) (hpost : p.postMatch = none) (hpp : p.postProcessor = none)
    {raw : Str → Except PyErr (List MTree)} (hinv : ∀ s, raw s ≠ .error .invalidChain) (hdiv : ∀ s, raw s ≠ .error .diverges)
    (hraw : ∀ s l, raw s = .ok l → (∀ t ∈ l, TreeIn s t ∧ t.root.ancestors = []) ∧ l.Pairwise (fun a b => a.root.stop ≤ b.root.start))
    (start : Int) (stop : Option Int) (hidden : Bool) :
    let part : Part := { search := oneSearch p raw, start := start, stop := stop, hidden := hidden }
    RegularPart part ∧
      (p.children = false → p.every = false → p.privateChildren = false → (∃ e, stop = some e ∧ e ≤ 1) → WholeOnce part) := by
  intro part
  have key : ∀ s em raws, part.search s = .ok (em, raws) → ∃ l, raw s = .ok l ∧ raws = l.mapIdx (p.rawAfter p.processMatch) ∧
      ∀ x ∈ em, (InText s x.root ∧ ∀ k ∈ x.children, InText s k.root) ∧
        ∃ (i : Nat) (t : MTree), l[i]? = some t ∧ x.root.matchIndex = i ∧
          (x.root.stop = t.root.stop ∨ p.children = true ∨ p.every = true ∨ p.privateChildren = true) := by
    intro s em raws h
    have h : oneSearch p raw s = .ok (em, raws) := h
    unfold oneSearch at h
    cases hr : raw s with
    | error e => rw [hr] at h; cases h
    | ok l =>
      rw [hr] at h
      simp only [collectRaws, Pattern.matchesWithRaws, Pattern.processAll] at h
      obtain ⟨out, ho, hx⟩ := processRaws_in hpre hpost l 0 (fun t ht => ((hraw s l hr).1 t ht).1)
      have ho : Pattern.processRaws (p.processMatchesWith p.processMatch) 0 l = .ok out := ho
      rw [ho] at h
      simp only [Pattern.postProcess, hpp, List.append_nil, List.flatMap_cons, List.flatMap_nil, Except.ok.injEq, Prod.mk.injEq] at h
      obtain ⟨rfl, rfl⟩ := h
      refine ⟨l, rfl, rfl, ?_⟩
      intro x hx'
      obtain ⟨a1, i, t, a2, a3, a4⟩ := hx x hx'
      exact ⟨a1, i, t, a2, by omega, a4⟩
  have after : ∀ s (t : MTree) i, TreeIn s t → t.root.ancestors = [] → InText s (p.rawAfter p.processMatch i t).root ∧
      (p.rawAfter p.processMatch i t).root.ancestors = [] ∧ (p.rawAfter p.processMatch i t).root.matchIndex = i ∧
      (p.rawAfter p.processMatch i t).root.start = t.root.start ∧ (p.rawAfter p.processMatch i t).root.stop = t.root.stop := by
    intro s t i ht ha
    have hne := ht.root.nonempty
    have htr : t.root.truthy? = .ok true := by
      unfold Match.truthy?
      rw [if_neg (by omega)]
      simp; omega
    have : p.rawAfter p.processMatch i t = (p.processMatch i false t).1 := by
      unfold Pattern.rawAfter
      rw [hpre]
      simp only [Pattern.processProcessor, htr]
    rw [this]
    obtain ⟨h1, h2, h3, h4, h5⟩ := processMatch_in (p := p) (idx := i) (child := false) ht
    exact ⟨h1.root, by rw [h2, ha], h3, h4, h5⟩
  refine ⟨⟨?_, ?_, ?_, fun s em raws h e he => ((key s em raws h).choose_spec.2.2 e he).1⟩, ?_⟩
  · intro s
    show oneSearch p raw s ≠ .error .invalidChain
    unfold oneSearch
    cases hr : raw s with
    | error e => have := hinv s; rw [hr] at this; simpa [collectRaws] using this
    | ok l =>
      simp only [collectRaws, Pattern.matchesWithRaws, Pattern.processAll]
      obtain ⟨out, ho, hx⟩ := processRaws_in hpre hpost l 0 (fun t ht => ((hraw s l hr).1 t ht).1)
      have ho : Pattern.processRaws (p.processMatchesWith p.processMatch) 0 l = .ok out := ho
      rw [ho]; simp
  · intro s
    show oneSearch p raw s ≠ .error .diverges
    unfold oneSearch
    cases hr : raw s with
    | error e => have := hdiv s; rw [hr] at this; simpa [collectRaws] using this
    | ok l =>
      simp only [collectRaws, Pattern.matchesWithRaws, Pattern.processAll]
      obtain ⟨out, ho, hx⟩ := processRaws_in hpre hpost l 0 (fun t ht => ((hraw s l hr).1 t ht).1)
      have ho : Pattern.processRaws (p.processMatchesWith p.processMatch) 0 l = .ok out := ho
      rw [ho]; simp
  · intro s em raws h
    obtain ⟨l, hl, rfl, _⟩ := key s em raws h
    obtain ⟨hl1, hl2⟩ := hraw s l hl
    have get : ∀ (i : Nat) (r : MTree), (l.mapIdx (p.rawAfter p.processMatch))[i]? = some r →
        ∃ t, l[i]? = some t ∧ t ∈ l ∧ r = p.rawAfter p.processMatch i t := by
      intro i r hr
      rw [List.getElem?_mapIdx] at hr
      cases ht : l[i]? with
      | none => rw [ht] at hr; cases hr
      | some t => rw [ht] at hr; cases hr; exact ⟨t, rfl, List.mem_of_getElem? ht, rfl⟩
    have mem : ∀ r ∈ l.mapIdx (p.rawAfter p.processMatch), ∃ i t, t ∈ l ∧ r = p.rawAfter p.processMatch i t := by
      intro r hr
      obtain ⟨i, hi⟩ := List.getElem?_of_mem hr
      obtain ⟨t, _, ht, he⟩ := get i r hi
      exact ⟨i, t, ht, he⟩
    refine ⟨?_, ?_, ?_, ?_⟩
    · intro r hr
      obtain ⟨i, t, ht, rfl⟩ := mem r hr
      exact (after s t i (hl1 t ht).1 (hl1 t ht).2).1
    · intro r hr
      obtain ⟨i, t, ht, rfl⟩ := mem r hr
      exact (after s t i (hl1 t ht).1 (hl1 t ht).2).2.1
    · rw [List.pairwise_iff_getElem]
      intro i j hi hj hij
      have hi' : i < l.length := by simpa using hi
      have hj' : j < l.length := by simpa using hj
      have ai := after s l[i] i (hl1 _ (List.getElem_mem hi')).1 (hl1 _ (List.getElem_mem hi')).2
      have aj := after s l[j] j (hl1 _ (List.getElem_mem hj')).1 (hl1 _ (List.getElem_mem hj')).2
      rw [List.getElem_mapIdx, List.getElem_mapIdx, ai.2.2.2.2, aj.2.2.2.1]
      exact (List.pairwise_iff_getElem.1 hl2) i j hi' hj' hij
    · intro i r hr
      obtain ⟨t, _, ht, rfl⟩ := get i r hr
      exact (after s t i (hl1 t ht).1 (hl1 t ht).2).2.2.1
  · intro hc he hpc hstop
    refine ⟨hstop, ?_⟩
    intro s em raws h e hem r hr hidx
    obtain ⟨l, hl, rfl, hx⟩ := key s em raws h
    obtain ⟨hl1, _⟩ := hraw s l hl
    obtain ⟨_, i, t, ht, hi, hor⟩ := hx e hem
    obtain ⟨j, hj⟩ := List.getElem?_of_mem hr
    rw [List.getElem?_mapIdx] at hj
    cases ht' : l[j]? with
    | none => rw [ht'] at hj; cases hj
    | some t' =>
      rw [ht'] at hj
      cases hj
      obtain ⟨_, _, b3, _, b5⟩ := after s t' j (hl1 t' (List.mem_of_getElem? ht')).1 (hl1 t' (List.mem_of_getElem? ht')).2
      have hij : i = j := by rw [hi, b3] at hidx; exact hidx
      subst hij
      rw [ht] at ht'
      cases ht'
      rw [b5]
      rcases hor with h | h | h | h
      · exact h
      · rw [hc] at h; cases h
      · rw [he] at h; cases h
      · rw [hpc] at h; cases h

/-- The raw matches of one non-empty string. -/
theorem string_raws (id : Nat) (o : PatternOpts) (lower : Str → Str) (so : StringOpts) (hic : so.ignoreCase = false) (sub : Str) (hsub : sub ≠ [])
    (s : Str) : ∃ l, (Pattern.init id o).matchString lower so s sub = .ok l ∧
      (∀ t ∈ l, TreeIn s t ∧ t.children = [] ∧ t.root.ancestors = []) ∧ l.Pairwise (fun a b => a.root.stop ≤ b.root.start) := by
  obtain ⟨l, ps, h1, h2, h3, h4⟩ := C42_string_occurrences id o lower so s sub hsub (by rw [hic]; simp)
  rw [hic] at h2
  simp only [Bool.false_eq_true, if_false] at h2
  have hm := h1
  unfold Pattern.matchString at hm
  have hlen : 0 < sub.length := List.length_pos_iff.2 hsub
  refine ⟨l, h1, ?_, ?_⟩
  · intro t ht
    obtain ⟨i, hi⟩ := List.getElem?_of_mem ht
    have hil : i < ps.length := by rw [← h3]; exact (List.getElem?_eq_some_iff.1 hi).1
    obtain ⟨hmb, hc⟩ := h4 i t ps[i] hi (List.getElem?_eq_getElem hil)
    have ho := ((h2.exact ps[i]).1 (List.getElem_mem hil)).1
    have hins := ho.inside
    have e1 : t.root.start = (ps[i] : Int) := congrArg Prod.fst hmb.span
    have e2 : t.root.stop = (ps[i] : Int) + sub.length := congrArg Prod.snd hmb.span
    have hraw : (t.root.rawStart = none ∧ t.root.rawStop = none) ∧ t.root.ancestors = [] := by
      split at hm
      · cases hm
      · cases hm
        obtain ⟨ht1, _⟩ := List.mem_filter.1 ht
        obtain ⟨_, _, rfl⟩ := List.mem_map.1 ht1
        exact ⟨⟨rfl, rfl⟩, rfl⟩
    exact ⟨⟨⟨by omega, by omega, by omega, hmb.input, hraw.1⟩, by rw [hc]; simp⟩, hc, hraw.2⟩
  · rw [List.pairwise_iff_getElem]
    intro i j hi hj hij
    have hi' : i < ps.length := by omega
    have hj' : j < ps.length := by omega
    obtain ⟨hmi, _⟩ := h4 i l[i] ps[i] (List.getElem?_eq_getElem hi) (List.getElem?_eq_getElem hi')
    obtain ⟨hmj, _⟩ := h4 j l[j] ps[j] (List.getElem?_eq_getElem hj) (List.getElem?_eq_getElem hj')
    have e1 : l[i].root.stop = (ps[i] : Int) + sub.length := congrArg Prod.snd hmi.span
    have e2 : l[j].root.start = (ps[j] : Int) := congrArg Prod.fst hmj.span
    have hlt := (List.pairwise_iff_getElem.1 h2.ordered) i j hi' hj' hij
    have := ((h2.exact ps[j]).1 (List.getElem_mem hj')).2 ps[i] (List.getElem_mem hi')
    rw [e1, e2]
    omega

/-- A part made of one non-empty string is regular. -/
theorem regular_string (id : Nat) (o : PatternOpts) (hpre : o.preMatch = none) (hpost : o.postMatch = none) (hpp : o.postProcessor = none)
    (lower : Str → Str) (so : StringOpts) (hic : so.ignoreCase = false) (sub : Str) (hsub : sub ≠ [])
    (start : Int) (stop : Option Int) (hidden : Bool) :
    RegularPart { search := (Pattern.init id o).partOfString lower so [sub], start := start, stop := stop, hidden := hidden } ∧
    (o.children = false → o.every = false → o.privateChildren = false → (∃ e, stop = some e ∧ e ≤ 1) →
      WholeOnce { search := (Pattern.init id o).partOfString lower so [sub], start := start, stop := stop, hidden := hidden }) := by
  have main : ∀ s, ∃ l, (Pattern.init id o).matchString lower so s sub = .ok l ∧ (∀ t ∈ l, TreeIn s t ∧ t.root.ancestors = []) ∧
      l.Pairwise (fun a b => a.root.stop ≤ b.root.start) := by
    intro s
    obtain ⟨l, h1, h2, h3⟩ := string_raws id o lower so hic sub hsub s
    exact ⟨l, h1, fun t ht => ⟨(h2 t ht).1, (h2 t ht).2.2⟩, h3⟩
  exact regular_of_raws (p := Pattern.init id o) hpre hpost hpp (raw := fun s => (Pattern.init id o).matchString lower so s sub)
    (fun s => by obtain ⟨l, h, _⟩ := main s; simp [h]) (fun s => by obtain ⟨l, h, _⟩ := main s; simp [h])
    (fun s l h => by
      obtain ⟨l', h', h2⟩ := main s
      have h : (Pattern.init id o).matchString lower so s sub = .ok l := h
      rw [h'] at h
      cases h
      exact h2) start stop hidden

theorem reChildren_in {p : Pattern} {rc : Bool} {s : Str} {main : Match} : ∀ {names : List (Option String)} {gs : List ReGroup},
    (∀ g ∈ gs, ∀ sp ∈ g.used rc, 0 ≤ sp.1 ∧ sp.1 ≤ sp.2 ∧ sp.2 ≤ s.length) →
    ∀ k ∈ p.reChildren rc s main names gs, InText s k ∧ k.marker = p.opts.marker
  | [], _, _, k, hk => by simp [Pattern.reChildren] at hk
  | _ :: _, [], _, k, hk => by simp [Pattern.reChildren] at hk
  | n :: ns, g :: gs, h, k, hk => by
    unfold Pattern.reChildren at hk
    rcases List.mem_append.1 hk with hk | hk
    · obtain ⟨hk, hl⟩ := List.mem_filter.1 hk
      obtain ⟨sp, hsp, rfl⟩ := List.mem_map.1 hk
      obtain ⟨h1, h2, h3⟩ := h g (by simp) sp hsp
      have hl : (p.newChild s main (n.or main.name) sp).len ≠ 0 := by simpa using hl
      have hl : sp.2 - sp.1 ≠ 0 := hl
      exact ⟨⟨h1, by show sp.1 < sp.2; omega, h3, rfl, rfl, rfl⟩, rfl⟩
    · exact reChildren_in (fun g hg => h g (List.mem_cons_of_mem _ hg)) k hk

theorem reMatch_in {p : Pattern} (hm : p.opts.marker = false) {rc : Bool} {names : List (Option String)} {s : Str} {o : ReObj}
    (h1 : 0 ≤ o.start ∧ o.start ≤ o.stop ∧ o.stop ≤ s.length)
    (h2 : ∀ g ∈ o.groups, ∀ sp ∈ g.used rc, 0 ≤ sp.1 ∧ sp.1 ≤ sp.2 ∧ sp.2 ≤ s.length) :
    ∃ l, p.reMatch rc names s o = .ok l ∧ (l = [] ∨ ∃ t, l = [t] ∧ TreeIn s t ∧ t.root.ancestors = [] ∧
      t.root.start = o.start ∧ t.root.stop = o.stop) := by
  have hin := reChildren_in (p := p) (main := p.newMatch s o.start o.stop) (names := names) h2
  unfold Pattern.reMatch
  simp only
  rw [if_neg (by
    intro h
    obtain ⟨k, hk, hk2⟩ := List.any_eq_true.1 h
    rw [(hin k hk).2, hm] at hk2; cases hk2)]
  by_cases hl : (p.newMatch s o.start o.stop).len ≠ 0
  · rw [if_pos hl]
    refine ⟨_, rfl, Or.inr ⟨_, rfl, ⟨⟨h1.1, ?_, h1.2.2, rfl, rfl, rfl⟩, ?_⟩, rfl, rfl, rfl⟩⟩
    · have hl : o.stop - o.start ≠ 0 := hl
      show o.start < o.stop; omega
    · intro k hk
      obtain ⟨c, hc, rfl⟩ := List.mem_map.1 hk
      exact ⟨(hin c hc).1, rfl⟩
  · rw [if_neg hl]
    exact ⟨[], rfl, Or.inl rfl⟩

theorem matchRegex_in {p : Pattern} (hm : p.opts.marker = false) {rc : Bool} {re : Regex} {s : Str} : ∀ {os : List ReObj},
    (∀ o ∈ os, 0 ≤ o.start ∧ o.start ≤ o.stop ∧ o.stop ≤ s.length) → os.Pairwise (fun a b => a.stop ≤ b.start) →
    (∀ o ∈ os, ∀ g ∈ o.groups, ∀ sp ∈ g.used rc, 0 ≤ sp.1 ∧ sp.1 ≤ sp.2 ∧ sp.2 ≤ s.length) →
    ∃ l, Pattern.matchRegex.go p rc re s os = .ok l ∧ (∀ t ∈ l, TreeIn s t ∧ t.root.ancestors = []) ∧
      l.Pairwise (fun a b => a.root.stop ≤ b.root.start) ∧ ∀ t ∈ l, ∃ o ∈ os, t.root.start = o.start ∧ t.root.stop = o.stop
  | [], _, _, _ => ⟨[], rfl, by simp, List.Pairwise.nil, by simp⟩
  | o :: os, h1, h2, h3 => by
    obtain ⟨l1, e1, c1⟩ := reMatch_in hm (names := re.names) (h1 o (by simp)) (h3 o (by simp))
    obtain ⟨hp1, hp2⟩ := List.pairwise_cons.1 h2
    obtain ⟨l2, e2, a2, b2, c2⟩ := matchRegex_in hm (re := re) (fun o ho => h1 o (List.mem_cons_of_mem _ ho)) hp2
      (fun o ho => h3 o (List.mem_cons_of_mem _ ho))
    refine ⟨l1 ++ l2, by simp only [Pattern.matchRegex.go, e1, e2], ?_⟩
    rcases c1 with rfl | ⟨t, rfl, t1, t2, t3, t4⟩
    · refine ⟨by simpa using a2, by simpa using b2, ?_⟩
      intro t ht
      obtain ⟨o', ho', h⟩ := c2 t (by simpa using ht)
      exact ⟨o', List.mem_cons_of_mem _ ho', h⟩
    · refine ⟨?_, ?_, ?_⟩
      · intro x hx
        rcases List.mem_cons.1 hx with rfl | hx
        · exact ⟨t1, t2⟩
        · exact a2 x hx
      · refine List.pairwise_cons.2 ⟨?_, b2⟩
        intro x hx
        obtain ⟨o', ho', h, _⟩ := c2 x hx
        have := hp1 o' ho'
        omega
      · intro x hx
        rcases List.mem_cons.1 hx with rfl | hx
        · exact ⟨o, by simp, t3, t4⟩
        · obtain ⟨o', ho', h⟩ := c2 x hx
          exact ⟨o', List.mem_cons_of_mem _ ho', h⟩

/-- A part made of one regular expression is regular. -/
theorem regular_regex (id : Nat) (o : PatternOpts) (hm : o.opts.marker = false) (hpre : o.preMatch = none) (hpost : o.postMatch = none)
    (hpp : o.postProcessor = none) (rc : Bool) (re : Regex) (hre : ScansText re) (start : Int) (stop : Option Int) (hidden : Bool) :
    RegularPart { search := (Pattern.init id o).partOfRegex rc [re], start := start, stop := stop, hidden := hidden } ∧
    (o.children = false → o.every = false → o.privateChildren = false → (∃ e, stop = some e ∧ e ≤ 1) →
      WholeOnce { search := (Pattern.init id o).partOfRegex rc [re], start := start, stop := stop, hidden := hidden }) := by
  have main : ∀ s, ∃ l, (Pattern.init id o).matchRegex rc re s = .ok l ∧ (∀ t ∈ l, TreeIn s t ∧ t.root.ancestors = []) ∧
      l.Pairwise (fun a b => a.root.stop ≤ b.root.start) := by
    intro s
    obtain ⟨l, h1, h2, h3, _⟩ := matchRegex_in (p := Pattern.init id o) (re := re) hm (rc := rc) (hre.inText s) (hre.ordered s)
      (fun o ho g hg => hre.groups s o ho g hg rc)
    exact ⟨l, h1, h2, h3⟩
  exact regular_of_raws (p := Pattern.init id o) hpre hpost hpp (raw := fun s => (Pattern.init id o).matchRegex rc re s)
    (fun s => by obtain ⟨l, h, _⟩ := main s; simp [h]) (fun s => by obtain ⟨l, h, _⟩ := main s; simp [h])
    (fun s l h => by
      obtain ⟨l', h', h2⟩ := main s
      have h : (Pattern.init id o).matchRegex rc re s = .ok l := h
      rw [h'] at h
      cases h
      exact h2) start stop hidden

end Rebulk
