import Verif.Lemmas.ChainValid
import Verif.Props.ChainScan
/-!
# C112: what a chain with a validator returns
-/
namespace Rebulk
open Spec

/-! ## Plain parts -/

theorem processMatches_leaf {p : Pattern} (hn : NoProcessors p) {s : Str} {idx : Nat} {t : MTree} {r : List MTree} (h : Nested s t)
    (hl : t.children = [] ∧ t.root.ancestors = []) (hr : p.processMatches idx t = .ok r) :
    r.length ≤ 1 ∧ ∀ x ∈ r, Within t.root.start t.root.stop x ∧ x.children = [] ∧ x.root.ancestors = [] := by
  have hkeep : ∀ t : MTree, Nested s t → Pattern.keepGoing (Pattern.processProcessor none t) = .ok (some t) :=
    fun t ht => keepGoing_pos (nested_iff.1 ht).1.nonempty
  unfold Pattern.processMatches Pattern.processMatchesWith at hr
  rw [hn.1, hkeep t h, hn.2.1] at hr
  simp only at hr
  obtain ⟨h1, h2, h3, h4, h5⟩ := processMatch_span p idx false h
  have hc : (p.processMatch idx false t).1.children = [] := by
    show (configured p idx false t).children = []
    have e : (configured p idx false t).children = _ := setRoot_children t _
    rw [e, hl.1]; rfl
  cases hpm : p.processMatch idx false t with
  | mk t1 ok =>
    rw [hpm] at h1 h2 h3 h4 h5 hc hr
    simp only at h1 h2 h3 h4 h5 hc hr
    cases ok with
    | false => cases hr; exact ⟨by simp, by simp⟩
    | true =>
      simp only at hr
      rw [hc] at hr
      simp only [Pattern.processChildren] at hr
      have e : MTree.node t1.root [] = t1 := by cases t1; simp only [MTree.children] at hc; subst hc; rfl
      rw [e, hkeep t1 h1] at hr
      cases hr
      unfold Pattern.emitted
      rw [hc]
      simp only [List.filter_nil, ite_self, List.append_nil]
      split
      · refine ⟨by simp, ?_⟩
        intro x hx
        rw [List.mem_singleton] at hx
        subst hx
        exact ⟨⟨by rw [h4]; exact Int.le_refl _, by rw [h5]; exact Int.le_refl _⟩, hc, by rw [h2, hl.2]⟩
      · exact ⟨by simp, by simp⟩

theorem processRaws_leaf {p : Pattern} (hn : NoProcessors p) {s : Str} : ∀ {l out : List MTree} {i : Nat},
    (∀ t ∈ l, Nested s t ∧ t.children = [] ∧ t.root.ancestors = []) → Pattern.processRaws p.processMatches i l = .ok out →
    ∀ x ∈ out, x.children = [] ∧ x.root.ancestors = []
  | [], out, i, _, h => by cases h; simp
  | t :: l, out, i, hl, h => by
    unfold Pattern.processRaws at h
    split at h
    · cases h
    · rename_i r hr
      split at h
      · cases h
      · rename_i r2 hr2
        cases h
        intro x hx
        rcases List.mem_append.1 hx with hx | hx
        · exact ((processMatches_leaf hn (hl t (by simp)).1 (hl t (by simp)).2 hr).2 x hx).2
        · exact processRaws_leaf hn (fun t ht => hl t (List.mem_cons_of_mem _ ht)) hr2 x hx

theorem processRaws_leaf_order {p : Pattern} (hn : NoProcessors p) {s : Str} : ∀ {l out : List MTree} {i : Nat},
    (∀ t ∈ l, Nested s t ∧ t.children = [] ∧ t.root.ancestors = []) → LeftToRight l → Pattern.processRaws p.processMatches i l = .ok out →
    LeftToRight out ∧ ∀ x ∈ out, ∃ t ∈ l, Within t.root.start t.root.stop x
  | [], out, i, _, _, h => by cases h; exact ⟨List.Pairwise.nil, by simp⟩
  | t :: l, out, i, hl, ho, h => by
    unfold Pattern.processRaws at h
    split at h
    · cases h
    · rename_i r hr
      split at h
      · cases h
      · rename_i r2 hr2
        cases h
        obtain ⟨o1, o2⟩ := List.pairwise_cons.1 ho
        obtain ⟨a1, a2⟩ := processMatches_leaf hn (hl t (by simp)).1 (hl t (by simp)).2 hr
        obtain ⟨b1, b2⟩ := processRaws_leaf_order hn (fun t ht => hl t (List.mem_cons_of_mem _ ht)) o2 hr2
        refine ⟨List.pairwise_append.2 ⟨?_, b1, ?_⟩, ?_⟩
        · cases r with
          | nil => exact List.Pairwise.nil
          | cons x xs =>
            cases xs with
            | nil => exact List.pairwise_singleton ..
            | cons => simp at a1
        · intro x hx y hy
          obtain ⟨t', ht', w⟩ := b2 y hy
          have := (a2 x hx).1.2
          have := o1 t' ht'
          have := w.1
          omega
        · intro x hx
          rcases List.mem_append.1 hx with hx | hx
          · exact ⟨t, by simp, (a2 x hx).1⟩
          · obtain ⟨t', ht', w⟩ := b2 x hx
            exact ⟨t', List.mem_cons_of_mem _ ht', w⟩

/-- One sub-pattern whose raw matches are leaves, separate and in order gives a plain part. -/
theorem plain_of_raws {p : Pattern} (hn : NoProcessors p) {raw : Str → Except PyErr (List MTree)}
    (hraw : ∀ s l, raw s = .ok l → (∀ t ∈ l, Nested s t ∧ t.children = [] ∧ t.root.ancestors = []) ∧ LeftToRight l)
    {part : Part} (ht : TidyPart part) (hs : ∀ s, part.search s = oneSearch p raw s) : PlainPart part := by
  have key : ∀ s em raws, part.search s = .ok (em, raws) → ∃ l, raw s = .ok l ∧ Pattern.processRaws p.processMatches 0 l = .ok em := by
    intro s em raws h
    rw [hs s] at h
    unfold oneSearch at h
    cases hr : raw s with
    | error e => rw [hr] at h; cases h
    | ok l =>
      rw [hr] at h
      simp only [collectRaws, Pattern.matchesWithRaws, Pattern.processAll] at h
      obtain ⟨out, ho, hx⟩ := processRaws_nested hn l 0 (fun t ht => ((hraw s l hr).1 t ht).1)
      have ho' : Pattern.processRaws (p.processMatchesWith p.processMatch) 0 l = .ok out := ho
      rw [ho'] at h
      simp only [Pattern.postProcess, hn.2.2, List.append_nil, List.flatMap_cons, List.flatMap_nil, Except.ok.injEq, Prod.mk.injEq] at h
      exact ⟨l, rfl, by rw [ho, h.1]⟩
  refine ⟨ht, ?_, ?_⟩
  · intro s em raws h
    obtain ⟨l, h1, h2⟩ := key s em raws h
    exact processRaws_leaf hn (hraw s l h1).1 h2
  · intro s em raws h
    obtain ⟨l, h1, h2⟩ := key s em raws h
    exact (processRaws_leaf_order hn (hraw s l h1).1 (hraw s l h1).2 h2).1

/-- A part made of one non-empty string is plain. -/
theorem plain_string (id : Nat) (o : PatternOpts) (hpre : o.preMatch = none) (hpost : o.postMatch = none) (hpp : o.postProcessor = none)
    (lower : Str → Str) (so : StringOpts) (hic : so.ignoreCase = false) (sub : Str) (hsub : sub ≠ [])
    (start : Int) (stop : Option Int) (hidden : Bool) :
    PlainPart { search := (Pattern.init id o).partOfString lower so [sub], start := start, stop := stop, hidden := hidden } := by
  refine plain_of_raws (p := Pattern.init id o) ⟨hpre, hpost, hpp⟩ (raw := fun s => (Pattern.init id o).matchString lower so s sub) ?_
    (tidy_string id o hpre hpost hpp lower so hic sub hsub start stop hidden) (fun s => rfl)
  intro s l h
  obtain ⟨l', h1, h2, h3⟩ := string_raws id o lower so hic sub hsub s
  have h : (Pattern.init id o).matchString lower so s sub = .ok l := h
  rw [h1] at h
  cases h
  refine ⟨fun t ht => ?_, h3⟩
  obtain ⟨h4, h5, h6⟩ := h2 t ht
  exact ⟨nested_iff.2 ⟨h4.root, by rw [h5]; simp⟩, h5, h6⟩

theorem matchRegex_leaf {p : Pattern} {rc : Bool} {re : Regex} {s : Str} : ∀ {os : List ReObj} {l : List MTree}, (∀ o ∈ os, o.groups = []) →
    Pattern.matchRegex.go p rc re s os = .ok l → ∀ t ∈ l, t.children = []
  | [], l, _, h => by cases h; simp
  | o :: os, l, hg, h => by
    unfold Pattern.matchRegex.go at h
    cases h1 : p.reMatch rc re.names s o with
    | error e => rw [h1] at h; cases h
    | ok l1 =>
      rw [h1] at h
      simp only at h
      cases h2 : Pattern.matchRegex.go p rc re s os with
      | error e => rw [h2] at h; cases h
      | ok l2 =>
        rw [h2] at h
        cases h
        intro t ht
        rcases List.mem_append.1 ht with ht | ht
        · unfold Pattern.reMatch at h1
          rw [hg o (by simp)] at h1
          have e : p.reChildren rc s (p.newMatch s o.start o.stop) re.names [] = [] := by cases re.names <;> rfl
          simp only [e, List.any_nil, Bool.false_eq_true, if_false, List.map_nil, Except.ok.injEq] at h1
          rw [← h1] at ht
          split at ht
          · rw [List.mem_singleton] at ht; subst ht; rfl
          · simp at ht
        · exact matchRegex_leaf (fun o ho => hg o (List.mem_cons_of_mem _ ho)) h2 t ht

/-- A part made of one regular expression without groups is plain. -/
theorem plain_regex (id : Nat) (o : PatternOpts) (hm : o.opts.marker = false) (hpre : o.preMatch = none) (hpost : o.postMatch = none)
    (hpp : o.postProcessor = none) (rc : Bool) (re : Regex) (hre : ScansText re) (hg : ∀ s, ∀ x ∈ re.finditer s, x.groups = [])
    (start : Int) (stop : Option Int) (hidden : Bool) :
    PlainPart { search := (Pattern.init id o).partOfRegex rc [re], start := start, stop := stop, hidden := hidden } := by
  have hgi : GroupsInside re := by intro s x hx g hgx; rw [hg s x hx] at hgx; cases hgx
  refine plain_of_raws (p := Pattern.init id o) ⟨hpre, hpost, hpp⟩ (raw := fun s => (Pattern.init id o).matchRegex rc re s) ?_
    (tidy_regex id o hm hpre hpost hpp rc re hre hgi start stop hidden) (fun s => rfl)
  intro s l h
  have h : (Pattern.init id o).matchRegex rc re s = .ok l := h
  obtain ⟨l', h1, h2, h3, _⟩ := matchRegex_in (p := Pattern.init id o) (re := re) hm (rc := rc) (hre.inText s) (hre.ordered s)
    (fun o ho g hg => hre.groups s o ho g hg rc)
  have h1' : (Pattern.init id o).matchRegex rc re s = .ok l' := h1
  rw [h1'] at h
  cases h
  exact ⟨fun t ht => ⟨matchRegex_nested hm (hre.inText s) (fun o ho g hg => hre.groups s o ho g hg rc)
      (fun o ho g hg => hgi s o ho g hg rc) h1 t ht, matchRegex_leaf (hg s) h1 t ht, (h2 t ht).2⟩, h3⟩

/-! ## The theorem -/

/-- The same with the raw matches. -/
theorem validated_raw {c : Chain} (id : Nat) (o : PatternOpts) (hpat : c.pattern = Pattern.init id o) (input : Str)
    (hp : ∀ p ∈ c.parts, PlainPart p) (ha : ∀ p ∈ c.parts, Answers p) (hg : Gentle o) :
    ∃ ts out raws, c.rawMatches input = .ok ts ∧ c.run input = .ok (out, raws) ∧ Scans c input input 0 ts ∧ ChainReturns o ts out := by
  obtain ⟨ts, e, hs⟩ := C112_answers input (fun p h => (hp p h).tidy.regular) ha
  have hleaf := rawMatches_leafy hp e
  obtain ⟨hord, _⟩ := rawMatches_order (fun p h => (hp p h).tidy) e
  obtain ⟨l, h1, h2⟩ := hg.emitsAll id ts 0 (fun t ht => by
    have hl := hleaf t ht
    have hn := nested_iff.1 (hord t ht).1
    refine ⟨hl.below, hl.distinct, hn.1.nonempty, fun k hk => ?_⟩
    have hk' := hn.2 k hk
    have := hk'.1.1
    have := (nested_iff.1 hk'.2).1.nonempty
    omega)
  unfold Chain.run
  rw [e]
  simp only
  rw [hpat]
  unfold Pattern.matchesWithRaws Pattern.processAll Pattern.processAll
  rw [h1]
  simp only [List.append_nil]
  refine ⟨ts, _, _, rfl, rfl, hs, l, h2, ?_⟩
  show (match o.postProcessor with | some f => f l | none => l) = _
  cases o.postProcessor <;> rfl

/-- **C112**: a chain of plain parts whose validator looks at whole matches only returns what it emits for the matches of the search from left to right: each
match as any pattern emits it if the validator accepts it, else the longest of its shortened forms that the validator accepts, else nothing. -/
theorem C112_validated {c : Chain} (id : Nat) (o : PatternOpts) (hpat : c.pattern = Pattern.init id o) (input : Str)
    (hp : ∀ p ∈ c.parts, PlainPart p) (ha : ∀ p ∈ c.parts, Answers p) (hg : Gentle o) :
    ∃ ts out raws, c.run input = .ok (out, raws) ∧ Scans c input input 0 ts ∧ ChainReturns o ts out := by
  obtain ⟨ts, out, raws, _, h⟩ := validated_raw id o hpat input hp ha hg
  exact ⟨ts, out, raws, h⟩

/-- It holds of the chain `a b+` with a validator that wants at most three characters… -/
theorem shortChain_returns (input : Str) : ∃ ts out raws, shortChain.run input = .ok (out, raws) ∧ Scans shortChain input input 0 ts ∧
    ChainReturns { validator := .one (some (fun t => decide (t.root.len ≤ 3))) } ts out := by
  refine C112_validated 0 _ rfl input ?_ ?_ ?_
  · intro p hp
    simp only [shortChain, List.mem_cons, List.not_mem_nil, or_false] at hp
    rcases hp with rfl | rfl
    · exact plain_string 1 {} rfl rfl rfl _ {} rfl _ (by simp) _ _ _
    · exact plain_string 2 {} rfl rfl rfl _ {} rfl _ (by simp) _ _ _
  · intro p hp
    simp only [shortChain, List.mem_cons, List.not_mem_nil, or_false] at hp
    rcases hp with rfl | rfl
    · exact answers_string 1 {} rfl ⟨rfl, rfl, rfl⟩ (by intro a h; cases h) (by intro a h; cases h) _ _ _ (by simp) _ _ _
    · exact answers_string 2 {} rfl ⟨rfl, rfl, rfl⟩ (by intro a h; cases h) (by intro a h; cases h) _ _ _ (by simp) _ _ _
  · refine ⟨(by intro a h; cases h), (by intro a h; cases h; simp), rfl, rfl, ?_⟩
    intro t hi
    rcases hi with h | h
    · simp [Included, ChildrenIncluded] at h
    · cases h

/-- … which finds `abb` in `abbb`, and `abb` and `ab` in `abbb-ab`. -/
example : (match shortChain.run ['a', 'b', 'b', 'b', '-', 'a', 'b'] with | .ok (out, _) => out.map (fun t => t.root.span) | .error _ => []) =
    [(0, 3), (5, 7)] := by decide +kernel

end Rebulk
