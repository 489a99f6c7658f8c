import Verif.Spec.ChainValid
import Verif.Lemmas.ChainOrder
import Verif.Lemmas.ChainScan
import Verif.Props.PatternRun
import Verif.Props.Chain
namespace Rebulk
open Spec

/-! # One match -/

theorem configured_parent (id : Nat) (o : PatternOpts) (hf : Proper o.formatter) (idx : Nat) (t : MTree) :
    ParentConfigured o idx t (configured (Pattern.init id o) idx false t) := by
  have h := configure_spec id o hf idx false t.root
  refine ⟨h.1, h.2, ?_, ?_, fun hl => setRoot_linked hl⟩
  · show (t.setRoot _).children.length = _
    rw [setRoot_children, List.length_map]
  · intro i c C hc hC
    have e : (configured (Pattern.init id o) idx false t).children = _ := setRoot_children t _
    rw [e, List.getElem?_map, hc] at hC
    cases hC
    exact relink_same _ _ _

theorem processChildren_congr {proc proc' : Nat → Bool → MTree → MTree × Bool} {idx : Nat} (h : ∀ c, proc idx true c = proc' idx true c) :
    ∀ l : List MTree, Pattern.processChildren proc idx l = Pattern.processChildren proc' idx l
  | [] => rfl
  | c :: cs => by
    unfold Pattern.processChildren
    rw [h c, processChildren_congr h cs]

theorem processChildren_some {proc : Nat → Bool → MTree → MTree × Bool} {idx : Nat} (h : ∀ c, (proc idx true c).2 = true) :
    ∀ l : List MTree, ∃ cs, Pattern.processChildren proc idx l = some cs
  | [] => ⟨[], rfl⟩
  | c :: cs => by
    obtain ⟨r, hr⟩ := processChildren_some h cs
    unfold Pattern.processChildren
    cases hp : proc idx true c with
    | mk c' b =>
      have : b = true := by have := h c; rw [hp] at this; exact this
      subst this
      exact ⟨c' :: r, by rw [hr]; rfl⟩

theorem Spec.Gentle.pv {o : PatternOpts} (g : Gentle o) (id : Nat) (t : MTree) : (Pattern.init id o).processValidator true t = true :=
  (validator_spec id o g.validator true t).2 (g.kids t)

theorem Spec.Gentle.chainChild {o : PatternOpts} (g : Gentle o) (id idx : Nat) (c : MTree) :
    Chain.processMatch (Pattern.init id o) idx true c = (Pattern.init id o).processMatch idx true c := by
  unfold Chain.processMatch
  have : (Pattern.init id o).processMatch idx true c = (configured (Pattern.init id o) idx true c, true) := by
    show ((configured (Pattern.init id o) idx true c), _) = _
    rw [g.pv]
  rw [this]

/-- The chain processes a match as any pattern processes `t'`. -/
theorem Spec.Gentle.asPattern {o : PatternOpts} (g : Gentle o) (id idx : Nat) {t t' : MTree} (ht : t.root.start < t.root.stop)
    (ht' : t'.root.start ≤ t'.root.stop) (h : Chain.processMatch (Pattern.init id o) idx false t = (configured (Pattern.init id o) idx false t', true))
    (hv : (Pattern.init id o).processValidator false (configured (Pattern.init id o) idx false t') = true) :
    (Pattern.init id o).processMatchesWith (Chain.processMatch (Pattern.init id o)) idx t = (Pattern.init id o).processMatches idx t' := by
  have hpre : ∀ x, Pattern.processProcessor (Pattern.init id o).preMatch x = some x := by
    intro x; rw [show (Pattern.init id o).preMatch = none from g.pre]; rfl
  have hpost : ∀ x, Pattern.processProcessor (Pattern.init id o).postMatch x = some x := by
    intro x; rw [show (Pattern.init id o).postMatch = none from g.post]; rfl
  have hpm : (Pattern.init id o).processMatch idx false t' = (configured (Pattern.init id o) idx false t', true) := by
    show ((configured (Pattern.init id o) idx false t'), (Pattern.init id o).processValidator false (configured (Pattern.init id o) idx false t')) = _
    rw [hv]
  unfold Pattern.processMatches Pattern.processMatchesWith
  simp only [hpre, hpost, keepGoing_pos ht, h]
  rw [processChildren_congr (fun c => g.chainChild id idx c)]
  rcases Int.lt_or_eq_of_le ht' with hlt | heq
  · rw [keepGoing_pos hlt]
    simp only [hpm]
  · rw [keepGoing_zero heq]
    obtain ⟨cs, hcs⟩ := processChildren_some (proc := (Pattern.init id o).processMatch) (idx := idx)
      (fun c => g.pv id (configured (Pattern.init id o) idx true c)) (configured (Pattern.init id o) idx false t').children
    rw [hcs]
    simp only
    have hs := (configure_spec id o g.formatter idx false t'.root).1.span
    rw [keepGoing_zero (t := .node (configured (Pattern.init id o) idx false t').root cs) (by
      have e1 : ((Pattern.init id o).configure idx false t'.root).start = t'.root.start := congrArg Prod.fst hs
      have e2 : ((Pattern.init id o).configure idx false t'.root).stop = t'.root.stop := congrArg Prod.snd hs
      show ((Pattern.init id o).configure idx false t'.root).start = ((Pattern.init id o).configure idx false t'.root).stop
      rw [e1, e2, heq])]

theorem shortened_order {t : MTree} (ht : t.root.start ≤ t.root.stop) (hk : ∀ c ∈ t.children, t.root.start ≤ c.root.stop) (pat : Option Nat) (n : Nat) :
    (shortened t pat n).root.start ≤ (shortened t pat n).root.stop := by
  show t.root.start ≤ lastStop t.root.start (remaining pat n t.children)
  unfold lastStop
  cases h : (remaining pat n t.children).getLast? with
  | none => exact Int.le_refl _
  | some c => exact hk c (List.mem_filter.1 (List.mem_of_getLast? h)).1

/-- What a chain emits for one raw match. -/
theorem Spec.Gentle.emits {o : PatternOpts} (g : Gentle o) (id idx : Nat) {t : MTree} (hb : BelowList (t.root.core :: t.root.ancestors) t.children)
    (hd : Distinct t.children) (ht : t.root.start < t.root.stop) (hk : ∀ c ∈ t.children, t.root.start ≤ c.root.stop) :
    ∃ l, (Pattern.init id o).processMatchesWith (Chain.processMatch (Pattern.init id o)) idx t = .ok l ∧ ChainEmits o idx t l := by
  have hpass : ∀ x, (Pattern.init id o).processValidator false (configured (Pattern.init id o) idx false x) = true → Passes o idx x := fun x hx =>
    ⟨_, configured_parent id o g.formatter idx x, (validator_spec id o g.validator false _).1 hx⟩
  have hfail : ∀ x, (Pattern.init id o).processValidator false (configured (Pattern.init id o) idx false x) = false → Fails o idx x := fun x hx =>
    ⟨_, configured_parent id o g.formatter idx x, fun ha => by
      have := (validator_spec id o g.validator false _).2 ha; rw [hx] at this; cases this⟩
  have hem : ∀ x : MTree, x.root.start ≤ x.root.stop → ∃ l, (Pattern.init id o).processMatches idx x = .ok l ∧ Emits o idx x l := by
    intro x hx
    rcases processMatches_emits id o g.formatter g.validator idx x with h | ⟨_, f, y, r, hy, hr, hlt⟩
    · exact h
    · exfalso
      rcases hy with ⟨rfl, rfl⟩ | ⟨rfl, hy⟩
      · rw [g.pre] at hr
        cases hr with
        | absent _ => omega
        | unchanged _ h => cases h
        | replaced _ _ h => cases h
      · rw [g.post] at hr
        cases hr with
        | absent _ => omega
        | unchanged _ h => cases h
        | replaced _ _ h => cases h
  have hrej : ∀ T, Chain.processMatch (Pattern.init id o) idx false t = (T, false) →
      (Pattern.init id o).processMatchesWith (Chain.processMatch (Pattern.init id o)) idx t = .ok [] := by
    intro T h
    unfold Pattern.processMatchesWith
    have hpre : Pattern.processProcessor (Pattern.init id o).preMatch t = some t := by
      rw [show (Pattern.init id o).preMatch = none from g.pre]; rfl
    rw [hpre, keepGoing_pos ht]
    simp only [h]
  obtain ⟨b1, b2, b3⟩ := C55_backtracking_partial (Pattern.init id o) idx false t hb hd
  cases hv : (Pattern.init id o).processValidator false (configured (Pattern.init id o) idx false t) with
  | true =>
    obtain ⟨l, h1, h2⟩ := hem t (by omega)
    exact ⟨l, by rw [g.asPattern id idx ht (by omega) (b1 hv) hv, h1], .whole (hpass t hv) h2⟩
  | false =>
    cases hlast : t.children.getLast? with
    | none =>
      have hnil := List.getLast?_eq_none_iff.1 hlast
      exact ⟨[], hrej _ (b2 hv hnil), .refused (hfail t hv) (fun last hl => by rw [hlast] at hl; cases hl)⟩
    | some last =>
      rcases b3 hv last hlast with ⟨n, r1, r2, r3, r4⟩ | ⟨r1, r2⟩
      · have ho := shortened_order (by omega) hk last.root.pattern n
        obtain ⟨l, h1, h2⟩ := hem _ ho
        exact ⟨l, by rw [g.asPattern id idx ht ho r4 r2, h1],
          .shortened (hfail t hv) hlast r1 (hpass _ r2) (fun k hk hlt => hfail _ (r3 k hk hlt)) h2⟩
      · refine ⟨[], hrej _ r2, .refused (hfail t hv) (fun last' hl k hk => ?_)⟩
        rw [hlast] at hl
        cases hl
        exact hfail _ (r1 k hk)

/-- What a chain emits for its raw matches. -/
theorem Spec.Gentle.emitsAll {o : PatternOpts} (g : Gentle o) (id : Nat) : ∀ (ts : List MTree) (i : Nat),
    (∀ t ∈ ts, BelowList (t.root.core :: t.root.ancestors) t.children ∧ Distinct t.children ∧ t.root.start < t.root.stop ∧
      ∀ c ∈ t.children, t.root.start ≤ c.root.stop) →
    ∃ l, Pattern.processRaws ((Pattern.init id o).processMatchesWith (Chain.processMatch (Pattern.init id o))) i ts = .ok l ∧ ChainEmitsAll o i ts l
  | [], i, _ => ⟨[], rfl, .nil⟩
  | t :: ts, i, h => by
    obtain ⟨a1, a2, a3, a4⟩ := h t List.mem_cons_self
    obtain ⟨l, h1, h2⟩ := g.emits id i a1 a2 a3 a4
    obtain ⟨ls, h3, h4⟩ := g.emitsAll id ts (i + 1) (fun x hx => h x (List.mem_cons_of_mem _ hx))
    exact ⟨l ++ ls, by unfold Pattern.processRaws; rw [h1]; simp only [h3], .cons h2 h4⟩

/-! # Plain parts -/

theorem collect_sublist (breaker : Option (List MTree → Bool)) : ∀ (gs : List (List MTree)) (cur : List MTree),
    (collect breaker cur gs).Sublist (cur ++ gs.flatten)
  | [], cur => by simp [collect]
  | g :: gs, cur => by
    have hskip : (cur ++ gs.flatten).Sublist (cur ++ (g :: gs).flatten) := by
      rw [List.flatten_cons]
      exact (List.Sublist.refl cur).append (List.sublist_append_right g gs.flatten)
    have hadd : (cur ++ g ++ gs.flatten) = cur ++ (g :: gs).flatten := by simp
    unfold collect
    cases breaker with
    | none => simp only; rw [← hadd]; exact collect_sublist none gs (cur ++ g)
    | some f =>
      simp only
      split
      · exact (collect_sublist (some f) gs cur).trans hskip
      · rw [← hadd]; exact collect_sublist (some f) gs (cur ++ g)

/-- What an attempt has collected: leaves from left to right, ending where the next part is searched. -/
structure Row (st : ChainSt) : Prop where
  leaf : ∀ x ∈ st.current, x.children = [] ∧ x.root.ancestors = []
  ordered : LeftToRight st.current
  before : ∀ x ∈ st.current, x.root.stop ≤ st.offset

theorem fix_leaf (input : Str) (pos : Int) {t : MTree} (h : t.children = [] ∧ t.root.ancestors = []) :
    (t.fix input pos).children = [] ∧ (t.fix input pos).root.ancestors = [] := by
  obtain ⟨g, _, hg⟩ := fix_children input pos t
  refine ⟨by rw [hg, h.1]; rfl, ?_⟩
  rw [fix_root]
  split
  · simp [h.2]
  · exact h.2

/-- Matches that lie within occurrences, taken by repetition, come from left to right. -/
theorem repetitions_ordered {raws moved : List MTree} (hr : raws.Pairwise (fun a b => a.root.stop ≤ b.root.start)) (hm : LeftToRight moved)
    (hw : ∀ x ∈ moved, ∀ r, raws[x.root.matchIndex]? = some r → r.root.start ≤ x.root.start ∧ x.root.stop ≤ r.root.stop) :
    LeftToRight (repetitions raws.length moved).flatten := by
  unfold LeftToRight repetitions
  rw [List.pairwise_flatten]
  refine ⟨?_, ?_⟩
  · intro l hl
    obtain ⟨i, _, rfl⟩ := List.mem_map.1 hl
    exact hm.filter _
  · rw [List.pairwise_map]
    refine (List.pairwise_lt_range (n := raws.length)).imp_of_mem ?_
    intro i j hi hj hij x hx y hy
    obtain ⟨hx, ex⟩ := List.mem_filter.1 hx
    obtain ⟨hy, ey⟩ := List.mem_filter.1 hy
    have ex : x.root.matchIndex = i := of_decide_eq_true ex
    have ey : y.root.matchIndex = j := of_decide_eq_true ey
    have hi := List.mem_range.1 hi
    have hj := List.mem_range.1 hj
    have h1 := hw x hx raws[i] (by rw [ex]; exact List.getElem?_eq_getElem hi)
    have h2 := hw y hy raws[j] (by rw [ey]; exact List.getElem?_eq_getElem hj)
    have h3 := List.pairwise_iff_getElem.1 hr i j hi hj hij
    omega

theorem toNext_row {c : Chain} {input : Str} {part : Part} {first : Bool} {st st' : ChainSt} {kept raws : List MTree}
    (hp : PlainPart part) (hinv : st.Inv input) (hlen : st.offset + st.input.length ≤ input.length) (hrow : Row st)
    (hm : part.matchesOf first st.input = .ok (kept, raws)) (h : c.toNext input part kept raws st = .ok st') : Row st' := by
  obtain ⟨a1, a2, a3, a4, a5, a6, a7⟩ := toNext_spec hp.tidy.regular hinv hm h
  obtain ⟨em0, raws0, hs, hk, hr, _⟩ := matchesOf_ok hm
  have hraw := hp.tidy.regular.raws _ _ _ hs
  have hpre := (truncate_raws hraw first part.stop).1
  rw [← hr] at hpre
  have hraw' := rawList_prefix hraw hpre
  have hsub : kept.Sublist em0 := by rw [hk]; exact truncate_sub
  have hfixspan : ∀ {x : MTree}, x.root.inputString = some st.input → (x.fix input st.offset).root.start = x.root.start + st.offset ∧
      (x.fix input st.offset).root.stop = x.root.stop + st.offset := fun hx =>
    ⟨congrArg Prod.fst (fix_moved (pos := st.offset) hx hinv.zero).span, congrArg Prod.snd (fix_moved (pos := st.offset) hx hinv.zero).span⟩
  have hemin : ∀ e ∈ kept, e.root.inputString = some st.input := fun e he =>
    (nested_iff.1 (hp.tidy.nested _ _ _ hs e (hsub.subset he))).1.input
  -- the groups, flattened
  have hgsub : ∀ x ∈ (Step.groups ⟨part, st.input, st.offset, kept, raws⟩ (MTree.fixList input st.offset kept)).flatten,
      x ∈ MTree.fixList input st.offset kept := by
    intro x hx
    obtain ⟨g, hg, hx⟩ := List.mem_flatten.1 hx
    unfold Step.groups at hg
    split at hg
    · cases hg
    · unfold repetitions at hg
      obtain ⟨i, _, rfl⟩ := List.mem_map.1 hg
      exact (List.mem_filter.1 hx).1
  have hbefore : ∀ x ∈ MTree.fixList input st.offset kept, st.offset ≤ x.root.start := by
    intro x hx
    rw [fixList_eq] at hx
    obtain ⟨e, he, rfl⟩ := List.mem_map.1 hx
    have := (nested_iff.1 (hp.tidy.nested _ _ _ hs e (hsub.subset he))).1.lo
    have := (hfixspan (hemin e he)).1
    omega
  have hgord : LeftToRight (Step.groups ⟨part, st.input, st.offset, kept, raws⟩ (MTree.fixList input st.offset kept)).flatten := by
    unfold Step.groups
    split
    · exact List.Pairwise.nil
    · have key := repetitions_ordered (raws := MTree.fixList input st.offset raws) (moved := MTree.fixList input st.offset kept) ?_ ?_ ?_
      · rwa [fixList_eq input st.offset raws, List.length_map] at key
      · rw [fixList_eq, List.pairwise_map]
        refine hraw'.ordered.imp_of_mem ?_
        intro a b ha hb hab
        have e1 := hfixspan (hraw'.inText a ha).input
        have e2 := hfixspan (hraw'.inText b hb).input
        omega
      · rw [fixList_eq]
        unfold LeftToRight
        rw [List.pairwise_map]
        refine ((hp.ordered _ _ _ hs).sublist hsub).imp_of_mem ?_
        intro a b ha hb hab
        have e1 := hfixspan (hemin a ha)
        have e2 := hfixspan (hemin b hb)
        omega
      · intro x hx r hxr
        rw [fixList_eq] at hx hxr
        obtain ⟨e, he, rfl⟩ := List.mem_map.1 hx
        rw [fix_index, List.getElem?_map] at hxr
        obtain ⟨r', hr', hri, hw1, hw2⟩ := hp.tidy.within _ _ _ hs e (hsub.subset he)
        obtain ⟨j, hj⟩ := List.getElem?_of_mem hr'
        have hji : j = e.root.matchIndex := by rw [← hraw.index j r' hj, hri]
        subst hji
        cases hrr : raws[e.root.matchIndex]? with
        | none => rw [hrr] at hxr; cases hxr
        | some r0 =>
          rw [hrr] at hxr
          simp only [Option.map_some, Option.some.injEq] at hxr
          subst hxr
          have hr0 : raws0[e.root.matchIndex]? = some r0 := by
            obtain ⟨l, rfl⟩ := hpre
            rw [List.getElem?_append_left (by exact (List.getElem?_eq_some_iff.1 hrr).1)]
            exact hrr
          rw [hj] at hr0
          cases hr0
          have e1 := hfixspan (hemin e he)
          have e2 := hfixspan (hraw.inText r' hr').input
          omega
  have hsl := collect_sublist c.breaker (Step.groups ⟨part, st.input, st.offset, kept, raws⟩ (MTree.fixList input st.offset kept)) st.current
  rw [← a2] at hsl
  obtain ⟨m1, m2, m3⟩ := toNext_collected hp.tidy hinv hlen hm h
  refine ⟨?_, ?_, ?_⟩
  · intro x hx
    rcases List.mem_append.1 (hsl.subset hx) with hx | hx
    · exact hrow.leaf x hx
    · have := hgsub x hx
      rw [fixList_eq] at this
      obtain ⟨e, he, rfl⟩ := List.mem_map.1 this
      exact fix_leaf input st.offset (hp.leaf _ _ _ hs e (hsub.subset he))
  · refine List.Pairwise.sublist hsl (List.pairwise_append.2 ⟨hrow.ordered, hgord, ?_⟩)
    intro x hx y hy
    have := hrow.before x hx
    have := hbefore y (hgsub y hy)
    omega
  · intro x hx
    rcases m3 x hx with hx | hx
    · have := hrow.before x hx; omega
    · exact hx.2.2

theorem runParts_row (c : Chain) (input : Str) : ∀ (parts : List Part) (first : Bool) (st st' : ChainSt) (v : Bool),
    (∀ p ∈ parts, PlainPart p) → st.Inv input → st.offset + st.input.length ≤ input.length → Row st →
    c.runParts input first parts st = .ok (st', v) → v = true → Row st'
  | [], first, st, st', v, _, _, _, hr, h, _ => by
    simp only [Chain.runParts, Except.ok.injEq, Prod.mk.injEq] at h
    obtain ⟨rfl, rfl⟩ := h
    exact hr
  | part :: rest, first, st, st', v, hp, hinv, hl, hr, h, hv => by
    unfold Chain.runParts at h
    split at h
    · simp only [Except.ok.injEq, Prod.mk.injEq] at h
      rw [← h.2] at hv; cases hv
    · cases h
    · rename_i kept raws hm
      split at h
      · cases h
      · rename_i s1 hn
        have hpt := hp part (by simp)
        obtain ⟨_, b2, _⟩ := toNext_collected hpt.tidy hinv hl hm hn
        obtain ⟨_, _, _, _, a5, _, _⟩ := toNext_spec hpt.tidy.regular hinv hm hn
        exact runParts_row c input rest false s1 st' v (fun p h => hp p (List.mem_cons_of_mem _ h)) a5 b2 (toNext_row hpt hinv hl hr hm hn) h hv

/-- A leaf below the match that is being built. -/
def LeafBelow (m : Match) (x : MTree) : Prop := x.children = [] ∧ [m.core] <:+ x.root.ancestors

theorem leafBelow_relink {m x : Match} {y : MTree} (h : LeafBelow m y) :
    LeafBelow m (y.relink [x.core] [x.core, m.core]) := by
  refine ⟨by rw [relink_children, h.1]; rfl, ?_⟩
  rw [relink_root]
  show [m.core] <:+ rebase [x.core] [x.core, m.core] y.root.ancestors
  unfold rebase
  split
  · exact ⟨y.root.ancestors.take (y.root.ancestors.length - 1) ++ [x.core], by simp⟩
  · exact h.2

theorem go_leaves (m : Match) : ∀ (n : Nat) (cs xs : List MTree), (∀ x ∈ cs, LeafBelow m x) → (∀ x ∈ xs, x.children = [] ∧ x.root.ancestors = []) →
    (∀ x ∈ Chain.buildChildren.go m n cs xs, LeafBelow m x) ∧
    ((Chain.buildChildren.go m n cs xs).map (fun x => x.root.span)).Sublist ((cs ++ xs).map (fun x => x.root.span))
  | 0, cs, xs, h, _ => by
    have : Chain.buildChildren.go m 0 cs xs = cs := by unfold Chain.buildChildren.go; cases xs <;> rfl
    rw [this]
    exact ⟨h, (List.sublist_append_left cs xs).map _⟩
  | n + 1, cs, [], h, _ => by
    have : Chain.buildChildren.go m (n + 1) cs [] = cs := by unfold Chain.buildChildren.go; rfl
    rw [this]
    exact ⟨h, by simp⟩
  | n + 1, cs, x :: xs, h, hx => by
    unfold Chain.buildChildren.go
    simp only
    obtain ⟨h1, h2⟩ := hx x List.mem_cons_self
    rw [h1, List.append_nil]
    split
    · obtain ⟨g1, g2⟩ := go_leaves m n cs xs h (fun y hy => hx y (List.mem_cons_of_mem _ hy))
      refine ⟨g1, g2.trans ?_⟩
      exact ((List.Sublist.refl cs).append (List.sublist_cons_self x xs)).map _
    · have hcore : ({ x.root with ancestors := [m.core] } : Match).core = x.root.core := rfl
      have hset : (x.setRoot { x.root with ancestors := [m.core] }) = .node { x.root with ancestors := [m.core] } [] := by
        unfold MTree.setRoot
        rw [h1]; rfl
      rw [hset, h2]
      show (∀ y ∈ Chain.buildChildren.go m n (MTree.relinkList [x.root.core] [x.root.core, m.core] cs ++ [.node { x.root with ancestors := [m.core] } []])
        (xs.map (MTree.relink [x.root.core] [x.root.core, m.core])), _) ∧
        ((Chain.buildChildren.go m n (MTree.relinkList [x.root.core] [x.root.core, m.core] cs ++ [.node { x.root with ancestors := [m.core] } []])
        (xs.map (MTree.relink [x.root.core] [x.root.core, m.core]))).map (fun x => x.root.span)).Sublist _
      have hxs : xs.map (MTree.relink [x.root.core] [x.root.core, m.core]) = xs := by
        rw [List.map_congr_left (g := id)]
        · simp
        · intro y hy
          obtain ⟨k1, k2⟩ := hx y (List.mem_cons_of_mem _ hy)
          cases y with
          | node my cy =>
            have k1 : cy = [] := k1
            have k2 : my.ancestors = [] := k2
            subst k1
            have hb : rebase [x.root.core] [x.root.core, m.core] my.ancestors = my.ancestors := by
              have e : my.ancestors = [] := k2
              simp only [e]
              simp [rebase, List.isSuffixOf]
            simp only [MTree.relink, hb, MTree.relinkList, id_eq]
      rw [hxs]
      obtain ⟨g1, g2⟩ := go_leaves m n (MTree.relinkList [x.root.core] [x.root.core, m.core] cs ++ [.node { x.root with ancestors := [m.core] } []]) xs (by
        intro y hy
        rcases List.mem_append.1 hy with hy | hy
        · rw [relinkList_eq] at hy
          obtain ⟨z, hz, rfl⟩ := List.mem_map.1 hy
          exact leafBelow_relink (h z hz)
        · rw [List.mem_singleton] at hy
          subst hy
          exact ⟨rfl, List.suffix_refl _⟩) (fun y hy => hx y (List.mem_cons_of_mem _ hy))
      refine ⟨g1, ?_⟩
      have e : ((MTree.relinkList [x.root.core] [x.root.core, m.core] cs ++ [MTree.node { x.root with ancestors := [m.core] } []] ++ xs).map
          (fun y : MTree => y.root.span)) = (cs ++ x :: xs).map (fun y : MTree => y.root.span) := by
        rw [relinkList_eq]
        simp only [List.map_append, List.map_map, List.map_cons, List.append_assoc, List.cons_append, List.nil_append]
        congr 1
        apply List.map_congr_left
        intro y _
        exact (relink_same [x.root.core] [x.root.core, m.core] y).span.symm
      rw [← e]
      exact g2

theorem rebase_other {x m : Match} (h : x.core ≠ m.core) : rebase [x.core] [x.core, m.core] [m.core] = [m.core] := by
  unfold rebase
  rw [if_neg]
  intro hs
  rw [List.isSuffixOf_iff_suffix] at hs
  have := hs.eq_of_length rfl
  exact h (List.cons.inj this).1

/-- The children know the match that is being built, and nothing above it, as long as no later one looks like it. -/
theorem go_linked (m : Match) : ∀ (n : Nat) (cs xs : List MTree), (∀ x ∈ cs, x.root.ancestors = [m.core]) → (∀ x ∈ xs, x.children = [] ∧ x.root.ancestors = []) →
    (cs ≠ [] → ∀ x ∈ xs, x.root.core ≠ m.core) → xs.Pairwise (fun _ y => y.root.core ≠ m.core) →
    ∀ x ∈ Chain.buildChildren.go m n cs xs, x.root.ancestors = [m.core]
  | 0, cs, xs, h, _, _, _ => by
    have : Chain.buildChildren.go m 0 cs xs = cs := by unfold Chain.buildChildren.go; cases xs <;> rfl
    rw [this]; exact h
  | n + 1, cs, [], h, _, _, _ => by
    have : Chain.buildChildren.go m (n + 1) cs [] = cs := by unfold Chain.buildChildren.go; rfl
    rw [this]; exact h
  | n + 1, cs, x :: xs, h, hx, hc, hp => by
    unfold Chain.buildChildren.go
    simp only
    obtain ⟨h1, h2⟩ := hx x List.mem_cons_self
    obtain ⟨p1, p2⟩ := List.pairwise_cons.1 hp
    rw [h1, List.append_nil]
    split
    · exact go_linked m n cs xs h (fun y hy => hx y (List.mem_cons_of_mem _ hy)) (fun hne y hy => hc hne y (List.mem_cons_of_mem _ hy)) p2
    · have hset : (x.setRoot { x.root with ancestors := [m.core] }) = .node { x.root with ancestors := [m.core] } [] := by
        unfold MTree.setRoot
        rw [h1]; rfl
      rw [hset, h2]
      have hmap : ∀ y ∈ xs.map (MTree.relink [x.root.core] [x.root.core, m.core]), ∃ z ∈ xs, y.children = z.children.map (MTree.relink [x.root.core] [x.root.core, m.core]) ∧
          y.root.ancestors = rebase [x.root.core] [x.root.core, m.core] z.root.ancestors ∧ y.root.core = z.root.core := by
        intro y hy
        obtain ⟨z, hz, rfl⟩ := List.mem_map.1 hy
        refine ⟨z, hz, relink_children _ _ _, ?_, ?_⟩
        · rw [relink_root]
        · rw [relink_root]; rfl
      refine go_linked m n _ _ ?_ ?_ ?_ ?_
      · intro y hy
        rcases List.mem_append.1 hy with hy | hy
        · rw [relinkList_eq] at hy
          obtain ⟨z, hz, rfl⟩ := List.mem_map.1 hy
          rw [relink_root]
          show rebase _ _ z.root.ancestors = _
          rw [h z hz]
          exact rebase_other (hc (by intro e; rw [e] at hz; cases hz) x List.mem_cons_self)
        · rw [List.mem_singleton] at hy; subst hy; rfl
      · intro y hy
        obtain ⟨z, hz, e1, e2, _⟩ := hmap y hy
        obtain ⟨k1, k2⟩ := hx z (List.mem_cons_of_mem _ hz)
        rw [k1] at e1
        rw [k2] at e2
        exact ⟨e1, e2.trans (by simp [rebase, List.isSuffixOf])⟩
      · intro _ y hy
        obtain ⟨z, hz, _, _, e3⟩ := hmap y hy
        rw [e3]; exact p1 z hz
      · rw [List.pairwise_map]
        refine p2.imp ?_
        intro a b hab
        rw [relink_root]
        exact hab

/-- What is needed of a raw match of a chain. -/
structure Leafy (t : MTree) : Prop where
  below : BelowList (t.root.core :: t.root.ancestors) t.children
  distinct : Distinct t.children
  ordered : LeftToRight t.children
  leaf : ∀ c ∈ t.children, c.children = []
  linked : Linked t

theorem leafy_build {c : Chain} {input : Str} {cur : List MTree} {t : MTree} (h : c.build input cur = .ok t) 
    (hl : ∀ x ∈ cur, x.children = [] ∧ x.root.ancestors = []) (ho : LeftToRight cur) (hne : ∀ x ∈ cur, x.root.start < x.root.stop) : Leafy t := by
  have hbf := build_spec h
  unfold Chain.build at h
  split at h
  · cases h
  · simp only at h
    split at h
    · cases h
    · cases h
      rename_i s e _ _
      obtain ⟨g1, g2⟩ := go_leaves (c.pattern.newMatch input s e) cur.length [] cur (by simp) hl
      rw [List.nil_append] at g2
      have hspan : (cur.map (fun x => x.root.span)).Pairwise (fun a b => a.2 ≤ b.1) := by rw [List.pairwise_map]; exact ho
      have hmem : ∀ sp ∈ (Chain.buildChildren (c.pattern.newMatch input s e) [] cur).map (fun x => x.root.span), sp.1 < sp.2 := by
        intro sp hsp
        obtain ⟨x, hx, rfl⟩ := List.mem_map.1 (g2.subset hsp)
        exact hne x hx
      have hord : LeftToRight (Chain.buildChildren (c.pattern.newMatch input s e) [] cur) := by
        have := hspan.sublist g2
        rw [List.pairwise_map] at this
        exact this
      have hother : cur.Pairwise (fun _ y => y.root.core ≠ (c.pattern.newMatch input s e).core) := by
        refine List.Pairwise.imp_of_mem ?_ ho
        intro a b ha hb hab he
        have k1 := hbf.start.1 a ha
        have k2 := hne a ha
        have k3 : b.root.start = (c.pattern.newMatch input s e).start := congrArg Core.start he
        have k1 : (c.pattern.newMatch input s e).start ≤ a.root.start := k1
        omega
      refine ⟨?_, ?_, hord, fun x hx => (g1 x hx).1, fun x hx => go_linked _ cur.length [] cur (by simp) hl (by simp) hother x hx⟩
      · rw [belowList_iff]
        intro x hx
        obtain ⟨k1, k2⟩ := g1 x hx
        cases x with
        | node mx cx =>
          have k1 : cx = [] := k1
          subst k1
          exact ⟨k2, trivial⟩
      · refine List.Pairwise.imp_of_mem ?_ hord
        rintro x y hx hy hxy ⟨he, _⟩
        have h1 := hmem _ (List.mem_map.2 ⟨x, hx, rfl⟩)
        have e2 : x.root.start = y.root.start := congrArg Prod.fst he
        simp only [Match.span] at h1
        omega

theorem loop_leafy (c : Chain) (input : Str) (hp : ∀ p ∈ c.parts, PlainPart p) :
    ∀ (fuel : Nat) (ci : Str) (o : Int) (acc ts : List MTree), ChainSt.Inv input ⟨false, ci, o, []⟩ → o + ci.length ≤ input.length →
      (∀ t ∈ acc, Leafy t) → c.loop input fuel ci o acc = .ok ts → ∀ t ∈ ts, Leafy t
  | 0, ci, o, acc, ts, _, _, ha, h => by
    unfold Chain.loop at h
    split at h
    · cases h
    · cases h; exact ha
  | fuel + 1, ci, o, acc, ts, hi, hl, ha, h => by
    unfold Chain.loop at h
    split at h
    · rename_i hlt
      have h0 : 0 ≤ o := hi.nonneg
      obtain ⟨_, r2⟩ := runParts_forward c input o h0 (by omega) c.parts true ⟨false, ci, o, []⟩
        (fun p h => (hp p h).tidy.regular.forwardSearch) hi (Int.le_refl o) (by simp) (by simp) (by simp)
      split at h
      · cases h
      · rename_i st v he
        obtain ⟨i1, _⟩ := r2 st v he
        have hinv : ChainSt.Inv input ⟨false, st.input, st.offset, []⟩ := i1
        obtain ⟨c1, c2, c3⟩ := runParts_collected c input o c.parts true ⟨false, ci, o, []⟩ st v (fun p h => (hp p h).tidy) hi hl (Int.le_refl o) (by simp) he
        split at h
        · cases h; exact ha
        · split at h
          · rename_i hcv
            have hv : v = true := by simp only [Bool.and_eq_true] at hcv; exact hcv.2
            split at h
            · cases h
            · rename_i m hm
              have hrow := runParts_row c input c.parts true ⟨false, ci, o, []⟩ st v hp hi hl ⟨by simp, List.Pairwise.nil, by simp⟩ he hv
              refine loop_leafy c input hp fuel _ _ _ ts hinv c1 ?_ h
              intro t ht
              rcases List.mem_append.1 ht with ht | ht
              · exact ha t ht
              · rw [List.mem_singleton] at ht; subst ht
                exact leafy_build hm hrow.leaf hrow.ordered (fun x hx => (nested_iff.1 (c3 hv x hx).1).1.nonempty)
          · exact loop_leafy c input hp fuel _ _ _ ts hinv c1 ha h
    · cases h; exact ha

theorem rawMatches_leafy {c : Chain} {input : Str} {ts : List MTree} (hp : ∀ p ∈ c.parts, PlainPart p) (h : c.rawMatches input = .ok ts) :
    ∀ t ∈ ts, Leafy t :=
  loop_leafy c input hp _ _ _ _ ts (Or.inl ⟨rfl, rfl⟩) (by simp) (by simp) h

end Rebulk
