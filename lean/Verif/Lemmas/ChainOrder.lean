import Verif.Spec.ChainOrder
import Verif.Lemmas.ChainRegular
/-!
# Order of chain matches
-/
namespace Rebulk
open Spec

theorem nested_iff {s : Str} {t : MTree} : Nested s t ↔ InText s t.root ∧ ∀ c ∈ t.children, Within t.root.start t.root.stop c ∧ Nested s c := by
  cases t with
  | node m cs =>
    constructor
    · rintro ⟨h1, h2, h3⟩
      exact ⟨h1, fun c hc => ⟨h2 c hc, h3 c hc⟩⟩
    · rintro ⟨h1, h2⟩
      exact .node h1 (fun c hc => (h2 c hc).1) (fun c hc => (h2 c hc).2)

theorem within_relink {a b : Int} {old new : List Core} {t : MTree} (h : Within a b t) : Within a b (t.relink old new) := by
  unfold Within
  rw [relink_root]; exact h

theorem nested_relink {s : Str} (old new : List Core) {t : MTree} (h : Nested s t) : Nested s (t.relink old new) := by
  induction h with
  | @node m cs h1 h2 h3 ih =>
    rw [nested_iff, relink_root, relink_children]
    refine ⟨sameButLinks_inText (a := m) rfl h1, ?_⟩
    intro c hc
    obtain ⟨c0, hc0, rfl⟩ := List.mem_map.1 hc
    exact ⟨within_relink (h2 c0 hc0), ih c0 hc0⟩

theorem nested_setRoot {s : Str} {t : MTree} {m : Match} (h : Nested s t) (hm : InText s m) (h1 : m.start = t.root.start) (h2 : m.stop = t.root.stop) :
    Nested s (t.setRoot m) := by
  rw [nested_iff] at h
  rw [nested_iff, setRoot_root, setRoot_children]
  refine ⟨hm, ?_⟩
  intro c hc
  obtain ⟨c0, hc0, rfl⟩ := List.mem_map.1 hc
  obtain ⟨h3, h4⟩ := h.2 c0 hc0
  rw [h1, h2]
  exact ⟨within_relink h3, nested_relink _ _ h4⟩

theorem nested_configure {s : Str} {t : MTree} (p : Pattern) (idx : Nat) (child : Bool) (h : Nested s t) : Nested s (p.processMatch idx child t).1 := by
  obtain ⟨h1, _, _, h4, h5⟩ := configure_inText (p := p) (idx := idx) (child := child) (nested_iff.1 h).1
  exact nested_setRoot h h1 h4 h5

theorem nested_fix {input s : Str} {pos : Int} (hz : s = input → pos = 0) (h0 : 0 ≤ pos) (hl : pos + s.length ≤ input.length) {t : MTree}
    (h : Nested s t) : Nested input (t.fix input pos) := by
  have span : ∀ t : MTree, InText s t.root → (t.fix input pos).root.start = t.root.start + pos ∧ (t.fix input pos).root.stop = t.root.stop + pos := by
    intro t ht
    have hs := (fix_moved (pos := pos) (t := t) ht.input hz).span
    exact ⟨congrArg Prod.fst hs, congrArg Prod.snd hs⟩
  induction h with
  | @node m cs h1 h2 h3 ih =>
    obtain ⟨g, hg1, hg⟩ := fix_children input pos (.node m cs)
    rw [nested_iff, hg]
    have hm := fix_moved (pos := pos) (t := .node m cs) h1.input hz
    obtain ⟨e1, e2⟩ := span (.node m cs) h1
    have e1' : ((MTree.node m cs).fix input pos).root.start = m.start + pos := e1
    have e2' : ((MTree.node m cs).fix input pos).root.stop = m.stop + pos := e2
    refine ⟨⟨?_, ?_, ?_, hm.input, ?_⟩, ?_⟩
    · rw [e1']; have := h1.lo; omega
    · rw [e1', e2']; have := h1.nonempty; omega
    · rw [e2']; have := h1.hi; omega
    · have := hm.raw; exact ⟨this.1.trans h1.raw.1, this.2.trans h1.raw.2⟩
    · intro c hc
      obtain ⟨c0, hc0, rfl⟩ := List.mem_map.1 hc
      have hn := ih c0 hc0
      have hgn : Nested input (g (c0.fix input pos)) ∧ (g (c0.fix input pos)).root.span = (c0.fix input pos).root.span := by
        rcases hg1 with rfl | ⟨old, new, rfl⟩
        · exact ⟨hn, rfl⟩
        · exact ⟨nested_relink _ _ hn, (relink_same _ _ _).span.symm⟩
      refine ⟨?_, hgn.1⟩
      have k1 : (g (c0.fix input pos)).root.start = (c0.fix input pos).root.start := congrArg Prod.fst hgn.2
      have k2 : (g (c0.fix input pos)).root.stop = (c0.fix input pos).root.stop := congrArg Prod.snd hgn.2
      obtain ⟨f1, f2⟩ := span c0 (nested_iff.1 (h3 c0 hc0)).1
      obtain ⟨g1, g2⟩ := h2 c0 hc0
      unfold Within
      rw [e1', e2', k1, k2, f1, f2]
      omega

/-- What is collected by an attempt: nested matches between two positions. -/
def Collected (input : Str) (a b : Int) (x : MTree) : Prop := Nested input x ∧ Within a b x

theorem Collected.mono {input : Str} {a b a' b' : Int} {x : MTree} (h : Collected input a b x) (h1 : a' ≤ a) (h2 : b ≤ b') : Collected input a' b' x :=
  ⟨h.1, by have := h.2.1; omega, by have := h.2.2; omega⟩

theorem raws_last {s : Str} {raws : List MTree} (h : RawList s raws) {r last : MTree} (hr : r ∈ raws) (hl : raws.getLast? = some last) :
    r.root.stop ≤ last.root.stop := by
  obtain ⟨l, rfl⟩ : ∃ l, raws = l ++ [last] := by
    rw [List.getLast?_eq_some_iff] at hl; exact hl
  rcases List.mem_append.1 hr with hr | hr
  · have := (List.pairwise_append.1 h.ordered).2.2 r hr last (by simp)
    have := (h.inText last (by simp)).nonempty
    omega
  · rw [List.mem_singleton] at hr; subst hr; exact Int.le_refl _

theorem rawList_prefix {s : Str} {raws l : List MTree} (h : RawList s raws) (hp : l <+: raws) : RawList s l :=
  ⟨fun r hr => h.inText r (hp.subset hr), fun r hr => h.top r (hp.subset hr), h.ordered.sublist hp.sublist, prefix_index hp h.index⟩

theorem toNext_collected {c : Chain} {input : Str} {part : Part} {first : Bool} {st st' : ChainSt} {kept raws : List MTree}
    (hp : TidyPart part) (hinv : st.Inv input) (hlen : st.offset + st.input.length ≤ input.length)
    (hm : part.matchesOf first st.input = .ok (kept, raws)) (h : c.toNext input part kept raws st = .ok st') :
    st.offset ≤ st'.offset ∧ st'.offset + st'.input.length ≤ input.length ∧
    ∀ x ∈ st'.current, x ∈ st.current ∨ Collected input st.offset st'.offset x := by
  obtain ⟨a1, a2, a3, a4, a5, a6, a7⟩ := toNext_spec hp.regular hinv hm h
  obtain ⟨em0, raws0, hs, hk, hr, _⟩ := matchesOf_ok hm
  have hraw := hp.regular.raws _ _ _ hs
  have hpre := (truncate_raws hraw first part.stop).1
  rw [← hr] at hpre
  have hraw' := rawList_prefix hraw hpre
  have h0 := hinv.nonneg
  cases hl : raws.getLast? with
  | none =>
    have hnil : raws = [] := List.getLast?_eq_none_iff.1 hl
    rw [a7 hnil]
    exact ⟨Int.le_refl _, hlen, fun x hx => Or.inl hx⟩
  | some last =>
    have hlast := hraw'.inText last (List.mem_of_getLast? hl)
    have l1 := hlast.lo
    have l2 := hlast.nonempty
    have l3 := hlast.hi
    have e3 : st'.offset = st.offset + last.root.stop := by rw [a3]; simp [Step.nextPos, hl]
    have e4 : st'.input = input.drop (st.offset + last.root.stop).toNat := by rw [a4]; simp [Step.nextText, hl]
    refine ⟨by omega, ?_, ?_⟩
    · rw [e4, e3, List.length_drop]; omega
    · intro x hx
      rw [a2] at hx
      rcases collect_mem _ _ _ hx with hx | ⟨g, hg, hx⟩
      · exact Or.inl hx
      · right
        unfold Step.groups at hg
        split at hg
        · cases hg
        · unfold repetitions at hg
          obtain ⟨i, hi, rfl⟩ := List.mem_map.1 hg
          have hi := List.mem_range.1 hi
          obtain ⟨hxm, hxi⟩ := List.mem_filter.1 hx
          have hxi := of_decide_eq_true hxi
          rw [fixList_eq] at hxm
          obtain ⟨e, he, rfl⟩ := List.mem_map.1 hxm
          rw [fix_index] at hxi
          have he0 : e ∈ em0 := truncate_sub.subset (hk ▸ he)
          have hn := hp.nested _ _ _ hs e he0
          refine ⟨nested_fix hinv.zero h0 hlen hn, ?_⟩
          obtain ⟨r, hr0, hri, hw1, hw2⟩ := hp.within _ _ _ hs e he0
          obtain ⟨j, hj⟩ := List.getElem?_of_mem hr0
          have hji : j = i := by rw [← hraw.index j r hj, hri, hxi]
          subst hji
          have hrm : r ∈ raws := by
            obtain ⟨l, rfl⟩ := hpre
            rw [List.getElem?_append_left hi] at hj
            exact List.mem_of_getElem? hj
          have hle := raws_last hraw' hrm hl
          have hro := (hraw'.inText r hrm).lo
          have hsp := (fix_moved (pos := st.offset) (t := e) (nested_iff.1 hn).1.input hinv.zero).span
          have s1 : (e.fix input st.offset).root.start = e.root.start + st.offset := congrArg Prod.fst hsp
          have s2 : (e.fix input st.offset).root.stop = e.root.stop + st.offset := congrArg Prod.snd hsp
          unfold Within
          rw [s1, s2, e3]
          omega

theorem runParts_collected (c : Chain) (input : Str) (base : Int) : ∀ (parts : List Part) (first : Bool) (st st' : ChainSt) (v : Bool),
    (∀ p ∈ parts, TidyPart p) → st.Inv input → st.offset + st.input.length ≤ input.length → base ≤ st.offset →
    (∀ x ∈ st.current, Collected input base st.offset x) → c.runParts input first parts st = .ok (st', v) →
    st'.offset + st'.input.length ≤ input.length ∧ base ≤ st'.offset ∧ (v = true → ∀ x ∈ st'.current, Collected input base st'.offset x)
  | [], first, st, st', v, _, _, hl, hb, hc, h => by
    simp only [Chain.runParts, Except.ok.injEq, Prod.mk.injEq] at h
    obtain ⟨rfl, rfl⟩ := h
    exact ⟨hl, hb, fun _ => hc⟩
  | part :: rest, first, st, st', v, hp, hinv, hl, hb, hc, h => by
    unfold Chain.runParts at h
    split at h
    · simp only [Except.ok.injEq, Prod.mk.injEq] at h
      obtain ⟨rfl, rfl⟩ := h
      cases hcur : st.current with
      | nil => simp only [hcur] at *; exact ⟨hl, hb, by simp⟩
      | cons x xs =>
        obtain ⟨hn, hw1, hw2⟩ := hc x (by rw [hcur]; simp)
        have hin := (nested_iff.1 hn).1
        have hre : x.root.rawEndOf = x.root.stop := by unfold Match.rawEndOf; rw [hin.raw.2]; rfl
        have := hin.nonempty
        refine ⟨?_, ?_, by simp⟩
        · show x.root.rawEndOf + _ ≤ _; rw [hre]
          show x.root.stop + (st.input.length : Int) ≤ _
          omega
        · show base ≤ x.root.rawEndOf; omega
    · cases h
    · rename_i kept raws hm
      split at h
      · cases h
      · rename_i s1 hn
        have hpt := hp part (by simp)
        obtain ⟨b1, b2, b3⟩ := toNext_collected hpt hinv hl hm hn
        obtain ⟨_, _, _, _, a5, _, _⟩ := toNext_spec hpt.regular hinv hm hn
        refine runParts_collected c input base rest false s1 st' v (fun p h => hp p (List.mem_cons_of_mem _ h)) a5 b2 (by omega) ?_ h
        intro x hx
        rcases b3 x hx with hx | hx
        · exact (hc x hx).mono (Int.le_refl _) b1
        · exact hx.mono hb (Int.le_refl _)

theorem collected_buildChildren {input : Str} {a b : Int} (m : Match) : ∀ (n : Nat) (cs xs : List MTree), (∀ x ∈ cs, Collected input a b x) →
    (∀ x ∈ xs, Collected input a b x) → ∀ x ∈ Chain.buildChildren.go m n cs xs, Collected input a b x
  | 0, cs, xs, h, _ => by unfold Chain.buildChildren.go; cases xs <;> exact h
  | n + 1, cs, [], h, _ => by unfold Chain.buildChildren.go; exact h
  | n + 1, cs, x :: xs, h, hx => by
    unfold Chain.buildChildren.go
    simp only
    obtain ⟨hn, hw⟩ := hx x List.mem_cons_self
    have hn' := nested_iff.1 hn
    have hcs : ∀ y ∈ cs ++ x.children, Collected input a b y := by
      intro y hy
      rcases List.mem_append.1 hy with hy | hy
      · exact h y hy
      · obtain ⟨h1, h2⟩ := hn'.2 y hy
        exact ⟨h2, by have := h1.1; have := hw.1; exact Int.le_trans hw.1 h1.1, Int.le_trans h1.2 hw.2⟩
    split
    · exact collected_buildChildren m n _ xs hcs (fun y hy => hx y (List.mem_cons_of_mem _ hy))
    · refine collected_buildChildren m n _ _ ?_ ?_
      · intro y hy
        rw [relinkList_eq] at hy
        rcases List.mem_append.1 hy with hy | hy
        · obtain ⟨z, hz, rfl⟩ := List.mem_map.1 hy
          exact ⟨nested_relink _ _ (hcs z hz).1, within_relink (hcs z hz).2⟩
        · rw [List.mem_singleton] at hy; subst hy
          exact ⟨nested_setRoot hn (sameButLinks_inText (a := x.root) rfl hn'.1) rfl rfl, hw⟩
      · intro y hy
        obtain ⟨z, hz, rfl⟩ := List.mem_map.1 hy
        have := hx z (List.mem_cons_of_mem _ hz)
        exact ⟨nested_relink _ _ this.1, within_relink this.2⟩

theorem build_collected {c : Chain} {input : Str} {a b : Int} {cur : List MTree} {t : MTree} (hc : ∀ x ∈ cur, Collected input a b x)
    (h : c.build input cur = .ok t) : Collected input a b t ∧ t.root.ancestors = [] := by
  have hb := build_spec h
  have hw : Within a b t := by
    obtain ⟨x, hx, h1⟩ := hb.start.2
    obtain ⟨y, hy, h2⟩ := hb.stop.2
    have := (hc x hx).2.1; have := (hc y hy).2.2
    exact ⟨by omega, by omega⟩
  have hin : InText input t.root ∧ t.root.ancestors = [] := by
    obtain ⟨x, hx, h1⟩ := hb.start.2
    obtain ⟨y, hy, h2⟩ := hb.stop.2
    have hxn := (nested_iff.1 (hc x hx).1).1
    have hyn := (nested_iff.1 (hc y hy).1).1
    have := hxn.lo; have := hxn.nonempty; have := hyn.hi; have := hb.stop.1 x hx
    unfold Chain.build at h
    split at h
    · cases h
    · simp only at h
      split at h
      · cases h
      · cases h
        exact ⟨⟨by omega, by omega, by omega, rfl, rfl, rfl⟩, rfl⟩
  have hch : ∀ k ∈ t.children, Collected input t.root.start t.root.stop k := by
    have hcur : ∀ x ∈ cur, Collected input t.root.start t.root.stop x := fun x hx => ⟨(hc x hx).1, hb.start.1 x hx, hb.stop.1 x hx⟩
    generalize t.root.start = a' at hcur ⊢
    generalize t.root.stop = b' at hcur ⊢
    unfold Chain.build at h
    split at h
    · cases h
    · simp only at h
      split at h
      · cases h
      · cases h
        exact collected_buildChildren _ _ _ _ (by simp) hcur
  exact ⟨⟨nested_iff.2 ⟨hin.1, fun k hk => ⟨(hch k hk).2, (hch k hk).1⟩⟩, hw⟩, hin.2⟩

theorem loop_order (c : Chain) (input : Str) (hp : ∀ p ∈ c.parts, TidyPart p) :
    ∀ (fuel : Nat) (ci : Str) (o : Int) (acc ts : List MTree), ChainSt.Inv input ⟨false, ci, o, []⟩ → o + ci.length ≤ input.length →
      (∀ t ∈ acc, (Collected input 0 o t ∧ t.root.ancestors = [])) → LeftToRight acc →
      c.loop input fuel ci o acc = .ok ts → (∀ t ∈ ts, Nested input t ∧ t.root.ancestors = []) ∧ LeftToRight ts
  | 0, ci, o, acc, ts, _, _, ha, ho, h => by
    unfold Chain.loop at h
    split at h
    · cases h
    · cases h; exact ⟨fun t ht => ⟨(ha t ht).1.1, (ha t ht).2⟩, ho⟩
  | fuel + 1, ci, o, acc, ts, hi, hl, ha, ho, h => by
    have hdone : (∀ t ∈ acc, Nested input t ∧ t.root.ancestors = []) ∧ LeftToRight acc := ⟨fun t ht => ⟨(ha t ht).1.1, (ha t ht).2⟩, ho⟩
    unfold Chain.loop at h
    split at h
    · rename_i hlt
      have h0 : 0 ≤ o := hi.nonneg
      obtain ⟨_, r2⟩ := runParts_forward c input o h0 (by omega) c.parts true ⟨false, ci, o, []⟩
        (fun p h => (hp p h).regular.forwardSearch) hi (Int.le_refl o) (by simp) (by simp) (by simp)
      split at h
      · cases h
      · rename_i st v he
        obtain ⟨i1, _⟩ := r2 st v he
        have hinv : ChainSt.Inv input ⟨false, st.input, st.offset, []⟩ := i1
        obtain ⟨c1, c2, c3⟩ := runParts_collected c input o c.parts true ⟨false, ci, o, []⟩ st v hp hi hl (Int.le_refl o) (by simp) he
        have hacc : ∀ t ∈ acc, Collected input 0 st.offset t ∧ t.root.ancestors = [] := fun t ht => ⟨(ha t ht).1.mono (Int.le_refl _) c2, (ha t ht).2⟩
        split at h
        · cases h; exact hdone
        · split at h
          · rename_i hcv
            have hv : v = true := by simp only [Bool.and_eq_true] at hcv; exact hcv.2
            split at h
            · cases h
            · rename_i m hm
              obtain ⟨d1, d2⟩ := build_collected (c3 hv) hm
              refine loop_order c input hp fuel _ _ _ ts hinv c1 ?_ ?_ h
              · intro t ht
                rcases List.mem_append.1 ht with ht | ht
                · exact hacc t ht
                · rw [List.mem_singleton] at ht; subst ht
                  exact ⟨d1.mono h0 (Int.le_refl _), d2⟩
              · refine List.pairwise_append.2 ⟨ho, List.pairwise_singleton _ _, ?_⟩
                intro x hx y hy
                rw [List.mem_singleton] at hy; subst hy
                have := (ha x hx).1.2.2
                have := d1.2.1
                omega
          · exact loop_order c input hp fuel _ _ _ ts hinv c1 hacc ho h
    · cases h; exact hdone

theorem rawMatches_order {c : Chain} {input : Str} {ts : List MTree} (hp : ∀ p ∈ c.parts, TidyPart p) (h : c.rawMatches input = .ok ts) :
    (∀ t ∈ ts, Nested input t ∧ t.root.ancestors = []) ∧ LeftToRight ts :=
  loop_order c input hp _ _ _ _ ts (Or.inl ⟨rfl, rfl⟩) (by simp) (by simp) List.Pairwise.nil h

end Rebulk
