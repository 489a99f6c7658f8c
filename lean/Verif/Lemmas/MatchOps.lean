import Verif.Model.MatchOps
import Verif.Lemmas.Holes
/-!
# Lemmas on `crop` and `split`
-/
namespace Rebulk
open Spec

/-! ### `crop` -/

/-- What one crop leaves of a span. -/
def cut (s e : Int) (x : Int × Int) : List (Int × Int) :=
  if s ≤ x.1 ∧ e ≥ x.2 then []
  else if s ≥ x.1 ∧ e ≤ x.2 then (if x.1 < s then [(x.1, s)] else []) ++ (if e < x.2 then [(e, x.2)] else [])
  else if x.2 ≥ e ∧ e > x.1 then [(e, x.2)]
  else if x.1 ≤ s ∧ s < x.2 then [(x.1, s)]
  else [x]

/-- Disjoint spans. -/
def Disj (x y : Int × Int) : Prop := x.2 ≤ y.1 ∨ y.2 ≤ x.1

/-- Non-empty disjoint spans. -/
def GoodSpans (l : List (Int × Int)) : Prop := (∀ x ∈ l, x.1 < x.2) ∧ l.Pairwise Disj

theorem Disj.symm {x y : Int × Int} (h : Disj x y) : Disj y x := Or.symm h

theorem GoodSpans.perm {l l' : List (Int × Int)} (h : GoodSpans l) (hp : l.Perm l') : GoodSpans l' :=
  ⟨fun x hx => h.1 x (hp.mem_iff.2 hx), (hp.pairwise_iff Disj.symm).1 h.2⟩

theorem cut_nonempty {s e : Int} (hse : s ≤ e) {x : Int × Int} (hx : x.1 < x.2) : ∀ y ∈ cut s e x, y.1 < y.2 := by
  intro y hy
  unfold cut at hy
  split at hy
  · cases hy
  · split at hy
    · rcases List.mem_append.1 hy with hy | hy
      · split at hy
        · simp only [List.mem_singleton] at hy; subst hy; assumption
        · cases hy
      · split at hy
        · simp only [List.mem_singleton] at hy; subst hy; assumption
        · cases hy
    · split at hy
      · simp only [List.mem_singleton] at hy; subst hy; simp only; omega
      · split at hy
        · simp only [List.mem_singleton] at hy; subst hy; simp only; omega
        · simp only [List.mem_singleton] at hy; subst hy; exact hx

theorem cut_covers {s e : Int} (hse : s ≤ e) (x : Int × Int) (i : Int) :
    (∃ y ∈ cut s e x, y.1 ≤ i ∧ i < y.2) ↔ (x.1 ≤ i ∧ i < x.2) ∧ ¬ (s ≤ i ∧ i < e) := by
  unfold cut
  by_cases h1 : s ≤ x.1 ∧ e ≥ x.2
  · rw [if_pos h1]; simp; omega
  · rw [if_neg h1]
    by_cases h2 : s ≥ x.1 ∧ e ≤ x.2
    · rw [if_pos h2]
      by_cases h3 : x.1 < s <;> by_cases h4 : e < x.2 <;> simp [h3, h4] <;> omega
    · rw [if_neg h2]
      by_cases h3 : x.2 ≥ e ∧ e > x.1
      · rw [if_pos h3]; simp; omega
      · rw [if_neg h3]
        by_cases h4 : x.1 ≤ s ∧ s < x.2
        · rw [if_pos h4]; simp; omega
        · rw [if_neg h4]; simp; omega

theorem cut_sub {s e : Int} (hse : s ≤ e) {x : Int × Int} (hx : x.1 < x.2) : ∀ y ∈ cut s e x, x.1 ≤ y.1 ∧ y.2 ≤ x.2 := by
  intro y hy
  have hne := cut_nonempty hse hx y hy
  have h1 := ((cut_covers hse x y.1).1 ⟨y, hy, by omega, by omega⟩).1
  have h2 := ((cut_covers hse x (y.2 - 1)).1 ⟨y, hy, by omega, by omega⟩).1
  omega

theorem cut_edges {s e : Int} (x : Int × Int) : ∀ y ∈ cut s e x, (y.1 = x.1 ∨ y.1 = e) ∧ (y.2 = x.2 ∨ y.2 = s) := by
  intro y hy
  unfold cut at hy
  split at hy
  · cases hy
  · split at hy
    · rcases List.mem_append.1 hy with hy | hy
      · split at hy
        · simp only [List.mem_singleton] at hy; subst hy; simp
        · cases hy
      · split at hy
        · simp only [List.mem_singleton] at hy; subst hy; simp
        · cases hy
    · split at hy
      · simp only [List.mem_singleton] at hy; subst hy; simp
      · split at hy
        · simp only [List.mem_singleton] at hy; subst hy; simp
        · simp only [List.mem_singleton] at hy; subst hy; simp

theorem cut_good {s e : Int} (hse : s ≤ e) {x : Int × Int} (hx : x.1 < x.2) : GoodSpans (cut s e x) := by
  refine ⟨cut_nonempty hse hx, ?_⟩
  unfold cut
  split
  · simp
  · split
    · split <;> split <;> simp [Disj]; omega
    · split
      · simp
      · split <;> simp

theorem goodSpans_append {l₁ l₂ : List (Int × Int)} :
    GoodSpans (l₁ ++ l₂) ↔ GoodSpans l₁ ∧ GoodSpans l₂ ∧ ∀ x ∈ l₁, ∀ y ∈ l₂, Disj x y := by
  unfold GoodSpans
  rw [List.pairwise_append]
  constructor
  · rintro ⟨h1, h2, h3, h4⟩
    exact ⟨⟨fun x hx => h1 x (List.mem_append_left _ hx), h2⟩, ⟨fun x hx => h1 x (List.mem_append_right _ hx), h3⟩, h4⟩
  · rintro ⟨⟨h1, h2⟩, ⟨h3, h4⟩, h5⟩
    refine ⟨?_, h2, h4, h5⟩
    intro x hx
    rcases List.mem_append.1 hx with hx | hx
    · exact h1 x hx
    · exact h3 x hx

theorem flatMap_cut_good {s e : Int} (hse : s ≤ e) {l : List (Int × Int)} (h : GoodSpans l) : GoodSpans (l.flatMap (cut s e)) := by
  induction l with
  | nil => exact ⟨by simp, by simp⟩
  | cons x l ih =>
    have h' : GoodSpans ([x] ++ l) := h
    rw [goodSpans_append] at h'
    obtain ⟨hx, hl, hd⟩ := h'
    have hx0 := hx.1 x (by simp)
    rw [List.flatMap_cons, goodSpans_append]
    refine ⟨cut_good hse hx0, ih hl, ?_⟩
    intro y hy z hz
    rw [List.mem_flatMap] at hz
    obtain ⟨w, hw, hz⟩ := hz
    have h1 := cut_sub hse hx0 y hy
    have h2 := cut_sub hse (hl.1 w hw) z hz
    have := hd x (by simp) w hw
    unfold Disj at this ⊢
    omega

theorem cropRemove_spec {h : SpanHeap} {ret rest : List Nat} {cur : Nat} (hp : ret.Perm (cur :: rest))
    (hd : ∀ j ∈ rest, h.span j ≠ h.span cur) : ∃ r, cropRemove h ret cur = .ok r ∧ r.Perm rest := by
  unfold cropRemove
  cases hr : removeFirst (fun j => decide (h.span j = h.span cur)) ret with
  | none =>
    have := (removeFirst_none _ _).1 hr cur (hp.mem_iff.2 List.mem_cons_self)
    simp at this
  | some r =>
    refine ⟨r, rfl, ?_⟩
    obtain ⟨a, x, b, h1, h2, h3, _⟩ := removeFirst_some _ _ _ hr
    simp only [decide_eq_true_eq] at h3
    have hx : x = cur := by
      have : x ∈ cur :: rest := hp.mem_iff.1 (by rw [h1]; simp)
      rcases List.mem_cons.1 this with h | h
      · exact h
      · exact absurd h3 (hd x h)
    subst hx
    rw [h1] at hp
    rw [h2]
    exact (List.perm_cons x).1 (List.perm_middle.symm.trans hp)

theorem disj_ne {x y : Int × Int} (h : Disj x y) (hx : x.1 < x.2) : x ≠ y := by
  rintro rfl; unfold Disj at h; omega

theorem cropOne_spec {s e : Int} (hse : s ≤ e) {h : SpanHeap} {ret rest : List Nat} {cur : Nat} (hp : ret.Perm (cur :: rest))
    (hnd : ret.Nodup) (hlt : ∀ j ∈ ret, j < h.next) (hg : GoodSpans (ret.map h.span)) :
    ∃ h' ret' new, cropOne s e h ret cur = .ok (h', ret') ∧ ret'.Perm (new ++ rest) ∧ ret'.Nodup ∧ (∀ j ∈ ret', j < h'.next) ∧
      (∀ j ∈ rest, h'.span j = h.span j) ∧ new.map h'.span = cut s e (h.span cur) := by
  have hnd' : (cur :: rest).Nodup := hp.nodup_iff.1 hnd
  obtain ⟨hcr, hndr⟩ := List.nodup_cons.1 hnd'
  have hg' : GoodSpans ((cur :: rest).map h.span) := hg.perm (hp.map _)
  have hcur : (h.span cur).1 < (h.span cur).2 := hg'.1 _ (by simp)
  have hdis : ∀ j ∈ rest, Disj (h.span cur) (h.span j) := by
    intro j hj
    have := hg'.2
    rw [List.map_cons, List.pairwise_cons] at this
    exact this.1 _ (List.mem_map_of_mem hj)
  have hrest : ∀ j ∈ rest, (h.span j).1 < (h.span j).2 := fun j hj => hg'.1 _ (List.mem_map_of_mem (List.mem_cons_of_mem _ hj))
  have hne : ∀ j ∈ rest, j ≠ cur := fun j hj hc => hcr (hc ▸ hj)
  have hltc : cur < h.next := hlt cur (hp.mem_iff.2 List.mem_cons_self)
  have hltr : ∀ j ∈ rest, j < h.next := fun j hj => hlt j (hp.mem_iff.2 (List.mem_cons_of_mem _ hj))
  unfold cropOne
  simp only
  by_cases h1 : s ≤ (h.span cur).1 ∧ e ≥ (h.span cur).2
  · rw [if_pos h1]
    obtain ⟨r, hr, hrp⟩ := cropRemove_spec (h := h) hp (fun j hj hc => disj_ne (hdis j hj) hcur hc.symm)
    rw [hr]
    refine ⟨h, r, [], rfl, by simpa using hrp, hrp.nodup_iff.2 hndr, fun j hj => hltr j (hrp.mem_iff.1 hj), fun _ _ => rfl, ?_⟩
    simp [cut, h1]
  · rw [if_neg h1]
    by_cases h2 : s ≥ (h.span cur).1 ∧ e ≤ (h.span cur).2
    · rw [if_pos h2]
      -- heap after the allocation and the move of the end
      generalize hh2 : ((h.alloc (h.span cur)).1.setEnd cur s) = h2'
      have e1 : (h.alloc (h.span cur)).2 = h.next := rfl
      rw [e1]
      have sc : h2'.span cur = ((h.span cur).1, s) := by
        rw [← hh2]; simp [SpanHeap.setEnd, SpanHeap.alloc]
      have sn : h2'.span h.next = h.span cur := by
        rw [← hh2]; simp only [SpanHeap.setEnd, SpanHeap.alloc]
        rw [if_neg (by omega)]; simp
      have sj : ∀ j ∈ rest, h2'.span j = h.span j := by
        intro j hj
        rw [← hh2]; simp only [SpanHeap.setEnd, SpanHeap.alloc]
        rw [if_neg (hne j hj), if_neg (by have := hltr j hj; omega)]
      have nx : h2'.next = h.next + 1 := by rw [← hh2]; rfl
      have ht : h2'.truthy cur = .ok (s - (h.span cur).1 != 0) := by
        unfold SpanHeap.truthy; rw [sc]; simp only; rw [if_neg (by omega)]
      rw [ht]
      simp only
      -- the left part
      obtain ⟨ret1, new1, hr1, hp1, hn1, hmap1⟩ : ∃ ret1 new1,
          (if (s - (h.span cur).1 != 0) = true then Except.ok ret else cropRemove h2' ret cur) = .ok ret1 ∧
          ret1.Perm (new1 ++ rest) ∧ (new1 = [] ∨ new1 = [cur]) ∧
          new1.map h2'.span = (if (h.span cur).1 < s then [((h.span cur).1, s)] else []) := by
        by_cases hs : (h.span cur).1 < s
        · refine ⟨ret, [cur], ?_, hp, Or.inr rfl, ?_⟩
          · rw [if_pos (by simp; omega)]
          · simp [sc, hs]
        · have hseq : s = (h.span cur).1 := by omega
          obtain ⟨r, hr, hrp⟩ := cropRemove_spec (h := h2') hp (by
            intro j hj hc
            rw [sc, sj j hj] at hc
            have := hrest j hj
            rw [hc] at this
            simp only at this; omega)
          refine ⟨r, [], ?_, by simpa using hrp, Or.inl rfl, by simp [hs]⟩
          rw [if_neg (by simp; omega), hr]
      rw [hr1]
      simp only
      -- the right part
      generalize hh3 : h2'.setStart h.next e = h3
      have sn3 : h3.span h.next = (e, (h.span cur).2) := by
        rw [← hh3]; simp [SpanHeap.setStart, sn]
      have so3 : ∀ j, j ≠ h.next → h3.span j = h2'.span j := by
        intro j hj; rw [← hh3]; simp [SpanHeap.setStart, hj]
      have nx3 : h3.next = h.next + 1 := by rw [← hh3]; exact nx
      have ht3 : h3.truthy h.next = .ok ((h.span cur).2 - e != 0) := by
        unfold SpanHeap.truthy; rw [sn3]; simp only; rw [if_neg (by omega)]
      rw [ht3]
      simp only
      have hnew1lt : ∀ j ∈ new1, j < h.next := by
        intro j hj
        rcases hn1 with h | h
        · rw [h] at hj; cases hj
        · rw [h] at hj; simp only [List.mem_singleton] at hj; omega
      have hmap3 : new1.map h3.span = new1.map h2'.span :=
        List.map_congr_left (fun j hj => so3 j (by have := hnew1lt j hj; omega))
      have hret1lt : ∀ j ∈ ret1, j < h.next := by
        intro j hj
        rcases List.mem_append.1 (hp1.mem_iff.1 hj) with h | h
        · exact hnew1lt j h
        · exact hltr j h
      have hret1nd : ret1.Nodup := by
        rw [hp1.nodup_iff]
        rcases hn1 with h | h
        · rw [h]; exact hndr
        · rw [h]; exact hnd'
      have hrestspan : ∀ j ∈ rest, h3.span j = h.span j := by
        intro j hj; rw [so3 j (by have := hltr j hj; omega)]; exact sj j hj
      have hcut : cut s e (h.span cur) = (if (h.span cur).1 < s then [((h.span cur).1, s)] else []) ++
          (if e < (h.span cur).2 then [(e, (h.span cur).2)] else []) := by
        unfold cut; rw [if_neg h1, if_pos h2]
      by_cases he : e < (h.span cur).2
      · rw [if_pos (by simp; omega)]
        refine ⟨h3, ret1 ++ [h.next], new1 ++ [h.next], rfl, ?_, ?_, ?_, hrestspan, ?_⟩
        · have : (new1 ++ [h.next] ++ rest).Perm (new1 ++ rest ++ [h.next]) := by
            rw [List.append_assoc, List.append_assoc]
            exact List.Perm.append_left _ List.perm_append_comm
          exact (hp1.append_right _).trans this.symm
        · rw [List.nodup_append]
          refine ⟨hret1nd, by simp, ?_⟩
          intro a ha b hb
          simp only [List.mem_singleton] at hb
          have := hret1lt a ha; omega
        · intro j hj
          rcases List.mem_append.1 hj with hj | hj
          · have := hret1lt j hj; omega
          · simp only [List.mem_singleton] at hj; omega
        · rw [List.map_append, hmap3, hmap1, hcut, if_pos he]; simp [sn3]
      · rw [if_neg (by simp; omega)]
        refine ⟨h3, ret1, new1, rfl, hp1, hret1nd, fun j hj => by have := hret1lt j hj; omega, hrestspan, ?_⟩
        rw [hmap3, hmap1, hcut, if_neg he]; simp
    · rw [if_neg h2]
      by_cases h3 : (h.span cur).2 ≥ e ∧ e > (h.span cur).1
      · rw [if_pos h3]
        refine ⟨h.setStart cur e, ret, [cur], rfl, hp, hnd, hlt, ?_, ?_⟩
        · intro j hj; simp [SpanHeap.setStart, hne j hj]
        · unfold cut; rw [if_neg h1, if_neg h2, if_pos h3]; simp [SpanHeap.setStart]
      · rw [if_neg h3]
        by_cases h4 : (h.span cur).1 ≤ s ∧ s < (h.span cur).2
        · rw [if_pos h4]
          refine ⟨h.setEnd cur s, ret, [cur], rfl, hp, hnd, hlt, ?_, ?_⟩
          · intro j hj; simp [SpanHeap.setEnd, hne j hj]
          · unfold cut; rw [if_neg h1, if_neg h2, if_neg h3, if_pos h4]; simp [SpanHeap.setEnd]
        · rw [if_neg h4]
          refine ⟨h, ret, [cur], rfl, hp, hnd, hlt, fun _ _ => rfl, ?_⟩
          unfold cut; rw [if_neg h1, if_neg h2, if_neg h3, if_neg h4]; simp

theorem cropInner_spec {s e : Int} (hse : s ≤ e) (todo : List Nat) {h : SpanHeap} {ret done : List Nat}
    (hp : ret.Perm (todo ++ done)) (hnd : ret.Nodup) (hlt : ∀ j ∈ ret, j < h.next) (hg : GoodSpans (ret.map h.span)) :
    ∃ h' ret', cropInner s e todo h ret = .ok (h', ret') ∧ ret'.Nodup ∧ (∀ j ∈ ret', j < h'.next) ∧
      (ret'.map h'.span).Perm ((todo.map h.span).flatMap (cut s e) ++ done.map h.span) := by
  induction todo generalizing h ret done with
  | nil => exact ⟨h, ret, rfl, hnd, hlt, by simpa using hp.map h.span⟩
  | cons c todo ih =>
    obtain ⟨h1, ret1, new, hr, hp1, hnd1, hlt1, hsp, hnew⟩ := cropOne_spec hse (rest := todo ++ done) hp hnd hlt hg
    have hp1' : ret1.Perm (todo ++ (new ++ done)) := hp1.trans (by
      rw [← List.append_assoc, ← List.append_assoc]; exact List.Perm.append_right _ List.perm_append_comm)
    have htodo : todo.map h1.span = todo.map h.span := List.map_congr_left (fun j hj => hsp j (List.mem_append_left _ hj))
    have hdone : done.map h1.span = done.map h.span := List.map_congr_left (fun j hj => hsp j (List.mem_append_right _ hj))
    have hg1 : GoodSpans (ret1.map h1.span) := by
      have hgp : GoodSpans ((c :: (todo ++ done)).map h.span) := hg.perm (hp.map _)
      have hx0 : (h.span c).1 < (h.span c).2 := hgp.1 _ (by simp)
      have hgp' : GoodSpans ([h.span c] ++ (todo ++ done).map h.span) := hgp
      rw [goodSpans_append] at hgp'
      have : GoodSpans (cut s e (h.span c) ++ (todo ++ done).map h.span) := by
        rw [goodSpans_append]
        refine ⟨cut_good hse hx0, hgp'.2.1, ?_⟩
        intro y hy z hz
        have h1 := cut_sub hse hx0 y hy
        have := hgp'.2.2 (h.span c) (by simp) z hz
        unfold Disj at this ⊢; omega
      have hrestmap : (todo ++ done).map h1.span = (todo ++ done).map h.span := List.map_congr_left hsp
      refine this.perm ?_
      have := hp1.map h1.span
      rw [List.map_append, hnew, hrestmap] at this
      exact this.symm
    obtain ⟨h2, ret2, hr2, hnd2, hlt2, hperm⟩ := ih hp1' hnd1 hlt1 hg1
    refine ⟨h2, ret2, ?_, hnd2, hlt2, ?_⟩
    · unfold cropInner; rw [hr]; exact hr2
    · refine hperm.trans ?_
      rw [htodo, List.map_append, hnew, hdone, List.map_cons, List.flatMap_cons, ← List.append_assoc]
      exact List.Perm.append_right _ List.perm_append_comm

theorem cropOuter_spec (crops : List (Int × Int)) (hc : ∀ c ∈ crops, c.1 ≤ c.2) {h : SpanHeap} {ret : List Nat}
    (hnd : ret.Nodup) (hlt : ∀ j ∈ ret, j < h.next) (hg : GoodSpans (ret.map h.span)) :
    ∃ h' ret', cropOuter crops h ret = .ok (h', ret') ∧
      (ret'.map h'.span).Perm (crops.foldl (fun l c => l.flatMap (cut c.1 c.2)) (ret.map h.span)) := by
  induction crops generalizing h ret with
  | nil => exact ⟨h, ret, rfl, List.Perm.refl _⟩
  | cons c crops ih =>
    have hse := hc c List.mem_cons_self
    obtain ⟨h1, ret1, hr, hnd1, hlt1, hp⟩ := cropInner_spec hse ret (done := []) (by simp) hnd hlt hg
    simp only [List.map_nil, List.append_nil] at hp
    have hg1 : GoodSpans (ret1.map h1.span) := (flatMap_cut_good hse hg).perm hp.symm
    obtain ⟨h2, ret2, hr2, hp2⟩ := ih (fun x hx => hc x (List.mem_cons_of_mem _ hx)) hnd1 hlt1 hg1
    refine ⟨h2, ret2, ?_, hp2.trans ?_⟩
    · unfold cropOuter; rw [hr]; exact hr2
    · rw [List.foldl_cons]
      have : ∀ (cs : List (Int × Int)) (l l' : List (Int × Int)), l.Perm l' →
          (cs.foldl (fun l c => l.flatMap (cut c.1 c.2)) l).Perm (cs.foldl (fun l c => l.flatMap (cut c.1 c.2)) l') := by
        intro cs
        induction cs with
        | nil => intro l l' h; exact h
        | cons d cs ih2 => intro l l' h; exact ih2 _ _ (h.flatMap_right _)
      exact this crops _ _ hp

/-- Meaning of the successive cuts. -/
theorem cuts_spec (lo hi : Int) (crops : List (Int × Int)) (hc : ∀ c ∈ crops, c.1 ≤ c.2) (done : List (Int × Int)) (l : List (Int × Int))
    (hg : GoodSpans l)
    (hcov : ∀ i, (∃ x ∈ l, x.1 ≤ i ∧ i < x.2) ↔ (lo ≤ i ∧ i < hi) ∧ ∀ c ∈ done, ¬ (c.1 ≤ i ∧ i < c.2))
    (hedge : (∀ c ∈ done ++ crops, c.1 < c.2) → ∀ x ∈ l, (x.1 = lo ∨ ∃ c ∈ done, c.1 ≤ x.1 - 1 ∧ x.1 - 1 < c.2) ∧
      (x.2 = hi ∨ ∃ c ∈ done, c.1 ≤ x.2 ∧ x.2 < c.2)) :
    GoodSpans (crops.foldl (fun l c => l.flatMap (cut c.1 c.2)) l) ∧
    (∀ i, (∃ x ∈ crops.foldl (fun l c => l.flatMap (cut c.1 c.2)) l, x.1 ≤ i ∧ i < x.2) ↔
      (lo ≤ i ∧ i < hi) ∧ ∀ c ∈ done ++ crops, ¬ (c.1 ≤ i ∧ i < c.2)) ∧
    ((∀ c ∈ done ++ crops, c.1 < c.2) → ∀ x ∈ crops.foldl (fun l c => l.flatMap (cut c.1 c.2)) l,
      (x.1 = lo ∨ ∃ c ∈ done ++ crops, c.1 ≤ x.1 - 1 ∧ x.1 - 1 < c.2) ∧
      (x.2 = hi ∨ ∃ c ∈ done ++ crops, c.1 ≤ x.2 ∧ x.2 < c.2)) := by
  induction crops generalizing done l with
  | nil => simp only [List.append_nil, List.foldl_nil] at *; exact ⟨hg, hcov, hedge⟩
  | cons c crops ih =>
    have hse := hc c List.mem_cons_self
    have := ih (fun x hx => hc x (List.mem_cons_of_mem _ hx)) (done ++ [c]) (l.flatMap (cut c.1 c.2)) (flatMap_cut_good hse hg) ?_ ?_
    · simpa using this
    · intro i
      constructor
      · rintro ⟨y, hy, hyi⟩
        rw [List.mem_flatMap] at hy
        obtain ⟨x, hx, hy⟩ := hy
        have h1 := (cut_covers hse x i).1 ⟨y, hy, hyi⟩
        have h2 := (hcov i).1 ⟨x, hx, h1.1⟩
        refine ⟨h2.1, ?_⟩
        intro d hd
        rcases List.mem_append.1 hd with hd | hd
        · exact h2.2 d hd
        · simp only [List.mem_singleton] at hd; subst hd; exact h1.2
      · rintro ⟨h1, h2⟩
        obtain ⟨x, hx, hxi⟩ := (hcov i).2 ⟨h1, fun d hd => h2 d (List.mem_append_left _ hd)⟩
        obtain ⟨y, hy, hyi⟩ := (cut_covers hse x i).2 ⟨hxi, h2 c (by simp)⟩
        exact ⟨y, List.mem_flatMap.2 ⟨x, hx, hy⟩, hyi⟩
    · intro hne y hy
      have hne' : ∀ d ∈ done ++ c :: crops, d.1 < d.2 := by simpa using hne
      have hcne : c.1 < c.2 := hne' c (by simp)
      rw [List.mem_flatMap] at hy
      obtain ⟨x, hx, hy⟩ := hy
      obtain ⟨e1, e2⟩ := cut_edges x y hy
      obtain ⟨f1, f2⟩ := hedge hne' x hx
      constructor
      · rcases e1 with e1 | e1
        · rw [e1]
          rcases f1 with f1 | ⟨d, hd, h⟩
          · exact Or.inl f1
          · exact Or.inr ⟨d, List.mem_append_left _ hd, h⟩
        · exact Or.inr ⟨c, by simp, by omega⟩
      · rcases e2 with e2 | e2
        · rw [e2]
          rcases f2 with f2 | ⟨d, hd, h⟩
          · exact Or.inl f2
          · exact Or.inr ⟨d, List.mem_append_left _ hd, h⟩
        · exact Or.inr ⟨c, by simp, by omega⟩

/-! ### `split` -/

open Matches in
/-- The state of `split` seen as a state of the run machine. -/
structure SplitRel (E : Int) (s : SplitSt) (h : HoleSt) : Prop where
  lt : ∀ j ∈ s.ret, j < s.heap.next
  nodup : s.ret.Nodup
  opened : ∀ a, h.openAt = some a → s.split = none ∧ a < E ∧ s.heap.span s.current = (a, E) ∧
    ∃ pre, s.ret = pre ++ [s.current] ∧ pre.map s.heap.span = h.closed
  closed : h.openAt = none → s.ret.map s.heap.span = h.closed ∧
    ∃ o, s.split = some o ∧ o ∉ s.ret ∧ o < s.heap.next ∧ (s.heap.span o).2 = E ∧ (s.heap.span o).1 < E

open Matches in
theorem splitStep_rel {start E : Int} {seps : Str} {s : SplitSt} {h : HoleSt} (hr : SplitRel E s h) (i : Nat) (c : Char)
    (hi : start + i < E) :
    ∃ s', splitStep start seps s i c = .ok s' ∧
      SplitRel E s' (holeStep start (seps.contains c) false h (start + i)) := by
  obtain ⟨hlt, hnd, hop, hcl⟩ := hr
  cases ho : h.openAt with
  | none =>
    obtain ⟨hm, o, hs, hno, hon, he1, he2⟩ := hcl ho
    have ht : s.splitTruthy = .ok true := by
      unfold SplitSt.splitTruthy SpanHeap.truthy
      rw [hs]; simp only
      rw [if_neg (by omega)]
      simp; omega
    unfold splitStep
    rw [ht]
    simp only
    by_cases hc : seps.contains c = true
    · rw [if_pos hc, hc]
      refine ⟨s, rfl, ?_⟩
      have : holeStep start true false h (start + i) = { h with rindex := start + i } := by simp [holeStep, ho]
      rw [this]
      refine ⟨hlt, hnd, ?_, fun _ => ⟨hm, o, hs, hno, hon, he1, he2⟩⟩
      intro a ha; simp only [ho] at ha; cases ha
    · rw [if_neg hc]
      simp only [Bool.not_eq_true] at hc
      rw [hc, hs]
      refine ⟨_, rfl, ?_⟩
      have hmax : max (start + (i : Int)) start = start + i := by omega
      have : holeStep start false false h (start + i) = ⟨h.closed, some (start + i), start + i⟩ := by simp [holeStep, ho, hmax]
      rw [this]
      refine ⟨?_, ?_, ?_, ?_⟩
      · intro j hj
        rcases List.mem_append.1 hj with hj | hj
        · exact hlt j hj
        · simp only [List.mem_singleton] at hj; rw [hj]; exact hon
      · simp only
        rw [List.nodup_append]
        refine ⟨hnd, by simp, ?_⟩
        intro a ha b hb
        simp only [List.mem_singleton] at hb
        rintro rfl
        exact hno (hb ▸ ha)
      · intro a ha
        simp only [Option.some.injEq] at ha
        subst ha
        refine ⟨rfl, hi, ?_, s.ret, rfl, ?_⟩
        · simp [SpanHeap.setStart, he1]
        · simp only
          rw [← hm]
          apply List.map_congr_left
          intro j hj
          have hj' : j ≠ o := fun hc => hno (hc ▸ hj)
          simp [SpanHeap.setStart, hj']
      · intro hn; cases hn
  | some a =>
    obtain ⟨hs, ha, hsp, pre, hret, hmap⟩ := hop a ho
    have ht : s.splitTruthy = .ok false := by unfold SplitSt.splitTruthy; rw [hs]
    have hcur : s.current ∈ s.ret := by rw [hret]; simp
    have hcn := hlt _ hcur
    have hpre : s.current ∉ pre := by
      rw [hret, List.nodup_append] at hnd
      intro hc
      exact hnd.2.2 _ hc _ (by simp) rfl
    unfold splitStep
    rw [ht]
    simp only
    by_cases hc : seps.contains c = true
    · rw [if_pos hc, hc]
      refine ⟨_, rfl, ?_⟩
      have : holeStep start true false h (start + i) = ⟨h.closed ++ [(a, start + i)], none, start + i⟩ := by simp [holeStep, ho]
      rw [this]
      refine ⟨?_, hnd, ?_, ?_⟩
      · intro j hj
        have := hlt j hj
        simp only [SpanHeap.alloc, SpanHeap.setEnd]
        omega
      · intro a' ha'; cases ha'
      · intro _
        refine ⟨?_, s.heap.next, rfl, ?_, ?_, ?_, ?_⟩
        · simp only
          rw [hret, List.map_append, ← hmap]
          congr 1
          · apply List.map_congr_left
            intro j hj
            have h1 : j ≠ s.current := fun hc => hpre (hc ▸ hj)
            have h2 : j ≠ s.heap.next := by
              have := hlt j (by rw [hret]; exact List.mem_append_left _ hj)
              omega
            simp [SpanHeap.setEnd, SpanHeap.alloc, h1, h2]
          · have h2 : s.current ≠ s.heap.next := by omega
            simp [SpanHeap.setEnd, SpanHeap.alloc, h2, hsp]
        · simp only
          intro hc
          have := hlt _ hc; omega
        · simp [SpanHeap.alloc, SpanHeap.setEnd]
        · have h2 : s.heap.next ≠ s.current := by omega
          simp [SpanHeap.alloc, SpanHeap.setEnd, h2, hsp]
        · have h2 : s.heap.next ≠ s.current := by omega
          simp [SpanHeap.alloc, SpanHeap.setEnd, h2, hsp]; exact ha
    · rw [if_neg hc]
      simp only [Bool.not_eq_true] at hc
      rw [hc]
      refine ⟨s, rfl, ?_⟩
      have : holeStep start false false h (start + i) = { h with rindex := start + i } := by simp [holeStep, ho]
      rw [this]
      refine ⟨hlt, hnd, ?_, ?_⟩
      · intro a' ha'
        exact hop a' ha'
      · intro hn; simp only [ho] at hn; cases hn

open Matches in
theorem splitLoop_rel {start E : Int} {seps : Str} (raw : Str) (cur : Int → Bool) {s : SplitSt} {h : HoleSt} (i : Nat) (hE : start + i + raw.length = E)
    (hcur : ∀ k (hk : k < raw.length), cur (start + i + k) = seps.contains raw[k])
    (hr : SplitRel E s h) (junk : List (Int × Int)) (hI : HInv cur (fun _ => false) junk start (start + i) h) :
    ∃ s' h', splitLoop start seps i raw s = .ok s' ∧ SplitRel E s' h' ∧ HInv cur (fun _ => false) junk start E h' := by
  induction raw generalizing s h i with
  | nil =>
    simp only [List.length_nil, Int.ofNat_zero, Int.add_zero] at hE
    exact ⟨s, h, rfl, hr, by rw [← hE]; simpa using hI⟩
  | cons c raw ih =>
    simp only [List.length_cons] at hE
    obtain ⟨s1, h1, hr1⟩ := splitStep_rel (seps := seps) hr i c (show start + (i : Int) < E by omega)
    have hc0 : cur (start + i) = seps.contains c := by
      have := hcur 0 (by simp); simpa using this
    rw [← hc0] at hr1
    have hI1 := hI.step (start := start) (by omega)
    obtain ⟨s2, h2, hr2, hrel2, hI2⟩ := ih (i + 1) (by push_cast; omega) (by
      intro k hk
      have := hcur (k + 1) (by simp; omega)
      simp only [List.getElem_cons_succ] at this
      rw [← this]
      congr 1; push_cast; omega) hr1 (by
      have : start + ((i + 1 : Nat) : Int) = start + i + 1 := by push_cast; omega
      rw [this]; exact hI1)
    refine ⟨s2, h2, ?_, hrel2, hI2⟩
    unfold splitLoop; rw [h1]; exact hr2

end Rebulk
