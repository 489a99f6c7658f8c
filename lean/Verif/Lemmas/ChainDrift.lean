import Verif.Lemmas.Chain
import Verif.Spec.ChainDrift
/-!
# How far the text searched and the position may differ
-/
namespace Rebulk
open Spec

/-- The text searched starts at or after the position it is taken to start at; they agree once something has been collected, and the
collected matches stop before. -/
def ChainSt.Late (input : Str) (st : ChainSt) : Prop :=
  ∃ q : Nat, q ≤ input.length ∧ st.input = input.drop q ∧ 0 ≤ st.offset ∧ st.offset ≤ q ∧ (st.current ≠ [] → st.offset = q) ∧
    ∀ x ∈ st.current, 0 ≤ x.root.rawEndOf ∧ x.root.rawEndOf ≤ q

/-- The occurrences of a part, as they are kept, are those of its search with the same ranks; they stop one after the other. -/
theorem kept_stops {s : Str} {l : List MTree} (h : RawList s l) {raws : List MTree} (hp : raws <+: l) {last : MTree} (hl : raws.getLast? = some last) :
    ∀ r ∈ l, r.root.matchIndex < raws.length → r.root.stop ≤ last.root.stop := by
  intro r hr hi
  obtain ⟨i, hri⟩ := List.getElem?_of_mem hr
  have hix := h.index i r hri
  have hlt : i < raws.length := by omega
  have hlast : raws[raws.length - 1]? = some last := by rw [← List.getLast?_eq_getElem?]; exact hl
  have hlast' : l[raws.length - 1]? = some last := by
    obtain ⟨t, rfl⟩ := hp
    rw [List.getElem?_append_left (by omega)]; exact hlast
  by_cases he : i = raws.length - 1
  · subst he
    rw [hri] at hlast'
    cases hlast'
    exact Int.le_refl _
  · obtain ⟨h1, e1⟩ := List.getElem?_eq_some_iff.1 hri
    obtain ⟨h2, e2⟩ := List.getElem?_eq_some_iff.1 hlast'
    have := List.pairwise_iff_getElem.1 h.ordered i (raws.length - 1) h1 h2 (by omega)
    rw [e1, e2] at this
    have hn := (h.inText last (List.mem_of_getElem? hlast')).nonempty
    omega

theorem toNext_late {c : Chain} {input : Str} {part : Part} {first : Bool} {st st' : ChainSt} {kept raws : List MTree}
    (hp : RegularPart part) (he : EndsInside part) (hinv : st.Inv input) (hq : st.Late input) (hm : part.matchesOf first st.input = .ok (kept, raws))
    (h : c.toNext input part kept raws st = .ok st') : st'.Late input ∧ (raws ≠ [] → st'.input = input.drop st'.offset.toNat) := by
  obtain ⟨a1, a2, a3, a4, a5, a6, a7⟩ := toNext_spec hp hinv hm h
  by_cases hne : raws = []
  · rw [a7 hne]; exact ⟨hq, fun h => absurd hne h⟩
  · obtain ⟨q, q1, q2, q3, q4, q5, q6⟩ := hq
    obtain ⟨last, hlast⟩ : ∃ last, raws.getLast? = some last := ⟨_, List.getLast?_eq_some_getLast hne⟩
    obtain ⟨em0, raws0, hs, hk, hr, _⟩ := matchesOf_ok hm
    have hrl := hp.raws _ _ _ hs
    have hpre := (truncate_raws hrl first part.stop).1
    rw [← hr] at hpre
    have hin := hrl.inText last (hpre.subset (List.mem_of_getLast? hlast))
    have hoff : st'.offset = st.offset + last.root.stop := by rw [a3]; simp [Step.nextPos, hlast]
    have htext : st'.input = input.drop st'.offset.toNat := by rw [a4, hoff]; simp [Step.nextText, hlast]
    have h1 := hin.lo
    have h2 := hin.nonempty
    have h3 := hin.hi
    rw [q2, List.length_drop] at h3
    refine ⟨⟨st'.offset.toNat, by omega, htext, by omega, by omega, fun _ => by omega, fun x hx => ?_⟩, fun _ => htext⟩
    rw [a2] at hx
    rcases collect_mem _ _ _ hx with hx | ⟨g, hg, hx⟩
    · have := q6 x hx
      have hc : st.current ≠ [] := List.ne_nil_of_mem hx
      have := q5 hc
      omega
    · unfold Step.groups at hg
      split at hg
      · cases hg
      · unfold repetitions at hg
        obtain ⟨i, hi, rfl⟩ := List.mem_map.1 hg
        have hi := List.mem_range.1 hi
        simp only at hi
        obtain ⟨hxm, hxi⟩ := List.mem_filter.1 hx
        have hxi := of_decide_eq_true hxi
        rw [fixList_eq] at hxm
        obtain ⟨e, hek, rfl⟩ := List.mem_map.1 hxm
        rw [fix_index] at hxi
        have he0 : e ∈ em0 := by rw [hk] at hek; exact truncate_sub.subset hek
        have hte := (hp.emitted _ _ _ hs e he0).1
        rw [fix_rawEnd hte.input hte.raw.2 hinv.zero]
        obtain ⟨r, hr1, hr2, hr3⟩ := he _ _ _ hs e he0
        have hstop := kept_stops hrl hpre hlast r hr1 (by omega)
        have := hte.lo
        have := hte.nonempty
        omega

theorem runParts_late (c : Chain) (input : Str) : ∀ (parts : List Part) (first : Bool) (st st' : ChainSt) (v : Bool),
    (∀ p ∈ parts, RegularPart p ∧ EndsInside p) → st.Inv input → st.Late input → c.runParts input first parts st = .ok (st', v) →
    ∃ q : Nat, q ≤ input.length ∧ st'.input = input.drop q ∧ 0 ≤ st'.offset ∧ st'.offset ≤ q
  | [], first, st, st', v, _, hinv, hq, h => by
    simp only [Chain.runParts, Except.ok.injEq, Prod.mk.injEq] at h
    obtain ⟨rfl, _⟩ := h
    obtain ⟨q, q1, q2, q3, q4, _⟩ := hq
    exact ⟨q, q1, q2, q3, q4⟩
  | part :: rest, first, st, st', v, hp, hinv, hq, h => by
    unfold Chain.runParts at h
    split at h
    · simp only [Except.ok.injEq, Prod.mk.injEq] at h
      obtain ⟨q, q1, q2, q3, q4, q5, q6⟩ := hq
      obtain ⟨h, _⟩ := h
      rw [← h]
      cases hc : st.current with
      | nil => exact ⟨q, q1, q2, q3, q4⟩
      | cons x xs => exact ⟨q, q1, q2, (q6 x (by rw [hc]; simp)).1, (q6 x (by rw [hc]; simp)).2⟩
    · cases h
    · rename_i kept raws hm
      split at h
      · cases h
      · rename_i s1 hn
        have hpart := hp part (by simp)
        obtain ⟨_, _, _, _, a5, _⟩ := toNext_spec hpart.1 hinv hm hn
        exact runParts_late c input rest false s1 st' v (fun p hp' => hp p (List.mem_cons_of_mem _ hp')) a5
          (toNext_late hpart.1 hpart.2 hinv hq hm hn).1 h

/-- The places of the steps of an attempt that starts late. -/
theorem steps_late {input : Str} : ∀ {steps : List Step} {first : Bool} {text : Str} {pos : Int}, Steps input first text pos steps →
    (∀ s ∈ steps, RegularPart s.part) → ∀ (q : Nat), q ≤ input.length → text = input.drop q → 0 ≤ pos → pos ≤ q →
    ∀ (i : Nat) (s : Step), steps[i]? = some s → ∃ q' : Nat, q' ≤ input.length ∧ s.text = input.drop q' ∧ 0 ≤ s.pos ∧ s.pos ≤ q' ∧
      (((q : Int) = pos ∨ ∃ i' < i, ∃ s', steps[i']? = some s' ∧ s'.raws ≠ []) → s.pos = q')
  | [], _, _, _, _, _, _, _, _, _, _, i, s, hs => by cases hs
  | x :: xs, first, text, pos, h, hp, q, h1, h2, h3, h4, i, s, hs => by
    obtain ⟨e1, e2, e3, e4⟩ := h
    have hx := hp x (by simp)
    cases i with
    | zero =>
      cases hs
      refine ⟨q, h1, e1.trans h2, by omega, by omega, ?_⟩
      rintro (h | ⟨i', hi, _⟩)
      · omega
      · omega
    | succ i =>
      have hs' : xs[i]? = some s := by simpa using hs
      by_cases hne : x.raws = []
      · have ht : x.nextText input = x.text := by simp [Step.nextText, hne]
        have hps : x.nextPos = x.pos := by simp [Step.nextPos, hne]
        rw [ht, hps] at e4
        obtain ⟨q', a1, a2, a3, a4, a5⟩ := steps_late e4 (fun s hs => hp s (List.mem_cons_of_mem _ hs)) q h1 (e1.trans h2) (by omega) (by omega) i s hs'
        refine ⟨q', a1, a2, a3, a4, ?_⟩
        rintro (h | ⟨i', hi, s', hs1, hs2⟩)
        · exact a5 (Or.inl (by omega))
        · cases i' with
          | zero => cases hs1; exact absurd hne hs2
          | succ i' => exact a5 (Or.inr ⟨i', by omega, s', by simpa using hs1, hs2⟩)
      · obtain ⟨last, hlast⟩ : ∃ last, x.raws.getLast? = some last := ⟨_, List.getLast?_eq_some_getLast hne⟩
        obtain ⟨em0, raws0, hsr, hk, hr, _⟩ := matchesOf_ok (keeps_iff.1 e3)
        have hrl := hx.raws _ _ _ hsr
        have hpre := (truncate_raws hrl first x.part.stop).1
        rw [← hr] at hpre
        have hin := hrl.inText last (hpre.subset (List.mem_of_getLast? hlast))
        have i1 := hin.lo
        have i2 := hin.nonempty
        have i3 := hin.hi
        rw [h2, List.length_drop] at i3
        have ht : x.nextText input = input.drop (x.pos + last.root.stop).toNat := by simp [Step.nextText, hlast]
        have hps : x.nextPos = x.pos + last.root.stop := by simp [Step.nextPos, hlast]
        rw [ht, hps] at e4
        obtain ⟨q', a1, a2, a3, a4, a5⟩ := steps_late e4 (fun s hs => hp s (List.mem_cons_of_mem _ hs)) (x.pos + last.root.stop).toNat
          (by omega) rfl (by omega) (by omega) i s hs'
        exact ⟨q', a1, a2, a3, a4, fun _ => a5 (Or.inl (by omega))⟩

theorem loop_late (c : Chain) (input : Str) (hp : ∀ p ∈ c.parts, RegularPart p ∧ EndsInside p) :
    ∀ (fuel : Nat) (ci : Str) (o : Int) (acc ts : List MTree), ChainSt.Inv input ⟨false, ci, o, []⟩ →
      (∃ q : Nat, q ≤ input.length ∧ ci = input.drop q ∧ 0 ≤ o ∧ o ≤ q) →
      c.loop input fuel ci o acc = .ok ts → ∀ t ∈ ts, t ∈ acc ∨ ∃ steps, Attempt c input steps t ∧ PlacedLate input steps
  | 0, ci, o, acc, ts, _, _, h => by
    unfold Chain.loop at h
    split at h
    · cases h
    · cases h; exact fun t ht => Or.inl ht
  | fuel + 1, ci, o, acc, ts, hi, hq, h => by
    have hreg : ∀ p ∈ c.parts, RegularPart p := fun p h => (hp p h).1
    unfold Chain.loop at h
    split at h
    · rename_i hlt
      have h0 : 0 ≤ o := hi.nonneg
      obtain ⟨_, r2⟩ := runParts_forward c input o h0 (by omega) c.parts true ⟨false, ci, o, []⟩
        (fun p h => (hreg p h).forwardSearch) hi (Int.le_refl o) (by simp) (by simp) (by simp)
      split at h
      · cases h
      · rename_i st v he
        obtain ⟨i1, _⟩ := r2 st v he
        have hinv : ChainSt.Inv input ⟨false, st.input, st.offset, []⟩ := i1
        obtain ⟨q, q1, q2, q3, q4⟩ := hq
        have hl : ChainSt.Late input ⟨false, ci, o, []⟩ := ⟨q, q1, q2, q3, q4, fun h => absurd rfl h, fun x hx => by cases hx⟩
        have hnext := runParts_late c input c.parts true _ st v hp hi hl he
        split at h
        · cases h; exact fun t ht => Or.inl ht
        · split at h
          · rename_i hcv
            have hv : v = true := by simp only [Bool.and_eq_true] at hcv; exact hcv.2
            subst hv
            obtain ⟨steps, moved, b1, b2, b3, b4, b5, b6, b7⟩ := runParts_trace c input c.parts true _ _ hreg hi he
            split at h
            · cases h
            · rename_i m hm
              intro t ht
              rcases loop_late c input hp fuel _ _ _ ts hinv hnext h t ht with hacc | hrest
              · rcases List.mem_append.1 hacc with hacc | hacc
                · exact Or.inl hacc
                · rw [List.mem_singleton] at hacc
                  subst hacc
                  have hb := build_spec hm
                  rw [b5] at hb
                  refine Or.inr ⟨steps, ⟨b1, ⟨_, _, b2⟩, moved, b3, b4, hb⟩, fun i s hs => ?_⟩
                  obtain ⟨q', a1, a2, a3, a4, a5⟩ := steps_late b2 (fun s hs => hreg s.part (b1 ▸ List.mem_map.2 ⟨s, hs, rfl⟩)) q q1 q2 q3 q4 i s hs
                  exact ⟨q', a1, a2, a3, a4, fun h => a5 (Or.inr h)⟩
              · exact Or.inr hrest
          · intro t ht
            exact loop_late c input hp fuel _ _ _ ts hinv hnext h t ht
    · cases h; exact fun t ht => Or.inl ht

end Rebulk
