import Verif.Props.Chain
import Verif.Spec.ChainFound
/-!
# When a chain is found
-/
namespace Rebulk
open Spec

theorem adjacentRun_long {s : Str} : ∀ {l : List MTree}, (∀ r ∈ l, InText s r.root) → (∀ r ∈ l, r.root.ancestors = []) →
    ∀ (n : Nat), n ≤ l.length → Contiguous (l.take n) → n ≤ (Part.adjacentRun s l).length
  | [], _, _, n, hn, _ => by simpa [Part.adjacentRun] using hn
  | [m], _, _, n, hn, _ => by simpa [Part.adjacentRun] using hn
  | a :: b :: l, h1, h2, n, hn, hc => by
    match n, hn, hc with
    | 0, _, _ => omega
    | 1, _, _ =>
      unfold Part.adjacentRun
      split <;> simp
    | n + 2, hn, hc =>
      simp only [List.take_succ_cons, Contiguous] at hc
      have ta := h1 a (by simp)
      have tb := h1 b (by simp)
      unfold Part.adjacentRun
      rw [(initRaw_top (h2 a (by simp)) ta.raw).2, (initRaw_top (h2 b (by simp)) tb.raw).1, if_pos (pySlice_empty' tb.lo (by omega))]
      have := adjacentRun_long (l := b :: l) (fun r hr => h1 r (List.mem_cons_of_mem _ hr)) (fun r hr => h2 r (List.mem_cons_of_mem _ hr))
        (n + 1) (by simpa using hn) (by simpa using hc.2)
      simp only [List.length_cons]
      omega

/-- A part that begins the text is found there. -/
theorem begins_ok {part : Part} {s : Str} (hp : RegularPart part) (h : BeginsWith part s) : part.matchesOf false s ≠ .error .invalidChain := by
  obtain ⟨em, raws, n, hs, hn, hc, h0, hlo, hhi⟩ := h
  have hraws := hp.raws _ _ _ hs
  have hlen : n ≤ (Part.truncate false part.stop s raws).length := by
    cases hr : raws with
    | nil => rw [hr] at hn; simp at hn; omega
    | cons m rest =>
      cases n with
      | zero => omega
      | succ n =>
        have tm := hraws.inText m (by rw [hr]; simp)
        have hm0 : m.root.start = 0 := h0 m (by rw [hr]; simp)
        have hrun := adjacentRun_long hraws.inText hraws.top (n + 1) hn hc
        rw [hr] at hrun
        unfold Part.truncate
        simp only [Bool.not_false, Bool.true_and]
        rw [if_neg (by
          rw [(initRaw_top (hraws.top m (by rw [hr]; simp)) tm.raw).1, hm0]
          simpa using pySlice_empty' (s := s) (a := 0) (b := 0) (by omega) (by omega))]
        cases hst : part.stop with
        | none => exact hrun
        | some e =>
          simp only
          have he := filter_index_take e (Part.adjacentRun s (m :: rest)) 0 (fun i r hr' => by
            rw [prefix_index (adjacentRun_prefix s _) (hr ▸ hraws.index) i r hr']; omega)
          simp only [Int.natCast_zero, Int.sub_zero] at he
          rw [he, List.length_take]
          have := hhi e hst
          omega
  unfold Part.matchesOf
  rw [hs]
  simp only
  rw [if_neg (by rw [(truncate_raws hraws false part.stop).2.2.2.2]; omega)]
  simp

/-- The first part of a chain, found at most once: what is kept of it. -/
theorem first_kept {p : Part} (hp : RegularPart p) (hs : p.start ≤ 1) (he : p.stop = some 1) {text : Str} {em : List MTree} {r : MTree} {rest : List MTree}
    (h : p.search text = .ok (em, r :: rest)) : p.matchesOf true text = .ok (Part.truncate true p.stop text em, [r]) := by
  have hraws := hp.raws _ _ _ h
  have hri : r.root.matchIndex = 0 := hraws.index 0 r rfl
  have hrun : r ∈ Part.adjacentRun text (r :: rest) := by
    cases rest with
    | nil => simp [Part.adjacentRun]
    | cons z zs =>
      unfold Part.adjacentRun
      split <;> simp
  have hmem : r ∈ Part.truncate true p.stop text (r :: rest) := by
    unfold Part.truncate
    simp only [Bool.not_true, Bool.false_and, Bool.false_eq_true, if_false, he]
    exact List.mem_filter.2 ⟨hrun, by rw [hri]; simp⟩
  obtain ⟨t1, _, t3, _, t5⟩ := truncate_raws hraws true p.stop
  have hle := t3 1 he
  have htr : Part.truncate true p.stop text (r :: rest) = [r] := by
    generalize Part.truncate true p.stop text (r :: rest) = l at hmem hle
    match l, hmem, hle with
    | [x], hmem, _ => rw [List.mem_singleton.1 hmem]
    | x :: y :: z, _, hle => simp at hle
  unfold Part.matchesOf
  rw [h]
  simp only
  rw [if_neg (by rw [t5, htr]; simp; omega), htr]

/-- A valid attempt whose first part emitted something collects something. -/
theorem current_nonempty {c : Chain} {input ci : Str} {o : Int} {p : Part} {rest : List Part} (hc : c.parts = p :: rest)
    (hp : ∀ q ∈ c.parts, RegularPart q) (hb : c.breaker = none) (hh : p.hidden = false) (hi : ChainSt.Inv input ⟨false, ci, o, []⟩)
    {kept raws : List MTree} (hmo : p.matchesOf true ci = .ok (kept, raws)) (hlr : 0 < raws.length) {e0 : MTree} (hk0 : e0 ∈ kept)
    (hi0 : e0.root.matchIndex = 0) {st : ChainSt} (hrp : c.runParts input true c.parts ⟨false, ci, o, []⟩ = .ok (st, true)) : st.current ≠ [] := by
  obtain ⟨steps, moved, b1, b2, b3, b4, b5, _, _⟩ := runParts_trace c input c.parts true _ _ hp hi hrp
  rw [b5, hb, collect_none]
  rw [hc] at b1
  cases steps with
  | nil => simp at b1
  | cons s ss =>
    cases moved with
    | nil => simp at b3
    | cons l ls =>
      obtain ⟨g1, g2, g3, _⟩ := b2
      have hsp : s.part = p := by simpa using (List.cons.inj b1).1
      have hml := b4 0 s l rfl rfl
      rw [hsp] at g3
      have g3 : p.matchesOf true ci = .ok (s.kept, s.raws) := keeps_iff.1 g3
      rw [hmo] at g3
      simp only [Except.ok.injEq, Prod.mk.injEq] at g3
      obtain ⟨g4, g5⟩ := g3
      rw [g4] at hk0
      rw [g5] at hlr
      obtain ⟨i, hi⟩ := List.getElem?_of_mem hk0
      have hil : i < l.length := by rw [hml.count]; exact (List.getElem?_eq_some_iff.1 hi).1
      have hmv := hml.root i _ _ hi (List.getElem?_eq_getElem hil)
      have : l[i] ∈ ([] ++ (List.flatMap (fun x : Step × List MTree => x.1.groups x.2) ((s :: ss).zip (l :: ls))).flatten) := by
        rw [List.nil_append, List.mem_flatten]
        refine ⟨l.filter (fun t => decide (t.root.matchIndex = 0)), ?_, ?_⟩
        · rw [List.mem_flatMap]
          refine ⟨(s, l), by simp, ?_⟩
          simp only [Step.groups, hsp, hh, Bool.false_eq_true, if_false, repetitions]
          exact List.mem_map.2 ⟨0, List.mem_range.2 hlr, rfl⟩
        · refine List.mem_filter.2 ⟨List.getElem_mem hil, ?_⟩
          rw [hmv.index, hi0]; rfl
      exact List.ne_nil_of_mem this

theorem head_kept {p : Part} (he : p.stop = some 1) {text : Str} {em : List MTree} {e : MTree} (h : em.head? = some e) (hi : e.root.matchIndex = 0) :
    e ∈ Part.truncate true p.stop text em := by
  cases em with
  | nil => cases h
  | cons y ys =>
    simp only [List.head?_cons, Option.some.injEq] at h
    subst h
    have hrun : y ∈ Part.adjacentRun text (y :: ys) := by
      cases ys with
      | nil => simp [Part.adjacentRun]
      | cons z zs =>
        unfold Part.adjacentRun
        split <;> simp
    unfold Part.truncate
    simp only [Bool.not_true, Bool.false_and, Bool.false_eq_true, if_false, he]
    exact List.mem_filter.2 ⟨hrun, by rw [hi]; simp⟩

/-- The search goes from an occurrence of the first part to the next one until the chain is found. -/
theorem loop_found {c : Chain} {p q : Part} {rest : List Part} (hc : c.parts = p :: q :: rest) (hp : ∀ x ∈ c.parts, RegularPart x)
    (hb : c.breaker = none) (hh : p.hidden = false) (hs : p.start ≤ 1) (he : p.stop = some 1) (hw : WholeOnce p) (hres : Resumes p) (hemit : EmitsFirst p)
    (ho : ∀ x ∈ rest, x.start ≤ 0) {input : Str} (goal : Nat) (hg : goal ≤ input.length) (hq : BeginsWith q (input.drop goal)) :
    ∀ (fuel o : Nat) (ts : List MTree), ChainSt.Inv input ⟨false, input.drop o, o, []⟩ → o < goal →
      (∀ em raws, p.search (input.drop o) = .ok (em, raws) → ∃ r ∈ raws, (o : Int) + r.root.stop = goal) →
      c.loop input fuel (input.drop o) o [] = .ok ts → ts ≠ []
  | 0, o, ts, _, hlt, _, h => by
    unfold Chain.loop at h
    rw [if_pos (by omega)] at h
    cases h
  | fuel + 1, o, ts, hi, hlt, hr, h => by
    have hpr := hp p (by rw [hc]; simp)
    unfold Chain.loop at h
    rw [if_pos (by omega)] at h
    cases hrp : c.runParts input true c.parts ⟨false, input.drop o, o, []⟩ with
    | error e => rw [hrp] at h; cases h
    | ok x =>
      obtain ⟨st, v⟩ := x
      rw [hrp] at h
      simp only at h
      cases hps : p.search (input.drop o) with
      | error e =>
        rw [hc] at hrp
        unfold Chain.runParts Part.matchesOf at hrp
        simp only [hps] at hrp
        have := hpr.honest (input.drop o)
        rw [hps] at this
        cases e <;> first | exact absurd rfl this | cases hrp
      | ok x =>
        obtain ⟨em, raws⟩ := x
        obtain ⟨r, hrm, hrg⟩ := hr em raws hps
        cases raws with
        | nil => cases hrm
        | cons r0 rs =>
          have hmo := first_kept hpr hs he hps
          have hraws := hpr.raws _ _ _ hps
          have hin0 := hraws.inText r0 (by simp)
          obtain ⟨e0, he0, hi0⟩ := hemit _ _ _ hps (by simp)
          have hk0 := head_kept (text := input.drop o) he he0 hi0
          cases v with
          | true =>
            have hcur := current_nonempty hc hp hb hh hi hmo (by simp) hk0 hi0 hrp
            have hf : st.found = true := by
              rw [hc] at hrp
              unfold Chain.runParts at hrp
              rw [show (⟨false, input.drop o, (o : Int), []⟩ : ChainSt).input = input.drop o from rfl, hmo] at hrp
              simp only at hrp
              split at hrp
              · cases hrp
              · rename_i s1 h1
                exact runParts_found hrp (toNext_found (by simp) h1)
            rw [hf] at h
            simp only [Bool.not_true, Bool.false_eq_true, if_false] at h
            rw [if_pos (by simpa using hcur)] at h
            split at h
            · cases h
            · have := loop_acc c input _ _ _ _ ts h
              rintro rfl
              simp at this
          | false =>
            -- the attempt failed at the second part
            rw [hc] at hrp
            unfold Chain.runParts at hrp
            rw [show (⟨false, input.drop o, (o : Int), []⟩ : ChainSt).input = input.drop o from rfl, hmo] at hrp
            simp only at hrp
            split at hrp
            · cases hrp
            · rename_i s1 h1
              obtain ⟨a1, a2, a3, a4, a5, a6, a7⟩ := toNext_spec hpr hi hmo h1
              have hl1 : s1.offset = (o : Int) + r0.root.stop := by rw [a3]; simp [Step.nextPos]
              have ht1 : s1.input = input.drop ((o : Int) + r0.root.stop).toNat := by rw [a4]; simp [Step.nextText]
              have hlo := hin0.lo
              have hne0 := hin0.nonempty
              have hhi0 := hin0.hi
              rw [List.length_drop] at hhi0
              -- where the next attempt starts
              have hnext : s1.current ≠ [] → ∀ x xs, s1.current = x :: xs → x.root.rawEndOf = (o : Int) + r0.root.stop := by
                intro _ x xs hx
                have hxm : x ∈ s1.current := by rw [hx]; simp
                rw [a2] at hxm
                rcases collect_mem _ _ _ hxm with hxm | ⟨g, hg', hxm⟩
                · simp at hxm
                · unfold Step.groups at hg'
                  split at hg'
                  · simp at hg'
                  · unfold repetitions at hg'
                    obtain ⟨i, hi', rfl⟩ := List.mem_map.1 hg'
                    have hi' := List.mem_range.1 hi'
                    simp only [List.length_singleton] at hi'
                    obtain ⟨hxm, hxi⟩ := List.mem_filter.1 hxm
                    have hxi := of_decide_eq_true hxi
                    rw [fixList_eq] at hxm
                    obtain ⟨e, hek, rfl⟩ := List.mem_map.1 hxm
                    rw [fix_index] at hxi
                    have hee : e ∈ em := truncate_sub.subset hek
                    have hri : r0.root.matchIndex = 0 := hraws.index 0 r0 rfl
                    have hstop := hw.whole _ _ _ hps e hee r0 (by simp) (by omega)
                    have hte := (hpr.emitted _ _ _ hps e hee).1
                    rw [fix_rawEnd hte.input hte.raw.2 hi.zero, hstop]
              have hrest : ∀ s2 st', c.runParts input false rest s2 ≠ .ok (st', false) := fun s2 st' =>
                runParts_optional c input rest false s2 st' (fun x hx => ⟨hp x (by rw [hc]; simp [hx]), ho x hx⟩)
              unfold Chain.runParts at hrp
              split at hrp
              · rename_i hinv
                simp only [Except.ok.injEq, Prod.mk.injEq, and_true] at hrp
                have hst : st.offset = (o : Int) + r0.root.stop ∧ st.input = s1.input ∧ st.found = s1.found := by
                  rw [← hrp]
                  cases hcx : s1.current with
                  | nil => exact ⟨hl1, rfl, rfl⟩
                  | cons x xs => exact ⟨hnext (by rw [hcx]; simp) x xs hcx, rfl, rfl⟩
                have hf : st.found = true := by rw [hst.2.2]; exact a6 (by simp)
                -- the goal is further
                have hr0 : (o : Int) + r0.root.stop ≠ goal := by
                  intro hgo
                  refine begins_ok (hp q (by rw [hc]; simp)) hq ?_
                  have : s1.input = input.drop goal := by rw [ht1, hgo]; simp
                  rw [← this]; exact hinv
                have hrr : r ∈ rs := by
                  rcases List.mem_cons.1 hrm with rfl | h
                  · exact absurd hrg hr0
                  · exact h
                have hord := (List.pairwise_cons.1 hraws.ordered).1 r hrr
                have hrn := (hraws.inText r hrm).nonempty
                have hoN : ((((o : Int) + r0.root.stop).toNat : Nat) : Int) = (o : Int) + r0.root.stop := by omega
                rw [hf] at h
                simp only [Bool.not_true, Bool.false_eq_true, if_false, Bool.and_false] at h
                rw [hst.1, hst.2.1, ht1, ← hoN, Int.toNat_natCast] at h
                refine loop_found hc hp hb hh hs he hw hres hemit ho goal hg hq fuel _ ts ?_ (by omega) ?_ h
                · have ha5 : ChainSt.Inv input ⟨false, s1.input, s1.offset, []⟩ := a5
                  rw [ht1, hl1] at ha5
                  rw [hoN]
                  exact ha5
                · intro em' raws' hs'
                  have hdrop : input.drop ((o : Int) + r0.root.stop).toNat = (input.drop o).drop r0.root.stop.toNat := by
                    rw [List.drop_drop]; congr 1; omega
                  rw [hdrop] at hs'
                  have hm := hres _ _ _ _ hps _ _ hs'
                  have hmem : r.root.span ∈ rs.map (fun t => t.root.span) := List.mem_map.2 ⟨r, hrr, rfl⟩
                  rw [← hm] at hmem
                  obtain ⟨r', hr', hsp⟩ := List.mem_map.1 hmem
                  refine ⟨r', hr', ?_⟩
                  have : r'.root.stop + r0.root.stop = r.root.stop := congrArg Prod.snd hsp
                  omega
              · cases hrp
              · split at hrp
                · cases hrp
                · exact absurd hrp (hrest _ _)

end Rebulk
