import Verif.Lemmas.Chain
import Verif.Lemmas.ChainKeeps
import Verif.Spec.ChainScan
/-!
# The search of a chain, from left to right
-/
namespace Rebulk
open Spec

theorem tooFew_iff {part : Part} (hp : ∀ s, part.search s ≠ .error .invalidChain) {first : Bool} {text : Str} :
    TooFew part first text ↔ part.matchesOf first text = .error .invalidChain := by
  have hc : ∀ raws : List MTree, (0 < part.start ∧ ∀ r ∈ raws, (r.root.matchIndex : Int) + 1 < part.start) ↔ Part.maxIndex raws + 1 < part.start := by
    intro raws
    have := foldl_max_le (ms := raws) (a := -1) (x := part.start - 1)
    rw [show Part.maxIndex raws + 1 < part.start ↔ ¬ (part.start - 1 ≤ raws.foldl (fun acc t => max acc (t.root.matchIndex : Int)) (-1)) by
      unfold Part.maxIndex; omega, this, not_or]
    refine and_congr (by omega) ⟨?_, ?_⟩
    · rintro h ⟨r, h1, h2⟩; have := h r h1; omega
    · intro h r h1
      by_cases h2 : (r.root.matchIndex : Int) + 1 < part.start
      · exact h2
      · exact absurd ⟨r, h1, by omega⟩ h
  unfold TooFew Part.matchesOf
  constructor
  · rintro ⟨em, rs, raws, h1, h2, h3⟩
    rw [kept_iff] at h2
    subst h2
    simp only [h1]
    rw [if_pos ((hc _).1 h3)]
  · intro h
    cases hs : part.search text with
    | error e => rw [hs] at h; simp only [Except.error.injEq] at h; subst h; exact absurd hs (hp text)
    | ok r =>
      obtain ⟨em, rs⟩ := r
      rw [hs] at h
      simp only at h
      split at h
      · rename_i hlt
        exact ⟨em, rs, _, rfl, kept_iff.2 rfl, (hc _).2 hlt⟩
      · cases h

theorem runParts_tried (c : Chain) (input : Str) : ∀ (parts : List Part) (first : Bool) (st st' : ChainSt) (v : Bool),
    (∀ p ∈ parts, RegularPart p) → st.Inv input → (∀ x ∈ st.current, x.root.rawStop = none) → c.runParts input first parts st = .ok (st', v) →
    ∃ (steps : List Step) (moved : List (List MTree)) (text' : Str) (pos' : Int),
      Tried input first st.input st.offset parts steps v text' pos' ∧ moved.length = steps.length ∧
      (∀ (i : Nat) (s : Step) (l : List MTree), steps[i]? = some s → moved[i]? = some l → MovedList input s.pos s.kept l) ∧
      st'.current = collect c.breaker st.current ((steps.zip moved).flatMap (fun x => x.1.groups x.2)) ∧
      st'.input = text' ∧ st'.offset = (if v = true then pos' else resumeAt st'.current pos') ∧
      (st'.found = true ↔ st.found = true ∨ ∃ s ∈ steps, s.raws ≠ [])
  | [], first, st, st', v, _, hinv, _, h => by
    simp only [Chain.runParts, Except.ok.injEq, Prod.mk.injEq] at h
    obtain ⟨rfl, rfl⟩ := h
    exact ⟨[], [], _, _, .all _ _ _, rfl, by simp, by simp [collect], rfl, by simp, by simp⟩
  | part :: rest, first, st, st', v, hp, hinv, hcur, h => by
    unfold Chain.runParts at h
    split at h
    · rename_i hm
      simp only [Except.ok.injEq, Prod.mk.injEq] at h
      obtain ⟨rfl, rfl⟩ := h
      refine ⟨[], [], _, _, .missing _ _ ((tooFew_iff (hp part (by simp)).honest).2 hm), rfl, by simp, ?_, ?_, ?_, ?_⟩
      · cases hc : st.current <;> simp [collect, hc]
      · cases hc : st.current <;> rfl
      · cases hc : st.current with
        | nil => simp [resumeAt, hc]
        | cons x xs =>
          have := hcur x (by rw [hc]; simp)
          simp only [Bool.false_eq_true, if_false, hc, resumeAt, Match.rawEndOf, this, Option.getD_none]
      · cases hc : st.current <;> simp
    · cases h
    · rename_i kept raws hm
      split at h
      · cases h
      · rename_i s1 hn
        have hreg := hp part (by simp)
        obtain ⟨a1, a2, a3, a4, a5, a6, a7⟩ := toNext_spec hreg hinv hm hn
        have hraw : ∀ x ∈ s1.current, x.root.rawStop = none := by
          intro x hx
          rw [a2] at hx
          rcases collect_mem _ _ _ hx with hx | ⟨g, hg, hx⟩
          · exact hcur x hx
          · unfold Step.groups at hg
            split at hg
            · simp at hg
            · unfold repetitions at hg
              obtain ⟨i, _, rfl⟩ := List.mem_map.1 hg
              obtain ⟨hx, _⟩ := List.mem_filter.1 hx
              obtain ⟨j, hj⟩ := List.getElem?_of_mem hx
              have hlt : j < kept.length := by rw [← a1.count]; exact (List.getElem?_eq_some_iff.1 hj).1
              have hmv := a1.root j _ x (List.getElem?_eq_getElem hlt) hj
              obtain ⟨em0, raws0, hs, hk, _, _⟩ := matchesOf_ok hm
              have hsub : ∀ y ∈ kept, y ∈ em0 := fun y hy => by rw [hk] at hy; exact truncate_sub.subset hy
              have := hsub _ (List.getElem_mem hlt)
              exact hmv.raw.2.trans ((hreg.emitted _ _ _ hs _ this).1.raw.2)
        obtain ⟨steps, moved, text', pos', b1, b2, b3, b4, b5, b6, b7⟩ := runParts_tried c input rest false s1 st' v
          (fun p hp' => hp p (List.mem_cons_of_mem _ hp')) a5 hraw h
        refine ⟨⟨part, st.input, st.offset, kept, raws⟩ :: steps, MTree.fixList input st.offset kept :: moved, text', pos',
          .found (keeps_iff.2 hm) (by rw [← a3, ← a4]; exact b1), by simp [b2], ?_, ?_, b5, b6, ?_⟩
        · intro i s l hs hl
          cases i with
          | zero => simp only [List.getElem?_cons_zero, Option.some.injEq] at hs hl; subst hs; subst hl; exact a1
          | succ i => exact b3 i s l (by simpa using hs) (by simpa using hl)
        · rw [b4, a2]
          simp only [List.zip_cons_cons, List.flatMap_cons]
          rw [collect_append]
        · rw [b7]
          by_cases hr : raws = []
          · rw [a7 hr]; simp [hr]
          · simp [hr, a6 hr]

theorem build_madeBy {c : Chain} {input : Str} {cur : List MTree} {t : MTree} (h : c.build input cur = .ok t) :
    MadeBy c.pattern.id c.pattern.opts input t.root.start t.root.stop t.root := by
  unfold Chain.build at h
  split at h
  · cases h
  · simp only at h
    split at h
    · cases h
    · cases h
      exact ⟨rfl, rfl, rfl, rfl, rfl, rfl, rfl, rfl, rfl, rfl, ⟨rfl, rfl⟩, rfl⟩

theorem loop_scans (c : Chain) (input : Str) (hp : ∀ p ∈ c.parts, RegularPart p) :
    ∀ (fuel : Nat) (ci : Str) (o : Int) (acc out : List MTree), ChainSt.Inv input ⟨false, ci, o, []⟩ → c.loop input fuel ci o acc = .ok out →
      ∃ ts, out = acc ++ ts ∧ Scans c input ci o ts
  | 0, ci, o, acc, out, _, h => by
    unfold Chain.loop at h
    split at h
    · cases h
    · rename_i hlt
      cases h
      exact ⟨[], by simp, .over _ (by omega)⟩
  | fuel + 1, ci, o, acc, out, hi, h => by
    unfold Chain.loop at h
    split at h
    · rename_i hlt
      have h0 : 0 ≤ o := hi.nonneg
      obtain ⟨_, r2⟩ := runParts_forward c input o h0 (by omega) c.parts true ⟨false, ci, o, []⟩
        (fun p h => (hp p h).forwardSearch) hi (Int.le_refl o) (by simp) (by simp) (by simp)
      split at h
      · cases h
      · rename_i st v he
        obtain ⟨i1, _⟩ := r2 st v he
        have hinv : ChainSt.Inv input ⟨false, st.input, st.offset, []⟩ := i1
        obtain ⟨steps, moved, text', pos', b1, b2, b3, b4, b5, b6, b7⟩ := runParts_tried c input c.parts true _ st v hp hi (by simp) he
        simp only [Bool.false_eq_true, false_or] at b7
        split at h
        · rename_i hnf
          cases h
          refine ⟨[], by simp, .nothing hlt b1 ?_⟩
          intro s hs
          by_cases hr : s.raws = []
          · exact hr
          · rw [b7.2 ⟨s, hs, hr⟩] at hnf; cases hnf
        · rename_i hf
          have hf : ∃ s ∈ steps, s.raws ≠ [] := b7.1 (by simpa using hf)
          have hcol : Gathers c.breaker input steps st.current := ⟨moved, b2, b3, b4⟩
          split at h
          · rename_i hcv
            simp only [Bool.and_eq_true, Bool.not_eq_true'] at hcv
            obtain ⟨hc1, rfl⟩ := hcv
            split at h
            · cases h
            · rename_i t ht
              obtain ⟨ts, e1, e2⟩ := loop_scans c input hp fuel _ _ _ out hinv h
              simp only [if_true] at b6
              rw [b5, b6] at e2
              refine ⟨t :: ts, by rw [e1]; simp, .matched hlt b1 hf hcol ?_ (build_spec ht) (build_madeBy ht) e2⟩
              intro h0; rw [h0] at hc1; cases hc1
          · rename_i hcv
            obtain ⟨ts, e1, e2⟩ := loop_scans c input hp fuel _ _ _ out hinv h
            refine ⟨ts, e1, ?_⟩
            cases v with
            | false =>
              simp only [Bool.false_eq_true, if_false] at b6
              rw [b5, b6] at e2
              exact .failed hlt b1 hf hcol e2
            | true =>
              simp only [if_true] at b6
              rw [b5, b6] at e2
              have : st.current = [] := by simpa using hcv
              rw [this] at hcol
              exact .unseen hlt b1 hf hcol e2
    · rename_i hlt
      cases h
      exact ⟨[], by simp, .over _ (by omega)⟩

/-! ## The search is determined -/

theorem tried_unique {input : Str} {first : Bool} {text : Str} {pos : Int} {parts : List Part} {steps : List Step} {v : Bool} {text1 : Str} {pos1 : Int}
    (hp : ∀ p ∈ parts, RegularPart p) (h : Tried input first text pos parts steps v text1 pos1) :
    ∀ {steps' : List Step} {v' : Bool} {text2 : Str} {pos2 : Int}, Tried input first text pos parts steps' v' text2 pos2 →
      steps = steps' ∧ v = v' ∧ text1 = text2 ∧ pos1 = pos2 := by
  induction h with
  | all first text pos => intro _ _ _ _ h'; cases h'; exact ⟨rfl, rfl, rfl, rfl⟩
  | missing pos parts hm =>
    intro _ _ _ _ h'
    cases h' with
    | missing _ _ _ => exact ⟨rfl, rfl, rfl, rfl⟩
    | found hk _ =>
      have := (tooFew_iff (hp _ (by simp)).honest).1 hm
      rw [keeps_iff.1 hk] at this; cases this
  | found hk _ ih =>
    intro _ _ _ _ h'
    cases h' with
    | missing _ _ hm =>
      have := (tooFew_iff (hp _ (by simp)).honest).1 hm
      rw [keeps_iff.1 hk] at this; cases this
    | found hk' ht' =>
      have e := keeps_iff.1 hk
      rw [keeps_iff.1 hk'] at e
      simp only [Except.ok.injEq, Prod.mk.injEq] at e
      obtain ⟨rfl, rfl⟩ := e
      obtain ⟨rfl, rfl, rfl, rfl⟩ := ih (fun p h => hp p (List.mem_cons_of_mem _ h)) ht'
      exact ⟨rfl, rfl, rfl, rfl⟩

theorem movedList_pairs {input : Str} {pos : Int} {kept l : List MTree} (h : MovedList input pos kept l) :
    l.map (fun t => (t.root.matchIndex, t.root.span)) = kept.map (fun t => (t.root.matchIndex, (t.root.start + pos, t.root.stop + pos))) := by
  apply List.ext_getElem?
  intro i
  rw [List.getElem?_map, List.getElem?_map]
  by_cases hi : i < kept.length
  · have hi' : i < l.length := by rw [h.count]; exact hi
    have hm := h.root i _ _ (List.getElem?_eq_getElem hi) (List.getElem?_eq_getElem hi')
    rw [List.getElem?_eq_getElem hi, List.getElem?_eq_getElem hi']
    simp only [Option.map_some, hm.index, hm.span]
  · rw [List.getElem?_eq_none (show l.length ≤ i by rw [h.count]; omega), List.getElem?_eq_none (show kept.length ≤ i by omega)]
    rfl

theorem filter_pairs {l l' : List MTree} (h : l.map (fun t => (t.root.matchIndex, t.root.span)) = l'.map (fun t => (t.root.matchIndex, t.root.span)))
    (i : Nat) : (l.filter (fun t => decide (t.root.matchIndex = i))).map (fun t => t.root.span) =
      (l'.filter (fun t => decide (t.root.matchIndex = i))).map (fun t => t.root.span) := by
  have key : ∀ l : List MTree, (l.filter (fun t => decide (t.root.matchIndex = i))).map (fun t => t.root.span) =
      ((l.map (fun t => (t.root.matchIndex, t.root.span))).filter (fun x => decide (x.1 = i))).map Prod.snd := by
    intro l
    rw [List.filter_map, List.map_map]
    rfl
  rw [key l, key l', h]

theorem groups_spans {s : Step} {l l' : List MTree} (h : l.map (fun t => (t.root.matchIndex, t.root.span)) = l'.map (fun t => (t.root.matchIndex, t.root.span))) :
    (s.groups l).flatten.map (fun t => t.root.span) = (s.groups l').flatten.map (fun t => t.root.span) := by
  unfold Step.groups
  split
  · rfl
  · unfold repetitions
    rw [List.map_flatten, List.map_flatten, List.map_map, List.map_map]
    congr 1
    apply List.map_congr_left
    intro i _
    exact filter_pairs h i

theorem collects_spans {input : Str} {steps : List Step} {cur cur' : List MTree} (h : Gathers none input steps cur) (h' : Gathers none input steps cur') :
    cur.map (fun t => t.root.span) = cur'.map (fun t => t.root.span) := by
  obtain ⟨moved, h1, h2, rfl⟩ := h
  obtain ⟨moved', h1', h2', rfl⟩ := h'
  have collect_flat : ∀ (gs : List (List MTree)) (cur : List MTree), collect none cur gs = cur ++ gs.flatten := by
    intro gs
    induction gs with
    | nil => intro cur; simp [collect]
    | cons g gs ih => intro cur; simp only [collect, ih]; simp
  rw [collect_flat, collect_flat]
  simp only [List.nil_append]
  induction steps generalizing moved moved' with
  | nil => rfl
  | cons s steps ih =>
    cases moved with
    | nil => cases h1
    | cons l moved =>
      cases moved' with
      | nil => cases h1'
      | cons l' moved' =>
        simp only [List.zip_cons_cons, List.flatMap_cons, List.flatten_append, List.map_append]
        congr 1
        · apply groups_spans
          rw [movedList_pairs (h2 0 s l rfl rfl), movedList_pairs (h2' 0 s l' rfl rfl)]
        · exact ih moved (by simpa using h1) (fun i s l hs hl => h2 (i + 1) s l (by simpa using hs) (by simpa using hl))
            moved' (by simpa using h1') (fun i s l hs hl => h2' (i + 1) s l (by simpa using hs) (by simpa using hl))

theorem builtFrom_span {cur cur' : List MTree} {t t' : MTree} (he : cur.map (fun t => t.root.span) = cur'.map (fun t => t.root.span))
    (h : BuiltFrom cur t) (h' : BuiltFrom cur' t') : t.root.span = t'.root.span := by
  have mem : ∀ {a b : List MTree}, a.map (fun t => t.root.span) = b.map (fun t => t.root.span) → ∀ x ∈ a, ∃ y ∈ b, y.root.start = x.root.start ∧ y.root.stop = x.root.stop := by
    intro a b hab x hx
    have : x.root.span ∈ b.map (fun t => t.root.span) := by rw [← hab]; exact List.mem_map.2 ⟨x, hx, rfl⟩
    obtain ⟨y, hy, e⟩ := List.mem_map.1 this
    exact ⟨y, hy, congrArg Prod.fst e, congrArg Prod.snd e⟩
  obtain ⟨x1, m1, e1⟩ := h.start.2
  obtain ⟨y1, n1, f1⟩ := h'.start.2
  obtain ⟨x2, m2, e2⟩ := h.stop.2
  obtain ⟨y2, n2, f2⟩ := h'.stop.2
  obtain ⟨x1', k1, g1, _⟩ := mem he x1 m1
  obtain ⟨x2', k2, _, g2⟩ := mem he x2 m2
  obtain ⟨y1', k3, g3, _⟩ := mem he.symm y1 n1
  obtain ⟨y2', k4, _, g4⟩ := mem he.symm y2 n2
  have a1 := h'.start.1 x1' k1
  have a2 := h'.stop.1 x2' k2
  have a3 := h.start.1 y1' k3
  have a4 := h.stop.1 y2' k4
  show (t.root.start, t.root.stop) = (t'.root.start, t'.root.stop)
  congr 1 <;> omega

theorem resumeAt_spans {cur cur' : List MTree} (he : cur.map (fun t => t.root.span) = cur'.map (fun t => t.root.span)) (pos : Int) :
    resumeAt cur pos = resumeAt cur' pos := by
  cases cur with
  | nil => cases cur' with
    | nil => rfl
    | cons y ys => cases he
  | cons x xs => cases cur' with
    | nil => cases he
    | cons y ys =>
      simp only [List.map_cons, List.cons.injEq] at he
      exact congrArg Prod.snd he.1

theorem scans_unique {c : Chain} {input : Str} (hp : ∀ p ∈ c.parts, RegularPart p) (hb : c.breaker = none) {text : Str} {pos : Int} {ts : List MTree}
    (h : Scans c input text pos ts) : ∀ {ts' : List MTree}, Scans c input text pos ts' → ts.map (fun t => t.root.span) = ts'.map (fun t => t.root.span) := by
  have clash : ∀ {steps : List Step}, (∃ s ∈ steps, s.raws ≠ []) → (∀ s ∈ steps, s.raws = []) → False := by
    rintro steps ⟨s, h1, h2⟩ h3; exact h2 (h3 s h1)
  have nonempty : ∀ {steps : List Step} {cur : List MTree}, Gathers c.breaker input steps cur → cur ≠ [] → Gathers c.breaker input steps [] → False := by
    intro steps cur h1 h2 h3
    rw [hb] at h1 h3
    have := collects_spans h1 h3
    exact h2 (List.map_eq_nil_iff.1 this)
  induction h with
  | over text hle =>
    intro ts' h'
    cases h' with
    | over _ _ => rfl
    | nothing _ _ _ => rfl
    | matched hlt _ _ _ _ _ _ _ => omega
    | unseen hlt _ _ _ _ => omega
    | failed hlt _ _ _ _ => omega
  | nothing hlt ht hn =>
    intro ts' h'
    cases h' with
    | over _ _ => rfl
    | nothing _ _ _ => rfl
    | matched _ ht' hs _ _ _ _ _ => obtain ⟨rfl, _⟩ := tried_unique hp ht ht'; exact (clash hs hn).elim
    | unseen _ ht' hs _ _ => obtain ⟨rfl, _⟩ := tried_unique hp ht ht'; exact (clash hs hn).elim
    | failed _ ht' hs _ _ => obtain ⟨rfl, _⟩ := tried_unique hp ht ht'; exact (clash hs hn).elim
  | matched hlt ht hs hc hne hbf _ _ ih =>
    intro ts' h'
    cases h' with
    | over _ hle => omega
    | nothing _ ht' hn => obtain ⟨rfl, _⟩ := tried_unique hp ht ht'; exact (clash hs hn).elim
    | matched _ ht' _ hc' _ hbf' _ hr =>
      obtain ⟨rfl, _, rfl, rfl⟩ := tried_unique hp ht ht'
      rw [hb] at hc hc'
      simp only [List.map_cons]
      rw [ih hr, builtFrom_span (collects_spans hc hc') hbf hbf']
    | unseen _ ht' _ hc' _ => obtain ⟨rfl, _⟩ := tried_unique hp ht ht'; exact (nonempty hc hne hc').elim
    | failed _ ht' _ _ _ => obtain ⟨_, hv, _⟩ := tried_unique hp ht ht'; cases hv
  | unseen hlt ht hs hc _ ih =>
    intro ts' h'
    cases h' with
    | over _ hle => omega
    | nothing _ ht' hn => obtain ⟨rfl, _⟩ := tried_unique hp ht ht'; exact (clash hs hn).elim
    | matched _ ht' _ hc' hne _ _ _ => obtain ⟨rfl, _⟩ := tried_unique hp ht ht'; exact (nonempty hc' hne hc).elim
    | unseen _ ht' _ _ hr => obtain ⟨rfl, _, rfl, rfl⟩ := tried_unique hp ht ht'; exact ih hr
    | failed _ ht' _ _ _ => obtain ⟨_, hv, _⟩ := tried_unique hp ht ht'; cases hv
  | failed hlt ht hs hc _ ih =>
    intro ts' h'
    cases h' with
    | over _ hle => omega
    | nothing _ ht' hn => obtain ⟨rfl, _⟩ := tried_unique hp ht ht'; exact (clash hs hn).elim
    | matched _ ht' _ _ _ _ _ _ => obtain ⟨_, hv, _⟩ := tried_unique hp ht ht'; cases hv
    | unseen _ ht' _ _ _ => obtain ⟨_, hv, _⟩ := tried_unique hp ht ht'; cases hv
    | failed _ ht' _ hc' hr =>
      obtain ⟨rfl, _, rfl, rfl⟩ := tried_unique hp ht ht'
      rw [hb] at hc hc'
      rw [← resumeAt_spans (collects_spans hc hc')] at hr
      exact ih hr

/-! ## The search answers -/

/-- No marker, nor marked children. -/
def Unmarked (t : MTree) : Prop := t.root.marker = false ∧ ∀ k ∈ t.children, k.root.marker = false

theorem unmarked_of {t : MTree} (h : ∀ m, NodeOf m t → m.marker = false) : Unmarked t := by
  cases t with
  | node m cs =>
    refine ⟨h m .root, ?_⟩
    intro k hk
    cases k with
    | node m' cs' => exact h m' (.inside hk .root)

theorem unmarked_fix (input : Str) (pos : Int) {t : MTree} (h : Unmarked t) : Unmarked (t.fix input pos) := by
  have hm : ∀ t : MTree, (t.fix input pos).root.marker = t.root.marker := by
    intro t; rw [fix_root]; split <;> rfl
  refine ⟨by rw [hm]; exact h.1, ?_⟩
  intro k hk
  obtain ⟨g, hg1, hg⟩ := fix_children input pos t
  rw [hg] at hk
  obtain ⟨k0, hk0, rfl⟩ := List.mem_map.1 hk
  have : (g (k0.fix input pos)).root.marker = (k0.fix input pos).root.marker := by
    rcases hg1 with rfl | ⟨old, new, rfl⟩
    · rfl
    · rw [relink_root]
  rw [this, hm]; exact h.2 k0 hk0

theorem nextGroups_ok (c : Chain) (input : Str) (hidden : Bool) (groups : Dict Nat (List MTree)) (hg : ∀ i, ∀ t ∈ (groups.get? i).getD [], Unmarked t) :
    ∀ (gs : Dict Nat (List MTree)) (st : ChainSt), (∀ k g, (k, g) ∈ gs → g ≠ []) → (∀ t ∈ st.current, Unmarked t) →
      ∃ st', c.nextGroups input hidden groups gs st = .ok st' ∧ ∀ t ∈ st'.current, Unmarked t
  | [], st, _, hc => ⟨st, rfl, hc⟩
  | (k, g) :: rest, st, hgs, hc => by
    obtain ⟨last, hlast⟩ : ∃ last, g.getLast? = some last := ⟨_, List.getLast?_eq_some_getLast (hgs k g (by simp))⟩
    have hrest : ∀ k g, (k, g) ∈ rest → g ≠ [] := fun k g h => hgs k g (List.mem_cons_of_mem _ h)
    simp only [Chain.nextGroups, hlast]
    split
    · exact nextGroups_ok c input hidden groups hg rest _ hrest hc
    · have happ : ∀ t ∈ st.current ++ (groups.get? k).getD [], Unmarked t := by
        intro t ht
        rcases List.mem_append.1 ht with ht | ht
        · exact hc t ht
        · exact hg k t ht
      split
      · rename_i e he
        unfold Chain.breakerEval at he
        split at he
        · cases he
        · split at he
          · rename_i hany
            obtain ⟨t, ht, hm⟩ := List.any_eq_true.1 hany
            rw [(happ t ht).1] at hm; cases hm
          · cases he
      · exact nextGroups_ok c input hidden groups hg rest _ hrest happ
      · exact nextGroups_ok c input hidden groups hg rest _ hrest hc

theorem runParts_ok (c : Chain) (input : Str) : ∀ (parts : List Part) (first : Bool) (st : ChainSt), (∀ p ∈ parts, Answers p) →
    (∀ t ∈ st.current, Unmarked t) → ∃ st' v, c.runParts input first parts st = .ok (st', v) ∧ ∀ t ∈ st'.current, Unmarked t
  | [], first, st, _, hc => ⟨st, true, rfl, hc⟩
  | part :: rest, first, st, hp, hc => by
    unfold Chain.runParts
    obtain ⟨em, rs, hs⟩ := (hp part (by simp)).ok st.input
    have hu : ∀ e ∈ em, Unmarked e := fun e he => unmarked_of ((hp part (by simp)).unmarked _ _ _ hs e he)
    split
    · refine ⟨_, _, rfl, ?_⟩
      cases hcur : st.current with
      | nil => simpa [hcur] using hc
      | cons x xs => simp only; rw [← hcur]; exact hc
    · rename_i e hne hm
      unfold Part.matchesOf at hm
      rw [hs] at hm
      simp only at hm
      split at hm
      · cases hm; exact absurd rfl hne
      · cases hm
    · rename_i kept raws hm
      have hk : ∀ t ∈ kept, Unmarked t := by
        unfold Part.matchesOf at hm
        rw [hs] at hm
        simp only at hm
        split at hm
        · cases hm
        · cases hm
          exact fun t ht => hu t (truncate_sub.subset ht)
      have hn : ∃ s1, c.toNext input part kept raws st = .ok s1 ∧ ∀ t ∈ s1.current, Unmarked t := by
        unfold Chain.toNext
        simp only
        split
        · exact ⟨st, rfl, hc⟩
        · refine nextGroups_ok c input part.hidden _ ?_ _ st (fun k g hg => (groupByIndex_mem hg).1) hc
          intro i t ht
          rw [groupByIndex_get, fixList_eq] at ht
          obtain ⟨t0, ht0, rfl⟩ := List.mem_map.1 (List.mem_filter.1 ht).1
          exact unmarked_fix _ _ (hk t0 ht0)
      obtain ⟨s1, h1, h2⟩ := hn
      rw [h1]
      exact runParts_ok c input rest false s1 (fun p h => hp p (List.mem_cons_of_mem _ h)) h2

theorem build_ok (c : Chain) (input : Str) {cur : List MTree} (hne : cur ≠ []) (hu : ∀ t ∈ cur, Unmarked t) : ∃ t, c.build input cur = .ok t := by
  have hspan : ∃ s e, Chain.buildSpan cur = some (s, e) := by
    cases cur with
    | nil => exact absurd rfl hne
    | cons x xs =>
      have key : ∀ (l : List MTree) (s e : Int), ∃ s' e', l.foldl spanStep (some (s, e)) = some (s', e') := by
        intro l
        induction l with
        | nil => exact fun s e => ⟨s, e, rfl⟩
        | cons y ys ih => exact fun s e => ih _ _
      exact key xs x.root.start x.root.stop
  obtain ⟨s, e, hs⟩ := hspan
  unfold Chain.build
  rw [hs]
  simp only
  rw [if_neg]
  · exact ⟨_, rfl⟩
  · intro hany
    obtain ⟨k, hk, hm⟩ := List.any_eq_true.1 hany
    obtain ⟨h1, _, _⟩ := buildChildren_spec (c.pattern.newMatch input s e) _ cur [] rfl
    have mk : ∀ {a b : Match}, SameButLinks a b → a.marker = b.marker := by
      intro a b h
      have : ({ a with ancestors := [] } : Match).marker = ({ b with ancestors := [] } : Match).marker := by rw [show ({ a with ancestors := [] } : Match) = { b with ancestors := [] } from h]
      exact this
    rcases h1 k hk with ⟨_, hy, _⟩ | ⟨x, hx, h⟩
    · simp at hy
    · rcases h with h | ⟨y, hy, h⟩
      · rw [← mk h, (hu x hx).1] at hm; cases hm
      · rw [← mk h, (hu x hx).2 y hy] at hm; cases hm

theorem loop_ok (c : Chain) (input : Str) (hp : ∀ p ∈ c.parts, Answers p) : ∀ (fuel : Nat) (ci : Str) (o : Int) (acc : List MTree) (e : PyErr),
    c.loop input fuel ci o acc = .error e → e = .diverges
  | 0, ci, o, acc, e, h => by
    unfold Chain.loop at h
    split at h
    · cases h; rfl
    · cases h
  | fuel + 1, ci, o, acc, e, h => by
    unfold Chain.loop at h
    split at h
    · obtain ⟨st, v, h1, h2⟩ := runParts_ok c input c.parts true ⟨false, ci, o, []⟩ hp (by simp)
      rw [h1] at h
      simp only at h
      split at h
      · cases h
      · split at h
        · rename_i hcv
          have hne : st.current ≠ [] := by
            intro h0; rw [h0] at hcv; simp at hcv
          obtain ⟨t, ht⟩ := build_ok c input hne h2
          rw [ht] at h
          exact loop_ok c input hp fuel _ _ _ e h
        · exact loop_ok c input hp fuel _ _ _ e h
    · cases h

end Rebulk
