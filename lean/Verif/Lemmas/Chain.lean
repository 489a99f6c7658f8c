import Verif.Spec.Chain
import Verif.Lemmas.ChainKeeps
import Verif.Lemmas.Pattern
import Verif.Lemmas.Sort
namespace Rebulk
open Spec

/-! ## Repetition of one part -/

theorem adjacentRun_prefix (input : Str) : ∀ l : List MTree, Part.adjacentRun input l <+: l
  | [] => by simp [Part.adjacentRun]
  | [m] => by simp [Part.adjacentRun]
  | a :: b :: rest => by
    unfold Part.adjacentRun
    split
    · exact List.cons_prefix_cons.2 ⟨rfl, adjacentRun_prefix input (b :: rest)⟩
    · exact ⟨b :: rest, rfl⟩

theorem adjacentRun_nil (input : Str) (l : List MTree) : Part.adjacentRun input l = [] ↔ l = [] := by
  match l with
  | [] => simp [Part.adjacentRun]
  | [m] => simp [Part.adjacentRun]
  | a :: b :: rest => unfold Part.adjacentRun; split <;> simp

theorem pySlice_empty {s : Str} {a b : Int} (ha : 0 ≤ a) (hb : b ≤ s.length) (h : (pySlice s (some a) (some b)).isEmpty = true) :
    b ≤ a := by
  unfold pySlice clampIdx at h
  simp only [List.isEmpty_iff, List.drop_eq_nil_iff, List.length_take] at h
  rw [if_neg (show ¬ a < 0 by omega)] at h
  split at h
  · omega
  · omega

theorem pySlice_nonempty {s : Str} {a b : Int} (ha : 0 ≤ a) (hab : a < b) (hb : b ≤ s.length) :
    (pySlice s (some a) (some b)).isEmpty = false := by
  cases h : (pySlice s (some a) (some b)).isEmpty with
  | false => rfl
  | true => have := pySlice_empty ha hb h; omega

theorem pySlice_empty' {s : Str} {a b : Int} (hb : 0 ≤ b) (hab : b ≤ a) :
    (pySlice s (some a) (some b)).isEmpty = true := by
  unfold pySlice clampIdx
  simp only [List.isEmpty_iff, List.drop_eq_nil_iff, List.length_take]
  rw [if_neg (show ¬ a < 0 by omega), if_neg (show ¬ b < 0 by omega)]
  omega

theorem initRaw_top {m : Match} (h : m.ancestors = []) (hr : m.rawStart = none ∧ m.rawStop = none) :
    m.initRawStart = m.start ∧ m.initRawEnd = m.stop := by
  unfold Match.initRawStart Match.initRawEnd Match.rawStartOf Match.rawEndOf
  rw [h, hr.1, hr.2]; exact ⟨rfl, rfl⟩

theorem adjacentRun_contiguous {s : Str} : ∀ {l : List MTree}, (∀ r ∈ l, InText s r.root) → (∀ r ∈ l, r.root.ancestors = []) →
    l.Pairwise (fun a b => a.root.stop ≤ b.root.start) → Contiguous (Part.adjacentRun s l)
  | [], _, _, _ => by simp [Part.adjacentRun, Contiguous]
  | [m], _, _, _ => by simp [Part.adjacentRun, Contiguous]
  | a :: b :: rest, h1, h2, h3 => by
    have ih := adjacentRun_contiguous (l := b :: rest) (fun r hr => h1 r (List.mem_cons_of_mem _ hr))
      (fun r hr => h2 r (List.mem_cons_of_mem _ hr)) (List.pairwise_cons.1 h3).2
    have ta := h1 a (by simp)
    have tb := h1 b (by simp)
    unfold Part.adjacentRun
    split
    · rename_i he
      rw [(initRaw_top (h2 a (by simp)) ta.raw).2, (initRaw_top (h2 b (by simp)) tb.raw).1] at he
      have h4 := pySlice_empty (by have := ta.lo; have := ta.nonempty; omega) (by have := tb.hi; have := tb.nonempty; omega) he
      have h5 := (List.pairwise_cons.1 h3).1 b (by simp)
      have hp := adjacentRun_prefix s (b :: rest)
      cases hr : Part.adjacentRun s (b :: rest) with
      | nil => rw [adjacentRun_nil] at hr; cases hr
      | cons x xs =>
        rw [hr] at hp ih
        obtain ⟨rfl, _⟩ := List.cons_prefix_cons.1 hp
        exact ⟨by omega, ih⟩
    · simp [Contiguous]

/-- The run of neighbours is the longest one: it is followed by a gap. -/
theorem adjacentRun_maximal {s : Str} : ∀ {l : List MTree}, (∀ r ∈ l, InText s r.root) → (∀ r ∈ l, r.root.ancestors = []) →
    ∀ r rest, l = Part.adjacentRun s l ++ r :: rest → ∀ a, (Part.adjacentRun s l).getLast? = some a → a.root.stop < r.root.start
  | [], _, _, r, rest, h, a, _ => by simp [Part.adjacentRun] at h
  | [m], _, _, r, rest, h, a, _ => by simp [Part.adjacentRun] at h
  | a :: b :: l, h1, h2, r, rest, h, x, hx => by
    unfold Part.adjacentRun at h hx
    split at h
    · rename_i he
      rw [if_pos he] at hx
      have hl : b :: l = Part.adjacentRun s (b :: l) ++ r :: rest := by simpa using h
      refine adjacentRun_maximal (l := b :: l) (fun r hr => h1 r (List.mem_cons_of_mem _ hr))
        (fun r hr => h2 r (List.mem_cons_of_mem _ hr)) r rest hl x ?_
      cases hr : Part.adjacentRun s (b :: l) with
      | nil => rw [adjacentRun_nil] at hr; cases hr
      | cons y ys => rw [hr, List.getLast?_cons_cons] at hx; exact hx
    · rename_i he
      rw [if_neg he] at hx
      have ta := h1 a (by simp)
      have tb := h1 b (by simp)
      rw [(initRaw_top (h2 a (by simp)) ta.raw).2, (initRaw_top (h2 b (by simp)) tb.raw).1] at he
      simp only [List.cons_append, List.nil_append, List.cons.injEq, true_and] at h
      cases hx
      obtain ⟨rfl, _⟩ := h
      by_cases hlt : a.root.stop < b.root.start
      · exact hlt
      · exact absurd (pySlice_empty' tb.lo (by omega)) he

theorem prefix_index {l l' : List MTree} (h : l' <+: l) (hi : ∀ (i : Nat) (r : MTree), l[i]? = some r → r.root.matchIndex = i) :
    ∀ (i : Nat) (r : MTree), l'[i]? = some r → r.root.matchIndex = i := by
  intro i r hr
  obtain ⟨t, rfl⟩ := h
  refine hi i r ?_
  rw [List.getElem?_append_left (List.getElem?_eq_some_iff.1 hr).1]; exact hr

theorem filter_index_take (e : Int) : ∀ (l : List MTree) (k : Nat), (∀ (i : Nat) (r : MTree), l[i]? = some r → r.root.matchIndex = k + i) →
    l.filter (fun t => decide ((t.root.matchIndex : Int) < e)) = l.take (e - k).toNat
  | [], _, _ => by simp
  | a :: l, k, h => by
    have h0 : a.root.matchIndex = k := by simpa using h 0 a rfl
    have ih := filter_index_take e l (k + 1) (fun i r hr => by
      have := h (i + 1) r (by simpa using hr)
      omega)
    rw [List.filter_cons, ih]
    by_cases hlt : (k : Int) < e
    · rw [if_pos (by rw [h0]; exact decide_eq_true hlt)]
      have : (e - (k : Int)).toNat = (e - ((k + 1 : Nat) : Int)).toNat + 1 := by omega
      rw [this, List.take_succ_cons]
    · rw [if_neg (by rw [h0]; simpa using hlt)]
      have e1 : (e - (k : Int)).toNat = 0 := by omega
      have e2 : (e - ((k + 1 : Nat) : Int)).toNat = 0 := by omega
      rw [e1, e2]; simp

theorem maxIndex_eq : ∀ (l : List MTree) (k : Nat) (acc : Int), acc = (k : Int) - 1 →
    (∀ (i : Nat) (r : MTree), l[i]? = some r → r.root.matchIndex = k + i) →
    l.foldl (fun acc t => max acc (t.root.matchIndex : Int)) acc = k + l.length - 1
  | [], k, acc, ha, _ => by simp [ha]
  | a :: l, k, acc, ha, h => by
    have h0 : a.root.matchIndex = k := by simpa using h 0 a rfl
    rw [List.foldl_cons, maxIndex_eq l (k + 1) _ (by rw [h0]; omega) (fun i r hr => by
      have := h (i + 1) r (by simpa using hr)
      omega)]
    simp only [List.length_cons]; omega

theorem contiguous_prefix : ∀ {l l' : List MTree}, l' <+: l → Contiguous l → Contiguous l'
  | _, [], _, _ => trivial
  | _, [_], _, _ => trivial
  | [], _ :: _ :: _, h, _ => by simp at h
  | [_], _ :: _ :: _, h, _ => by obtain ⟨t, h⟩ := h; simp at h
  | x :: y :: l, a :: b :: r, h, hc => by
    obtain ⟨rfl, h2⟩ := List.cons_prefix_cons.1 h
    obtain ⟨rfl, _⟩ := List.cons_prefix_cons.1 h2
    exact ⟨hc.1, contiguous_prefix h2 hc.2⟩

/-- What a search of a part of a chain keeps. -/
theorem truncate_raws {s : Str} {raws : List MTree} (h : RawList s raws) (first : Bool) (stop : Option Int) :
    Part.truncate first stop s raws <+: raws ∧ Contiguous (Part.truncate first stop s raws) ∧
    (∀ e, stop = some e → (Part.truncate first stop s raws).length ≤ e.toNat) ∧
    (first = false → ∀ r, (Part.truncate first stop s raws).head? = some r → r.root.start = 0) ∧
    Part.maxIndex (Part.truncate first stop s raws) + 1 = (Part.truncate first stop s raws).length := by
  have hrun := adjacentRun_prefix s raws
  have hc := adjacentRun_contiguous h.inText h.top h.ordered
  have main : ∀ l, l <+: Part.adjacentRun s raws → l <+: raws ∧ Contiguous l ∧ Part.maxIndex l + 1 = l.length := by
    intro l hl
    refine ⟨hl.trans hrun, contiguous_prefix hl hc, ?_⟩
    unfold Part.maxIndex
    rw [maxIndex_eq l 0 (-1) (by omega) (fun i r hr => by
      rw [prefix_index (hl.trans hrun) h.index i r hr]; omega)]
    omega
  unfold Part.truncate
  split
  · exact ⟨List.prefix_refl _, trivial, by simp, by simp, rfl⟩
  · rename_i m rest
    split
    · exact ⟨⟨_, rfl⟩, trivial, by simp, by simp, rfl⟩
    · rename_i hfirst
      have hstart : ∀ (l : List MTree), l <+: m :: rest → first = false → ∀ r, l.head? = some r → r.root.start = 0 := by
        intro l hl hf r hr
        have tm := h.inText m (by simp)
        rw [hf, (initRaw_top (h.top m (by simp)) tm.raw).1] at hfirst
        simp only [Bool.not_false, Bool.true_and, Bool.not_eq_true, Bool.not_eq_false'] at hfirst
        have := pySlice_empty (by omega) (by have := tm.hi; have := tm.nonempty; omega) hfirst
        cases l with
        | nil => simp at hr
        | cons x xs =>
          obtain ⟨rfl, _⟩ := List.cons_prefix_cons.1 hl
          simp only [List.head?_cons, Option.some.injEq] at hr
          rw [← hr]
          have := tm.lo; omega
      split
      · rename_i e
        have he := filter_index_take e (Part.adjacentRun s (m :: rest)) 0 (fun i r hr => by
          rw [prefix_index hrun h.index i r hr]; omega)
        simp only [Int.natCast_zero, Int.sub_zero] at he
        rw [he]
        obtain ⟨h1, h2, h3⟩ := main _ (List.take_prefix e.toNat _)
        refine ⟨h1, h2, ?_, hstart _ h1, h3⟩
        intro e' he'
        cases he'
        rw [List.length_take]; omega
      · obtain ⟨h1, h2, h3⟩ := main _ (List.prefix_refl _)
        exact ⟨h1, h2, (fun _ h => by cases h), hstart _ h1, h3⟩

theorem truncate_sub {s : Str} {first : Bool} {stop : Option Int} {l : List MTree} : (Part.truncate first stop s l).Sublist l := by
  unfold Part.truncate
  split
  · exact List.Sublist.refl _
  · split
    · exact List.nil_sublist _
    · split
      · exact List.filter_sublist.trans (adjacentRun_prefix s _).sublist
      · exact (adjacentRun_prefix s _).sublist

theorem matchesOf_ok {part : Part} {first : Bool} {s : Str} {kept raws : List MTree} (h : part.matchesOf first s = .ok (kept, raws)) :
    ∃ em0 raws0, part.search s = .ok (em0, raws0) ∧ kept = Part.truncate first part.stop s em0 ∧
      raws = Part.truncate first part.stop s raws0 ∧ ¬ (Part.maxIndex raws + 1 < part.start) := by
  unfold Part.matchesOf at h
  split at h
  · cases h
  · rename_i ms rs hs
    simp only at h
    split at h
    · cases h
    · rename_i hlt
      cases h
      exact ⟨ms, rs, hs, rfl, rfl, hlt⟩

/-! ## Offsets -/

theorem fixList_eq (input : Str) (pos : Int) : ∀ l : List MTree, MTree.fixList input pos l = l.map (MTree.fix input pos)
  | [] => by simp [MTree.fixList]
  | t :: ts => by simp [MTree.fixList, fixList_eq input pos ts]

theorem fix_root (input : Str) (pos : Int) (t : MTree) : (t.fix input pos).root =
    if t.root.inputString ≠ some input then
      { t.root with inputString := some input, start := t.root.start + pos, stop := t.root.stop + pos,
                    ancestors := t.root.ancestors.map (Core.shift pos) }
    else t.root := by
  cases t with
  | node m cs =>
    rw [MTree.fix]
    show _ = if m.inputString ≠ some input then _ else _
    split <;> rfl

/-- The children, moved: their links may change. -/
theorem fix_children (input : Str) (pos : Int) (t : MTree) : ∃ g : MTree → MTree, (g = id ∨ ∃ old new, g = MTree.relink old new) ∧
    (t.fix input pos).children = t.children.map (fun k => g (k.fix input pos)) := by
  cases t with
  | node m cs =>
    rw [MTree.fix]
    split
    · refine ⟨MTree.relink (m.core.shift pos :: (m.moved input pos).ancestors) ((m.moved input pos).core :: (m.moved input pos).ancestors), Or.inr ⟨_, _, rfl⟩, ?_⟩
      show MTree.relinkList _ _ _ = _
      rw [relinkList_eq, fixList_eq, List.map_map]
      rfl
    · exact ⟨id, Or.inl rfl, by show MTree.fixList input pos cs = _; rw [fixList_eq]; rfl⟩

/-- A change of links. -/
theorem linkChange_same {g : MTree → MTree} (h : g = id ∨ ∃ old new, g = MTree.relink old new) (t : MTree) : SameButLinks t.root (g t).root := by
  rcases h with rfl | ⟨old, new, rfl⟩
  · unfold SameButLinks; rfl
  · exact relink_same _ _ _

theorem fix_moved {input s : Str} {pos : Int} {t : MTree} (h : t.root.inputString = some s) (hc : s = input → pos = 0) :
    MovedTo input pos t.root (t.fix input pos).root := by
  rw [fix_root, h]
  by_cases he : s = input
  · have := hc he
    subst this; subst he
    rw [if_neg (by simp)]
    exact ⟨by simp [Match.span], h, rfl, rfl, rfl, rfl, rfl, rfl, rfl, rfl, rfl, rfl, rfl⟩
  · rw [if_pos (by simpa using he)]
    exact ⟨rfl, rfl, rfl, rfl, rfl, rfl, rfl, rfl, rfl, rfl, rfl, rfl, rfl⟩

theorem fix_index (input : Str) (pos : Int) (t : MTree) : (t.fix input pos).root.matchIndex = t.root.matchIndex := by
  rw [fix_root]; split <;> rfl

theorem Spec.MovedTo.links {input : Str} {pos : Int} {e a b : Match} (h : MovedTo input pos e a) (hs : SameButLinks a b) :
    MovedTo input pos e b := by
  unfold SameButLinks at hs
  cases a; cases b
  simp only [Match.mk.injEq] at hs
  obtain ⟨rfl, rfl, rfl, rfl, rfl, rfl, rfl, rfl, rfl, rfl, rfl, rfl, rfl, rfl, rfl, _⟩ := hs
  exact ⟨h.span, h.input, h.index, h.name, h.tags, h.marker, h.priv, h.lit, h.formatter, h.solver, h.pattern, h.raw⟩

theorem fixList_moved {input s : Str} {pos : Int} {l : List MTree} (hc : s = input → pos = 0)
    (h : ∀ e ∈ l, InText s e.root ∧ ∀ k ∈ e.children, InText s k.root) :
    MovedList input pos l (MTree.fixList input pos l) := by
  rw [fixList_eq]
  have key : ∀ (i : Nat) e k, l[i]? = some e → (l.map (MTree.fix input pos))[i]? = some k → k = e.fix input pos ∧ e ∈ l := by
    intro i e k he hk
    rw [List.getElem?_map, he] at hk
    cases hk
    exact ⟨rfl, List.mem_of_getElem? he⟩
  refine ⟨by simp, ?_, ?_, ?_⟩
  · intro i e k he hk
    obtain ⟨rfl, hm⟩ := key i e k he hk
    exact fix_moved (h e hm).1.input hc
  · intro i e k he hk
    obtain ⟨rfl, hm⟩ := key i e k he hk
    obtain ⟨g, _, hg⟩ := fix_children input pos e
    rw [hg, List.length_map]
  · intro i e k he hk j c d hc' hd
    obtain ⟨rfl, hm⟩ := key i e k he hk
    obtain ⟨g, hg1, hg⟩ := fix_children input pos e
    rw [hg, List.getElem?_map, hc'] at hd
    cases hd
    exact (fix_moved ((h e hm).2 c (List.mem_of_getElem? hc')).input hc).links (linkChange_same hg1 _)

/-! ## Groups -/

theorem pySorted_of_sorted {α : Type} (lt : α → α → Bool) : ∀ {l : List α}, l.Pairwise (fun a b => lt b a = false) → pySorted lt l = l
  | [], _ => rfl
  | a :: l, h => by
    obtain ⟨h1, h2⟩ := List.pairwise_cons.1 h
    unfold pySorted
    rw [pySorted_of_sorted lt h2]
    cases l with
    | nil => rfl
    | cons b r => simp [insertSorted, h1 b (by simp)]

theorem groupBy_head {α κ : Type} [BEq κ] [LawfulBEq κ] (key : α → κ) (x : α) (xs : List α) : ∃ g r, groupBy key (x :: xs) = (key x, g) :: r := by
  unfold groupBy
  unfold groupCons
  split
  · exact ⟨[x], [], rfl⟩
  · split
    · rename_i k g r _ he
      rw [← eq_of_beq he]
      exact ⟨_, _, rfl⟩
    · exact ⟨_, _, rfl⟩

theorem groupBy_single {α : Type} (key : α → Nat) : ∀ {l : List α}, l.Pairwise (fun a b => key a < key b) →
    groupBy key l = l.map (fun t => (key t, [t]))
  | [], _ => rfl
  | a :: l, h => by
    obtain ⟨h1, h2⟩ := List.pairwise_cons.1 h
    unfold groupBy
    rw [groupBy_single key h2]
    cases l with
    | nil => rfl
    | cons b r =>
      have := h1 b (by simp)
      simp only [groupCons, List.map_cons]
      rw [if_neg (by simp; omega)]

theorem groupBy_get {α : Type} (key : α → Nat) (i : Nat) : ∀ {l : List α}, l.Pairwise (fun a b => key a ≤ key b) →
    ((Dict.get? (groupBy key l) i).getD []) = l.filter (fun t => decide (key t = i))
  | [], _ => rfl
  | [a], _ => by
    by_cases h : key a = i <;> simp [groupBy, groupCons, Dict.get?, h]
  | a :: b :: l, h => by
    obtain ⟨h1, h2⟩ := List.pairwise_cons.1 h
    have ih := groupBy_get key i h2
    obtain ⟨g, r, hg⟩ := groupBy_head key b l
    have step : groupBy key (a :: b :: l) = groupCons key a (groupBy key (b :: l)) := rfl
    rw [step, hg]
    rw [hg] at ih
    have hab := h1 b (by simp)
    simp only [groupCons]
    by_cases he : key a = key b
    · rw [if_pos (by simpa using he)]
      by_cases hi : key b = i
      · rw [List.filter_cons_of_pos (by simpa [he] using hi), ← ih]
        simp [Dict.get?, hi]
      · rw [List.filter_cons_of_neg (by simpa [he] using hi), ← ih]
        simp [Dict.get?, hi]
    · rw [if_neg (by simpa using he)]
      by_cases hi : key a = i
      · have hnil : (b :: l).filter (fun t => decide (key t = i)) = [] := by
          rw [List.filter_eq_nil_iff]
          intro x hx
          have hbx : key b ≤ key x := by
            rcases List.mem_cons.1 hx with rfl | hx
            · exact Nat.le_refl _
            · exact (List.pairwise_cons.1 h2).1 x hx
          simp; omega
        rw [List.filter_cons_of_pos (by simpa using hi), hnil]
        simp [Dict.get?, hi]
      · rw [List.filter_cons_of_neg (by simpa using hi), ← ih]
        simp [Dict.get?, hi]

theorem groupBy_mem {α : Type} (key : α → Nat) : ∀ {l : List α} {k : Nat} {g : List α}, (k, g) ∈ groupBy key l →
    g ≠ [] ∧ ∀ x ∈ g, x ∈ l
  | [], k, g, h => by simp [groupBy] at h
  | a :: l, k, g, h => by
    have ih : ∀ {k g}, (k, g) ∈ groupBy key l → g ≠ [] ∧ ∀ x ∈ g, x ∈ l := fun h => groupBy_mem key h
    have step : groupBy key (a :: l) = groupCons key a (groupBy key l) := rfl
    rw [step] at h
    cases hg : groupBy key l with
    | nil =>
      rw [hg] at h
      simp only [groupCons, List.mem_singleton, Prod.mk.injEq] at h
      obtain ⟨rfl, rfl⟩ := h
      simp
    | cons kg r =>
      obtain ⟨k0, g0⟩ := kg
      rw [hg] at h
      simp only [groupCons] at h
      have ih0 : g0 ≠ [] ∧ ∀ x ∈ g0, x ∈ l := ih (k := k0) (by rw [hg]; simp)
      have ihr : ∀ {k g}, (k, g) ∈ r → g ≠ [] ∧ ∀ x ∈ g, x ∈ l := fun h => ih (by rw [hg]; exact List.mem_cons_of_mem _ h)
      split at h
      · rcases List.mem_cons.1 h with h | h
        · cases h
          refine ⟨by simp, ?_⟩
          intro x hx
          rcases List.mem_cons.1 hx with rfl | hx
          · simp
          · exact List.mem_cons_of_mem _ (ih0.2 x hx)
        · exact ⟨(ihr h).1, fun x hx => List.mem_cons_of_mem _ ((ihr h).2 x hx)⟩
      · rcases List.mem_cons.1 h with h | h
        · cases h; simp
        · rcases List.mem_cons.1 h with h | h
          · cases h
            exact ⟨ih0.1, fun x hx => List.mem_cons_of_mem _ (ih0.2 x hx)⟩
          · exact ⟨(ihr h).1, fun x hx => List.mem_cons_of_mem _ ((ihr h).2 x hx)⟩

theorem sorted_by_index (l : List MTree) : IsStableSort (· ≤ ·) (fun t : MTree => t.root.matchIndex) l
    (pySorted (fun a b => decide (a.root.matchIndex < b.root.matchIndex)) l) :=
  pySorted_isStableSort (fun a b : MTree => decide (a.root.matchIndex < b.root.matchIndex)) (· ≤ ·) (fun t : MTree => t.root.matchIndex)
    (fun a b h => by have := of_decide_eq_true h; exact ⟨by omega, by omega⟩)
    (fun a b h => by have := of_decide_eq_false h; omega) (fun a b c h1 h2 => Nat.le_trans h1 h2) l

theorem groupByIndex_get (l : List MTree) (i : Nat) :
    ((groupByIndex l).get? i).getD [] = l.filter (fun t => decide (t.root.matchIndex = i)) := by
  have hs := sorted_by_index l
  unfold groupByIndex
  rw [groupBy_get (fun t : MTree => t.root.matchIndex) i hs.sorted, hs.stable i]

theorem groupByIndex_single {l : List MTree} (h : l.Pairwise (fun a b => a.root.matchIndex < b.root.matchIndex)) :
    groupByIndex l = l.map (fun t => (t.root.matchIndex, [t])) := by
  unfold groupByIndex
  rw [pySorted_of_sorted _ (h.imp (fun hlt => by simp; omega)), groupBy_single _ h]

theorem groupByIndex_mem {l : List MTree} {k : Nat} {g : List MTree} (h : (k, g) ∈ groupByIndex l) : g ≠ [] ∧ ∀ x ∈ g, x ∈ l := by
  obtain ⟨h1, h2⟩ := groupBy_mem _ h
  exact ⟨h1, fun x hx => (sorted_by_index l).perm.mem_iff.1 (h2 x hx)⟩

theorem ranked_pairwise : ∀ {l : List MTree} {k : Nat}, (∀ (i : Nat) (r : MTree), l[i]? = some r → r.root.matchIndex = k + i) →
    l.Pairwise (fun a b => a.root.matchIndex < b.root.matchIndex)
  | [], _, _ => List.Pairwise.nil
  | a :: l, k, h => by
    refine List.pairwise_cons.2 ⟨?_, ranked_pairwise (k := k + 1) (fun i r hr => by
      have := h (i + 1) r (by simpa using hr); omega)⟩
    intro b hb
    obtain ⟨i, hi⟩ := List.getElem?_of_mem hb
    have h0 := h 0 a rfl
    have := h (i + 1) b (by simpa using hi)
    omega

/-! ## One attempt -/

theorem pySlice_from {s : Str} {o : Int} (h : 0 ≤ o) : pySlice s (some o) none = s.drop o.toNat := by
  unfold pySlice clampIdx
  simp only [if_neg (show ¬ o < 0 by omega), List.take_length]
  by_cases hle : o.toNat ≤ s.length
  · rw [Nat.min_eq_left hle]
  · rw [Nat.min_eq_right (by omega), List.drop_eq_nil_of_le (Nat.le_refl _), List.drop_eq_nil_of_le (by omega)]

theorem breakerEval_collect {c : Chain} {cur g : List MTree} {b : Bool} (h : c.breakerEval (cur ++ g) = .ok b) (gs : List (List MTree)) :
    collect c.breaker cur (g :: gs) = collect c.breaker (if b then cur ++ g else cur) gs := by
  unfold Chain.breakerEval at h
  cases hb : c.breaker with
  | none =>
    rw [hb] at h
    cases h
    simp [collect]
  | some f =>
    rw [hb] at h
    simp only at h
    split at h
    · cases h
    · cases h
      simp only [collect]
      cases f (cur ++ g) <;> simp

theorem collect_append (breaker : Option (List MTree → Bool)) (hs : List (List MTree)) : ∀ (gs : List (List MTree)) (cur : List MTree),
    collect breaker cur (gs ++ hs) = collect breaker (collect breaker cur gs) hs
  | [], cur => by simp [collect]
  | g :: gs, cur => by
    cases breaker with
    | none => simp only [List.cons_append, collect]; exact collect_append none hs gs _
    | some f =>
      simp only [List.cons_append, collect]
      split
      · exact collect_append (some f) hs gs _
      · exact collect_append (some f) hs gs _

theorem nextGroups_spec (c : Chain) (input : Str) (hidden : Bool) (groups : Dict Nat (List MTree)) :
    ∀ (raws : List MTree) (st st' : ChainSt), c.nextGroups input hidden groups (raws.map (fun r => (r.root.matchIndex, [r]))) st = .ok st' →
      st'.current = (if hidden then st.current
        else collect c.breaker st.current (raws.map (fun r => (groups.get? r.root.matchIndex).getD []))) ∧
      (raws = [] → st' = st) ∧
      ∀ last, raws.getLast? = some last → st'.found = true ∧ st'.offset = last.root.rawEndOf ∧
        st'.input = pySlice input (some last.root.rawEndOf) none
  | [], st, st', h => by
    cases h
    exact ⟨by simp [collect], fun _ => rfl, fun _ h => by cases h⟩
  | r :: rs, st, st', h => by
    simp only [List.map_cons, Chain.nextGroups, List.getLast?_singleton] at h
    have last_step : ∀ (s1 : ChainSt), s1.found = true → s1.offset = r.root.rawEndOf → s1.input = pySlice input (some r.root.rawEndOf) none →
        c.nextGroups input hidden groups (rs.map (fun r => (r.root.matchIndex, [r]))) s1 = .ok st' →
        st'.current = (if hidden then s1.current
          else collect c.breaker s1.current (rs.map (fun r => (groups.get? r.root.matchIndex).getD []))) ∧
        ∀ last, (r :: rs).getLast? = some last → st'.found = true ∧ st'.offset = last.root.rawEndOf ∧
          st'.input = pySlice input (some last.root.rawEndOf) none := by
      intro s1 hf ho hi hn
      obtain ⟨h1, h2, h3⟩ := nextGroups_spec c input hidden groups rs s1 st' hn
      refine ⟨h1, ?_⟩
      intro last hl
      cases rs with
      | nil =>
        simp only [List.getLast?_singleton, Option.some.injEq] at hl
        subst hl
        rw [h2 rfl]
        exact ⟨hf, ho, hi⟩
      | cons b t => exact h3 last (by simpa [List.getLast?_cons_cons] using hl)
    by_cases hh : hidden = true
    · subst hh
      simp only [if_true] at h
      obtain ⟨h1, h2⟩ := last_step _ rfl rfl rfl h
      exact ⟨by simpa using h1, (fun h => by cases h), h2⟩
    · have hh : hidden = false := by simpa using hh
      subst hh
      simp only [Bool.false_eq_true, if_false] at h
      split at h
      · cases h
      · rename_i hb
        obtain ⟨h1, h2⟩ := last_step _ rfl rfl rfl h
        refine ⟨?_, (fun h => by cases h), h2⟩
        rw [h1]
        simp only [Bool.false_eq_true, if_false, List.map_cons]
        rw [breakerEval_collect hb]
        simp
      · rename_i hb
        obtain ⟨h1, h2⟩ := last_step _ rfl rfl rfl h
        refine ⟨?_, (fun h => by cases h), h2⟩
        rw [h1]
        simp only [Bool.false_eq_true, if_false, List.map_cons]
        rw [breakerEval_collect hb]
        simp

/-- Either nothing has been consumed, or the text searched is shorter than the input. -/
def ChainSt.Inv (input : Str) (st : ChainSt) : Prop :=
  (st.input = input ∧ st.offset = 0) ∨ (0 < st.offset ∧ st.input.length < input.length)

theorem ChainSt.Inv.zero {input : Str} {st : ChainSt} (h : st.Inv input) : st.input = input → st.offset = 0 := by
  intro he
  rcases h with h | h
  · exact h.2
  · rw [he] at h; omega

theorem ChainSt.Inv.nonneg {input : Str} {st : ChainSt} (h : st.Inv input) : 0 ≤ st.offset := by
  rcases h with h | h <;> omega

theorem ChainSt.Inv.short {input : Str} {st : ChainSt} (h : st.Inv input) : st.input.length ≤ input.length := by
  rcases h with h | h
  · rw [h.1]; exact Nat.le_refl _
  · omega

/-- A step of an attempt with a regular part. -/
theorem toNext_spec {c : Chain} {input : Str} {part : Part} {first : Bool} {st st' : ChainSt} {kept raws : List MTree}
    (hp : RegularPart part) (hinv : st.Inv input) (hm : part.matchesOf first st.input = .ok (kept, raws))
    (h : c.toNext input part kept raws st = .ok st') :
    let s : Step := ⟨part, st.input, st.offset, kept, raws⟩
    MovedList input st.offset kept (MTree.fixList input st.offset kept) ∧
    st'.current = collect c.breaker st.current (s.groups (MTree.fixList input st.offset kept)) ∧
    st'.offset = s.nextPos ∧ st'.input = s.nextText input ∧ st'.Inv input ∧ (raws ≠ [] → st'.found = true) ∧ (raws = [] → st' = st) := by
  intro s
  obtain ⟨em0, raws0, hs, rfl, hraws, hv⟩ := matchesOf_ok hm
  have hr := hp.raws _ _ _ hs
  have he := hp.emitted _ _ _ hs
  obtain ⟨t1, t2, t3, t4, t5⟩ := truncate_raws hr first part.stop
  rw [← hraws] at t1 t2 t3 t4 t5
  have hidx := prefix_index t1 hr.index
  have hmoved := fixList_moved (input := input) (pos := st.offset) hinv.zero
    (l := Part.truncate first part.stop st.input em0) (fun e hm => he e (truncate_sub.subset hm))
  refine ⟨hmoved, ?_⟩
  unfold Chain.toNext at h
  by_cases hne : raws = []
  · rw [if_pos (by simp [hne, MTree.fixList])] at h
    cases h
    refine ⟨?_, ?_, ?_, hinv, fun h => absurd hne h, fun _ => rfl⟩
    · have : s.groups (MTree.fixList input st.offset (Part.truncate first part.stop st.input em0)) = [] := by
        simp [Step.groups, s, hne, repetitions]
      rw [this]; simp [collect]
    · simp [Step.nextPos, s, hne]
    · simp [Step.nextText, s, hne]
  · rw [if_neg (by simpa [fixList_eq] using hne)] at h
    have hsingle : groupByIndex (MTree.fixList input st.offset raws) =
        (MTree.fixList input st.offset raws).map (fun r => (r.root.matchIndex, [r])) := by
      refine groupByIndex_single (ranked_pairwise (k := 0) ?_)
      intro i r hi
      rw [fixList_eq, List.getElem?_map] at hi
      cases hri : raws[i]? with
      | none => rw [hri] at hi; cases hi
      | some r0 =>
        rw [hri] at hi
        cases hi
        rw [fix_index, hidx i r0 hri]; omega
    rw [hsingle] at h
    obtain ⟨h1, _, h3⟩ := nextGroups_spec c input part.hidden _ _ st st' h
    obtain ⟨last, hlast⟩ : ∃ last, raws.getLast? = some last := ⟨_, List.getLast?_eq_some_getLast hne⟩
    have hmem : last ∈ raws := List.mem_of_getLast? hlast
    have hin := hr.inText last (t1.subset hmem)
    obtain ⟨g1, g2, g3⟩ := h3 (last.fix input st.offset) (by rw [fixList_eq, List.getLast?_map, hlast]; rfl)
    have hmv := fix_moved (pos := st.offset) hin.input hinv.zero
    have hend : (last.fix input st.offset).root.rawEndOf = st.offset + last.root.stop := by
      have e1 : (last.fix input st.offset).root.rawStop = none := hmv.raw.2.trans hin.raw.2
      have e2 : (last.fix input st.offset).root.stop = last.root.stop + st.offset := congrArg Prod.snd hmv.span
      unfold Match.rawEndOf
      rw [e1, e2]; simp; omega
    rw [hend] at g2 g3
    have hpos : 0 < st.offset + last.root.stop := by have := hinv.nonneg; have := hin.lo; have := hin.nonempty; omega
    rw [pySlice_from (by omega)] at g3
    refine ⟨?_, ?_, ?_, ?_, fun _ => g1, fun h => absurd h hne⟩
    · rw [h1]
      by_cases hh : part.hidden = true
      · simp [hh, Step.groups, s, collect]
      · simp only [hh, Bool.false_eq_true, if_false, Step.groups, s]
        congr 1
        unfold repetitions
        apply List.ext_getElem?
        intro i
        rw [List.getElem?_map, List.getElem?_map, fixList_eq input st.offset raws, List.getElem?_map]
        by_cases hi : i < raws.length
        · rw [List.getElem?_eq_getElem hi, List.getElem?_range hi]
          simp only [Option.map_some]
          rw [fix_index, hidx i _ (List.getElem?_eq_getElem hi), groupByIndex_get]
        · rw [List.getElem?_eq_none (by omega), List.getElem?_eq_none (by simp; omega)]
          rfl
    · simp [Step.nextPos, s, hlast, g2]
    · simp [Step.nextText, s, hlast, g3]
    · refine Or.inr ⟨by omega, ?_⟩
      rw [g3, List.length_drop]
      have := hinv.short
      have : last.root.stop ≤ (st.input.length : Int) := hin.hi
      have := hin.lo; have := hin.nonempty
      omega

theorem runParts_trace (c : Chain) (input : Str) : ∀ (parts : List Part) (first : Bool) (st st' : ChainSt),
    (∀ p ∈ parts, RegularPart p) → st.Inv input → c.runParts input first parts st = .ok (st', true) →
    ∃ (steps : List Step) (moved : List (List MTree)), steps.map (fun s => s.part) = parts ∧ Steps input first st.input st.offset steps ∧
      moved.length = steps.length ∧
      (∀ (i : Nat) (s : Step) (l : List MTree), steps[i]? = some s → moved[i]? = some l → MovedList input s.pos s.kept l) ∧
      st'.current = collect c.breaker st.current ((steps.zip moved).flatMap (fun x => x.1.groups x.2)) ∧
      st'.Inv input ∧
      (st.input = input.drop st.offset.toNat → st'.input = input.drop st'.offset.toNat ∧
        ∀ s ∈ steps, 0 ≤ s.pos ∧ s.text = input.drop s.pos.toNat)
  | [], first, st, st', _, hinv, h => by
    simp only [Chain.runParts, Except.ok.injEq, Prod.mk.injEq, and_true] at h
    subst h
    exact ⟨[], [], rfl, trivial, rfl, by simp, by simp [collect], hinv, fun h => ⟨h, by simp⟩⟩
  | part :: rest, first, st, st', hp, hinv, h => by
    unfold Chain.runParts at h
    split at h
    · simp at h
    · cases h
    · rename_i kept raws hm
      split at h
      · cases h
      · rename_i s1 hn
        obtain ⟨a1, a2, a3, a4, a5, a6, a7⟩ := toNext_spec (hp part (by simp)) hinv hm hn
        obtain ⟨steps, moved, b1, b2, b3, b4, b5, b6, b7⟩ := runParts_trace c input rest false s1 st'
          (fun p hp' => hp p (List.mem_cons_of_mem _ hp')) a5 h
        refine ⟨⟨part, st.input, st.offset, kept, raws⟩ :: steps, MTree.fixList input st.offset kept :: moved, by simp [b1],
          ⟨rfl, rfl, keeps_iff.2 hm, ?_⟩, by simp [b3], ?_, ?_, b6, ?_⟩
        · rw [← a3, ← a4]; exact b2
        · intro i s l hs hl
          cases i with
          | zero => simp only [List.getElem?_cons_zero, Option.some.injEq] at hs hl; subst hs; subst hl; exact a1
          | succ i => exact b4 i s l (by simpa using hs) (by simpa using hl)
        · rw [b5, a2]
          simp only [List.zip_cons_cons, List.flatMap_cons]
          rw [collect_append]
        · intro hsync
          have hs1 : s1.input = input.drop s1.offset.toNat := by
            by_cases hne : raws = []
            · rw [a7 hne]; exact hsync
            · rw [a4, a3]
              obtain ⟨last, hlast⟩ : ∃ last, raws.getLast? = some last := ⟨_, List.getLast?_eq_some_getLast hne⟩
              simp [Step.nextText, Step.nextPos, hlast]
          obtain ⟨c1, c2⟩ := b7 hs1
          refine ⟨c1, ?_⟩
          intro s hs
          rcases List.mem_cons.1 hs with rfl | hs
          · exact ⟨hinv.nonneg, hsync⟩
          · exact c2 s hs

/-! ## The chain match -/

theorem Spec.SameButLinks.refl (m : Match) : SameButLinks m m := rfl
theorem Spec.SameButLinks.trans {a b c : Match} (h : SameButLinks a b) (h' : SameButLinks b c) : SameButLinks a c := Eq.trans h h'
theorem Spec.SameButLinks.symm {a b : Match} (h : SameButLinks a b) : SameButLinks b a := Eq.symm h
theorem Spec.SameButLinks.span {a b : Match} (h : SameButLinks a b) : a.span = b.span := by
  unfold Spec.SameButLinks at h
  have := congrArg Match.span h
  exact this
theorem Spec.SameButLinks.value {a b : Match} (h : SameButLinks a b) : a.value = b.value := by
  unfold Spec.SameButLinks at h
  have := congrArg Match.value h
  exact this
theorem Spec.SameButLinks.name {a b : Match} (h : SameButLinks a b) : a.name = b.name := by
  unfold Spec.SameButLinks at h
  have := congrArg Match.name h
  exact this

theorem buildChildren_nil (m : Match) (cs : List MTree) : Chain.buildChildren m cs [] = cs := rfl

theorem buildChildren_cons (m : Match) (cs : List MTree) (x : MTree) (xs : List MTree) : Chain.buildChildren m cs (x :: xs) =
    if Chain.contains (cs ++ x.children) x then Chain.buildChildren m (cs ++ x.children) xs
    else Chain.buildChildren m (MTree.relinkList (x.root.core :: x.root.ancestors)
        ((x.setRoot { x.root with ancestors := [m.core] }).root.core :: (x.setRoot { x.root with ancestors := [m.core] }).root.ancestors)
        (cs ++ x.children) ++ [x.setRoot { x.root with ancestors := [m.core] }])
      (xs.map (MTree.relink (x.root.core :: x.root.ancestors)
        ((x.setRoot { x.root with ancestors := [m.core] }).root.core :: (x.setRoot { x.root with ancestors := [m.core] }).root.ancestors))) := by
  unfold Chain.buildChildren
  rw [List.length_cons, Chain.buildChildren.go, List.length_map]

theorem buildChildren_spec (m : Match) : ∀ (n : Nat) (xs cs : List MTree), xs.length = n →
    (∀ k ∈ Chain.buildChildren m cs xs, (∃ y ∈ cs, SameButLinks y.root k.root) ∨
      ∃ x ∈ xs, SameButLinks x.root k.root ∨ ∃ y ∈ x.children, SameButLinks y.root k.root) ∧
    (∀ y ∈ cs, ∃ k ∈ Chain.buildChildren m cs xs, SameButLinks y.root k.root) ∧
    (∀ x ∈ xs, (∃ k ∈ Chain.buildChildren m cs xs, k.root.span = x.root.span ∧ k.root.value = x.root.value ∧ k.root.name = x.root.name) ∧
      ∀ y ∈ x.children, ∃ k ∈ Chain.buildChildren m cs xs, SameButLinks y.root k.root) := by
  intro n
  induction n with
  | zero =>
    intro xs cs hn
    have : xs = [] := List.eq_nil_of_length_eq_zero hn
    subst this
    rw [buildChildren_nil]
    exact ⟨fun k hk => Or.inl ⟨k, hk, rfl⟩, fun y hy => ⟨y, hy, rfl⟩, by simp⟩
  | succ n ih =>
    intro xs cs hn
    cases xs with
    | nil => simp at hn
    | cons x xs =>
      rw [buildChildren_cons]
      simp only
      by_cases hc : Chain.contains (cs ++ x.children) x = true
      · rw [if_pos hc]
        obtain ⟨h1, h2, h3⟩ := ih xs (cs ++ x.children) (by simpa using hn)
        refine ⟨?_, ?_, ?_⟩
        · intro k hk
          rcases h1 k hk with ⟨y, hy, hs⟩ | ⟨x', hx', hs⟩
          · rcases List.mem_append.1 hy with hy | hy
            · exact Or.inl ⟨y, hy, hs⟩
            · exact Or.inr ⟨x, by simp, Or.inr ⟨y, hy, hs⟩⟩
          · exact Or.inr ⟨x', List.mem_cons_of_mem _ hx', hs⟩
        · intro y hy
          exact h2 y (List.mem_append_left _ hy)
        · intro x' hx'
          rcases List.mem_cons.1 hx' with rfl | hx'
          · refine ⟨?_, fun y hy => h2 y (List.mem_append_right _ hy)⟩
            obtain ⟨t, ht, he⟩ := List.any_eq_true.1 hc
            obtain ⟨k, hk, hs⟩ := h2 t ht
            refine ⟨k, hk, ?_, ?_, ?_⟩
            · rw [← hs.span]; unfold Match.span; rw [Match.eqv_start he, Match.eqv_stop he]
            · rw [← hs.value]; exact Match.eqv_value he
            · rw [← hs.name]; exact Match.eqv_name he
          · exact h3 x' hx'
      · rw [if_neg hc]
        obtain ⟨h1, h2, h3⟩ := ih (xs.map (MTree.relink (x.root.core :: x.root.ancestors)
            ((x.setRoot { x.root with ancestors := [m.core] }).root.core :: (x.setRoot { x.root with ancestors := [m.core] }).root.ancestors)))
          (MTree.relinkList (x.root.core :: x.root.ancestors)
            ((x.setRoot { x.root with ancestors := [m.core] }).root.core :: (x.setRoot { x.root with ancestors := [m.core] }).root.ancestors)
            (cs ++ x.children) ++ [x.setRoot { x.root with ancestors := [m.core] }]) (by simpa using hn)
        have hx' : SameButLinks x.root (x.setRoot { x.root with ancestors := [m.core] }).root := rfl
        generalize x.root.core :: x.root.ancestors = old at *
        generalize x.setRoot { x.root with ancestors := [m.core] } = x1 at *
        generalize x1.root.core :: x1.root.ancestors = new at *
        rw [relinkList_eq] at h1 h2 h3 ⊢
        have back : ∀ y, y ∈ (cs ++ x.children).map (MTree.relink old new) ++ [x1] →
            (∃ z ∈ cs, SameButLinks z.root y.root) ∨ (∃ z ∈ x.children, SameButLinks z.root y.root) ∨ SameButLinks x.root y.root := by
          intro y hy
          rcases List.mem_append.1 hy with hy | hy
          · obtain ⟨z, hz, rfl⟩ := List.mem_map.1 hy
            rcases List.mem_append.1 hz with hz | hz
            · exact Or.inl ⟨z, hz, relink_same _ _ _⟩
            · exact Or.inr (Or.inl ⟨z, hz, relink_same _ _ _⟩)
          · rw [List.mem_singleton] at hy
            subst hy
            exact Or.inr (Or.inr hx')
        refine ⟨?_, ?_, ?_⟩
        · intro k hk
          rcases h1 k hk with ⟨y, hy, hs⟩ | ⟨x', hx', hs⟩
          · rcases back y hy with ⟨z, hz, h⟩ | ⟨z, hz, h⟩ | h
            · exact Or.inl ⟨z, hz, h.trans hs⟩
            · exact Or.inr ⟨x, by simp, Or.inr ⟨z, hz, h.trans hs⟩⟩
            · exact Or.inr ⟨x, by simp, Or.inl (h.trans hs)⟩
          · obtain ⟨x0, hx0, rfl⟩ := List.mem_map.1 hx'
            refine Or.inr ⟨x0, List.mem_cons_of_mem _ hx0, ?_⟩
            rcases hs with hs | ⟨y, hy, hs⟩
            · exact Or.inl ((relink_same _ _ _).trans hs)
            · rw [relink_children, List.mem_map] at hy
              obtain ⟨y0, hy0, rfl⟩ := hy
              exact Or.inr ⟨y0, hy0, (relink_same _ _ _).trans hs⟩
        · intro y hy
          obtain ⟨k, hk, hs⟩ := h2 (y.relink old new) (List.mem_append_left _ (List.mem_map.2 ⟨y, List.mem_append_left _ hy, rfl⟩))
          exact ⟨k, hk, (relink_same _ _ _).trans hs⟩
        · intro x' hxm
          rcases List.mem_cons.1 hxm with rfl | hxm
          · refine ⟨?_, ?_⟩
            · obtain ⟨k, hk, hs⟩ := h2 x1 (List.mem_append_right _ (by simp))
              have := hx'.trans hs
              exact ⟨k, hk, this.span.symm, this.value.symm, this.name.symm⟩
            · intro y hy
              obtain ⟨k, hk, hs⟩ := h2 (y.relink old new) (List.mem_append_left _ (List.mem_map.2 ⟨y, List.mem_append_right _ hy, rfl⟩))
              exact ⟨k, hk, (relink_same _ _ _).trans hs⟩
          · obtain ⟨⟨k, hk, e1, e2, e3⟩, h4⟩ := h3 (x'.relink old new) (List.mem_map.2 ⟨x', hxm, rfl⟩)
            have hr := relink_same old new x'
            refine ⟨⟨k, hk, e1.trans hr.span.symm, e2.trans hr.value.symm, e3.trans hr.name.symm⟩, ?_⟩
            intro y hy
            obtain ⟨k, hk, hs⟩ := h4 (y.relink old new) (by rw [relink_children]; exact List.mem_map.2 ⟨y, hy, rfl⟩)
            exact ⟨k, hk, (relink_same _ _ _).trans hs⟩

/-- The accumulator of `buildSpan`. -/
def spanStep (acc : Option (Int × Int)) (t : MTree) : Option (Int × Int) :=
  match acc with
  | none => some t.root.span
  | some (s, e) => some (if s > t.root.start then t.root.start else s, if e < t.root.stop then t.root.stop else e)

theorem buildSpan_some : ∀ (l : List MTree) (s e s' e' : Int), l.foldl spanStep (some (s, e)) = some (s', e') →
    (s' ≤ s ∧ (∀ x ∈ l, s' ≤ x.root.start) ∧ (s' = s ∨ ∃ x ∈ l, s' = x.root.start)) ∧
    (e ≤ e' ∧ (∀ x ∈ l, x.root.stop ≤ e') ∧ (e' = e ∨ ∃ x ∈ l, e' = x.root.stop))
  | [], s, e, s', e', h => by
    simp only [List.foldl_nil, Option.some.injEq, Prod.mk.injEq] at h
    obtain ⟨rfl, rfl⟩ := h
    simp
  | t :: l, s, e, s', e', h => by
    simp only [List.foldl_cons, spanStep] at h
    obtain ⟨⟨a1, a2, a3⟩, b1, b2, b3⟩ := buildSpan_some l _ _ s' e' h
    refine ⟨⟨?_, ?_, ?_⟩, ?_, ?_, ?_⟩
    · split at a1 <;> omega
    · intro x hx
      rcases List.mem_cons.1 hx with rfl | hx
      · split at a1 <;> omega
      · exact a2 x hx
    · rcases a3 with a3 | ⟨x, hx, a3⟩
      · split at a3
        · exact Or.inr ⟨t, by simp, a3⟩
        · exact Or.inl a3
      · exact Or.inr ⟨x, List.mem_cons_of_mem _ hx, a3⟩
    · split at b1 <;> omega
    · intro x hx
      rcases List.mem_cons.1 hx with rfl | hx
      · split at b1 <;> omega
      · exact b2 x hx
    · rcases b3 with b3 | ⟨x, hx, b3⟩
      · split at b3
        · exact Or.inr ⟨t, by simp, b3⟩
        · exact Or.inl b3
      · exact Or.inr ⟨x, List.mem_cons_of_mem _ hx, b3⟩

theorem build_spec {c : Chain} {input : Str} {cur : List MTree} {t : MTree} (h : c.build input cur = .ok t) : BuiltFrom cur t := by
  unfold Chain.build at h
  split at h
  · cases h
  · rename_i s e hs
    simp only at h
    split at h
    · cases h
    · cases h
      cases cur with
      | nil => cases hs
      | cons x xs =>
        have hs' : xs.foldl spanStep (some x.root.span) = some (s, e) := hs
        obtain ⟨⟨a1, a2, a3⟩, b1, b2, b3⟩ := buildSpan_some xs _ _ s e hs'
        obtain ⟨h1, h2, h3⟩ := buildChildren_spec (c.pattern.newMatch input s e) _ (x :: xs) [] rfl
        refine ⟨⟨?_, ?_⟩, ⟨?_, ?_⟩, ?_, h3⟩
        · intro y hy
          rcases List.mem_cons.1 hy with rfl | hy
          · exact a1
          · exact a2 y hy
        · rcases a3 with a3 | ⟨y, hy, a3⟩
          · exact ⟨x, by simp, a3⟩
          · exact ⟨y, List.mem_cons_of_mem _ hy, a3⟩
        · intro y hy
          rcases List.mem_cons.1 hy with rfl | hy
          · exact b1
          · exact b2 y hy
        · rcases b3 with b3 | ⟨y, hy, b3⟩
          · exact ⟨x, by simp, b3⟩
          · exact ⟨y, List.mem_cons_of_mem _ hy, b3⟩
        · intro k hk
          rcases h1 k hk with ⟨_, hy, _⟩ | h
          · simp at hy
          · exact h

/-! ## Termination -/

theorem fix_rawEnd {input s : Str} {pos : Int} {t : MTree} (h : t.root.inputString = some s) (hr : t.root.rawStop = none)
    (hc : s = input → pos = 0) : (t.fix input pos).root.rawEndOf = pos + t.root.stop := by
  have hm := fix_moved h hc
  have e1 : (t.fix input pos).root.rawStop = none := hm.raw.2.trans hr
  have e2 : (t.fix input pos).root.stop = t.root.stop + pos := congrArg Prod.snd hm.span
  unfold Match.rawEndOf
  rw [e1, e2]; simp; omega

theorem breakerEval_ne (c : Chain) (l : List MTree) : c.breakerEval l ≠ .error .diverges := by
  unfold Chain.breakerEval
  split
  · simp
  · split <;> simp

theorem nextGroups_forward (c : Chain) (input : Str) (hidden : Bool) (groups : Dict Nat (List MTree)) (base : Int) (hb : 0 ≤ base)
    (hlen : 0 < input.length) (hg : ∀ i, ∀ t ∈ (groups.get? i).getD [], base < t.root.rawEndOf) :
    ∀ (gs : Dict Nat (List MTree)) (st : ChainSt), (∀ k g, (k, g) ∈ gs → g ≠ [] ∧ ∀ t ∈ g, base < t.root.rawEndOf) →
      st.Inv input → (∀ t ∈ st.current, base < t.root.rawEndOf) →
      c.nextGroups input hidden groups gs st ≠ .error .diverges ∧
      ∀ st', c.nextGroups input hidden groups gs st = .ok st' → st'.Inv input ∧ (∀ t ∈ st'.current, base < t.root.rawEndOf) ∧
        (gs ≠ [] → st'.found = true ∧ base < st'.offset) ∧ (gs = [] → st' = st)
  | [], st, _, hi, hc => by
    refine ⟨by simp [Chain.nextGroups], ?_⟩
    intro st' h
    cases h
    exact ⟨hi, hc, fun h => absurd rfl h, fun _ => rfl⟩
  | (k, g) :: rest, st, hgs, hi, hc => by
    obtain ⟨hne, hmem⟩ := hgs k g (by simp)
    obtain ⟨last, hlast⟩ : ∃ last, g.getLast? = some last := ⟨_, List.getLast?_eq_some_getLast hne⟩
    have hl := hmem last (List.mem_of_getLast? hlast)
    have hrest : ∀ k g, (k, g) ∈ rest → g ≠ [] ∧ ∀ t ∈ g, base < t.root.rawEndOf := fun k g h => hgs k g (List.mem_cons_of_mem _ h)
    have hinv : ∀ cur, (ChainSt.mk true (pySlice input (some last.root.rawEndOf) none) last.root.rawEndOf cur).Inv input := by
      intro cur
      refine Or.inr ⟨by show 0 < last.root.rawEndOf; omega, ?_⟩
      show (pySlice input (some last.root.rawEndOf) none).length < input.length
      rw [pySlice_from (by omega), List.length_drop]; omega
    have fin : ∀ cur, (∀ t ∈ cur, base < t.root.rawEndOf) →
        c.nextGroups input hidden groups rest ⟨true, pySlice input (some last.root.rawEndOf) none, last.root.rawEndOf, cur⟩ ≠ .error .diverges ∧
        ∀ st', c.nextGroups input hidden groups rest ⟨true, pySlice input (some last.root.rawEndOf) none, last.root.rawEndOf, cur⟩ = .ok st' →
          st'.Inv input ∧ (∀ t ∈ st'.current, base < t.root.rawEndOf) ∧ st'.found = true ∧ base < st'.offset := by
      intro cur hcur
      obtain ⟨h1, h2⟩ := nextGroups_forward c input hidden groups base hb hlen hg rest _ hrest (hinv cur) hcur
      refine ⟨h1, ?_⟩
      intro st' h
      obtain ⟨a1, a2, a3, a4⟩ := h2 st' h
      refine ⟨a1, a2, ?_⟩
      by_cases hr : rest = []
      · rw [a4 hr]; exact ⟨rfl, hl⟩
      · exact a3 hr
    simp only [Chain.nextGroups, hlast]
    have wrap : ∀ cur, (∀ t ∈ cur, base < t.root.rawEndOf) →
        c.nextGroups input hidden groups rest ⟨true, pySlice input (some last.root.rawEndOf) none, last.root.rawEndOf, cur⟩ ≠ .error .diverges ∧
        ∀ st', c.nextGroups input hidden groups rest ⟨true, pySlice input (some last.root.rawEndOf) none, last.root.rawEndOf, cur⟩ = .ok st' →
          st'.Inv input ∧ (∀ t ∈ st'.current, base < t.root.rawEndOf) ∧ ((k, g) :: rest ≠ [] → st'.found = true ∧ base < st'.offset) ∧
            ((k, g) :: rest = [] → st' = st) := by
      intro cur hcur
      obtain ⟨h1, h2⟩ := fin cur hcur
      refine ⟨h1, fun st' h => ?_⟩
      obtain ⟨a1, a2, a3⟩ := h2 st' h
      exact ⟨a1, a2, fun _ => a3, fun h => by cases h⟩
    split
    · exact wrap _ hc
    · have hb2 := breakerEval_ne c (st.current ++ (groups.get? k).getD [])
      split
      · rename_i e he
        rw [he] at hb2
        refine ⟨fun h => hb2 (by simpa using h), fun _ h => by cases h⟩
      · refine wrap _ ?_
        intro t ht
        rcases List.mem_append.1 ht with ht | ht
        · exact hc t ht
        · exact hg k t ht
      · exact wrap _ hc

theorem runParts_forward (c : Chain) (input : Str) (base : Int) (hb : 0 ≤ base) (hlen : 0 < input.length) :
    ∀ (parts : List Part) (first : Bool) (st : ChainSt), (∀ p ∈ parts, SearchesForward p) → st.Inv input → base ≤ st.offset →
      (∀ t ∈ st.current, base < t.root.rawEndOf) → (st.found = true → base < st.offset) → (st.found = false → st.current = []) →
      c.runParts input first parts st ≠ .error .diverges ∧
      ∀ st' v, c.runParts input first parts st = .ok (st', v) → st'.Inv input ∧ (st'.found = true → base < st'.offset)
  | [], first, st, _, hi, _, _, hf, _ => by
    refine ⟨by simp [Chain.runParts], ?_⟩
    intro st' v h
    simp only [Chain.runParts, Except.ok.injEq, Prod.mk.injEq] at h
    obtain ⟨rfl, _⟩ := h
    exact ⟨hi, hf⟩
  | part :: rest, first, st, hp, hi, hle, hc, hf, hnf => by
    have hfw := hp part (by simp)
    unfold Chain.runParts
    have hmd : part.matchesOf first st.input ≠ .error .diverges := by
      unfold Part.matchesOf
      have := hfw.returns st.input
      split
      · rename_i e he; rw [he] at this; simpa using this
      · simp only; split <;> simp
    split
    · refine ⟨by simp, ?_⟩
      intro st' v h
      simp only [Except.ok.injEq, Prod.mk.injEq] at h
      obtain ⟨rfl, _⟩ := h
      cases hcur : st.current with
      | nil => exact ⟨hi, hf⟩
      | cons x xs =>
        have hx := hc x (by rw [hcur]; simp)
        refine ⟨?_, fun _ => hx⟩
        rcases hi with hi | hi
        · cases h0 : st.found with
          | true => have := hf h0; omega
          | false => have := hnf h0; rw [hcur] at this; cases this
        · exact Or.inr ⟨by show 0 < x.root.rawEndOf; omega, hi.2⟩
    · rename_i e he hm
      rw [hm] at hmd
      refine ⟨fun h => hmd (by simpa using h), fun _ _ h => by cases h⟩
    · rename_i kept raws hm
      obtain ⟨em0, raws0, hs, hk, hr, _⟩ := matchesOf_ok hm
      have fwd : ∀ t, (t ∈ kept ∨ t ∈ raws) → base < (t.fix input st.offset).root.rawEndOf := by
        intro t ht
        obtain ⟨h1, h2, h3⟩ := hfw.forward _ _ _ hs t (by
          rcases ht with ht | ht
          · rw [hk] at ht; exact Or.inl (truncate_sub.subset ht)
          · rw [hr] at ht; exact Or.inr (truncate_sub.subset ht))
        rw [fix_rawEnd h1 h2 hi.zero]; omega
      by_cases hne : raws = []
      · have : c.toNext input part kept raws st = .ok st := by
          unfold Chain.toNext; rw [if_pos (by simp [hne, MTree.fixList])]
        rw [this]
        exact runParts_forward c input base hb hlen rest false st (fun p h => hp p (List.mem_cons_of_mem _ h)) hi hle hc hf hnf
      · have hstep : c.toNext input part kept raws st = c.nextGroups input part.hidden
            (groupByIndex (MTree.fixList input st.offset kept)) (groupByIndex (MTree.fixList input st.offset raws)) st := by
          unfold Chain.toNext; rw [if_neg (by simpa [fixList_eq] using hne)]
        rw [hstep]
        have hgne : groupByIndex (MTree.fixList input st.offset raws) ≠ [] := by
          unfold groupByIndex
          intro h0
          have hperm := (sorted_by_index (MTree.fixList input st.offset raws)).perm
          cases hl : pySorted (fun a b : MTree => decide (a.root.matchIndex < b.root.matchIndex)) (MTree.fixList input st.offset raws) with
          | nil =>
            rw [hl] at hperm
            have := hperm.length_eq
            rw [fixList_eq, List.length_map] at this
            exact hne (List.eq_nil_of_length_eq_zero this.symm)
          | cons x xs =>
            rw [hl] at h0
            obtain ⟨g, r, hg⟩ := groupBy_head (fun t : MTree => t.root.matchIndex) x xs
            rw [hg] at h0; cases h0
        obtain ⟨n1, n2⟩ := nextGroups_forward c input part.hidden (groupByIndex (MTree.fixList input st.offset kept)) base hb hlen
          (by
            intro i t ht
            rw [groupByIndex_get, fixList_eq] at ht
            obtain ⟨t0, ht0, rfl⟩ := List.mem_map.1 (List.mem_filter.1 ht).1
            exact fwd t0 (Or.inl ht0))
          (groupByIndex (MTree.fixList input st.offset raws)) st
          (by
            intro k g hg
            obtain ⟨g1, g2⟩ := groupByIndex_mem hg
            refine ⟨g1, fun t ht => ?_⟩
            have := g2 t ht
            rw [fixList_eq] at this
            obtain ⟨t0, ht0, rfl⟩ := List.mem_map.1 this
            exact fwd t0 (Or.inr ht0)) hi hc
        split
        · rename_i e he
          rw [he] at n1
          exact ⟨fun h => n1 (by simpa using h), fun _ _ h => by cases h⟩
        · rename_i s1 he
          obtain ⟨m1, m2, m3, _⟩ := n2 s1 he
          obtain ⟨f1, f2⟩ := m3 hgne
          exact runParts_forward c input base hb hlen rest false s1 (fun p h => hp p (List.mem_cons_of_mem _ h)) m1 (by omega) m2
            (fun _ => f2) (fun h => by rw [f1] at h; cases h)

theorem build_ne (c : Chain) (input : Str) (cur : List MTree) : c.build input cur ≠ .error .diverges := by
  unfold Chain.build
  split
  · simp
  · simp only; split <;> simp

theorem loop_terminates (c : Chain) (input : Str) (hp : ∀ p ∈ c.parts, SearchesForward p) :
    ∀ (fuel more : Nat) (ci : Str) (o : Int) (acc : List MTree), ChainSt.Inv input ⟨false, ci, o, []⟩ → (input.length : Int) ≤ o + fuel →
      c.loop input fuel ci o acc ≠ .error .diverges ∧ c.loop input (fuel + more) ci o acc = c.loop input fuel ci o acc
  | 0, more, ci, o, acc, _, hle => by
    have : ¬ o < (input.length : Int) := by omega
    refine ⟨by unfold Chain.loop; rw [if_neg this]; simp, ?_⟩
    cases more with
    | zero => rfl
    | succ n =>
      unfold Chain.loop
      simp [this]
  | fuel + 1, more, ci, o, acc, hi, hle => by
    have e : fuel + 1 + more = (fuel + more) + 1 := by omega
    rw [e]
    unfold Chain.loop
    by_cases hlt : o < (input.length : Int)
    · rw [if_pos hlt, if_pos hlt]
      have h0 : 0 ≤ o := hi.nonneg
      obtain ⟨r1, r2⟩ := runParts_forward c input o h0 (by omega) c.parts true ⟨false, ci, o, []⟩ hp hi (Int.le_refl o)
        (by simp) (by simp) (by simp)
      split
      · rename_i e he
        rw [he] at r1
        exact ⟨fun h => r1 (by simpa using h), rfl⟩
      · rename_i st v he
        obtain ⟨i1, i2⟩ := r2 st v he
        cases hf : st.found with
        | false => simp
        | true =>
          have hoff := i2 hf
          have hinv : ChainSt.Inv input ⟨false, st.input, st.offset, []⟩ := i1
          simp only [Bool.not_true, Bool.false_eq_true, if_false]
          split
          · have hbn := build_ne c input st.current
            split
            · rename_i e he
              rw [he] at hbn
              exact ⟨fun h => hbn (by simpa using h), rfl⟩
            · exact loop_terminates c input hp fuel more st.input st.offset _ hinv (by omega)
          · exact loop_terminates c input hp fuel more st.input st.offset _ hinv (by omega)
    · rw [if_neg hlt, if_neg hlt]
      simp

/-! ## All attempts -/

theorem Spec.RegularPart.forwardSearch {part : Part} (h : RegularPart part) : SearchesForward part := by
  refine ⟨h.returns, ?_⟩
  intro s em raws hs t ht
  have : InText s t.root := by
    rcases ht with ht | ht
    · exact (h.emitted s em raws hs t ht).1
    · exact (h.raws s em raws hs).inText t ht
  exact ⟨this.input, this.raw.2, by have h1 := this.lo; have h2 := this.nonempty; omega⟩

theorem maxIndex_ge : ∀ (l : List MTree) (acc : Int), acc ≤ l.foldl (fun acc t => max acc (t.root.matchIndex : Int)) acc
  | [], acc => Int.le_refl _
  | t :: l, acc => by
    rw [List.foldl_cons]
    have := maxIndex_ge l (max acc (t.root.matchIndex : Int))
    omega

theorem matchesOf_optional {part : Part} (h : RegularPart part) (ho : part.start ≤ 0) (first : Bool) (s : Str) :
    part.matchesOf first s ≠ .error .invalidChain := by
  unfold Part.matchesOf
  have := h.honest s
  split
  · rename_i e he; rw [he] at this; simpa using this
  · simp only
    split
    · rename_i ms rs hs hlt
      have := maxIndex_ge (Part.truncate first part.stop s rs) (-1)
      unfold Part.maxIndex at hlt
      omega
    · simp

theorem runParts_optional (c : Chain) (input : Str) : ∀ (parts : List Part) (first : Bool) (st st' : ChainSt),
    (∀ p ∈ parts, RegularPart p ∧ p.start ≤ 0) → c.runParts input first parts st ≠ .ok (st', false)
  | [], first, st, st', _ => by simp [Chain.runParts]
  | part :: rest, first, st, st', hp => by
    have := matchesOf_optional (hp part (by simp)).1 (hp part (by simp)).2 first st.input
    unfold Chain.runParts
    split
    · rename_i he; exact absurd he this
    · simp
    · split
      · simp
      · exact runParts_optional c input rest false _ st' (fun p h => hp p (List.mem_cons_of_mem _ h))

theorem collect_mem (breaker : Option (List MTree → Bool)) {x : MTree} : ∀ (gs : List (List MTree)) (cur : List MTree),
    x ∈ collect breaker cur gs → x ∈ cur ∨ ∃ g ∈ gs, x ∈ g
  | [], cur, h => by simp only [collect] at h; exact Or.inl h
  | g :: gs, cur, h => by
    have app : x ∈ collect breaker (cur ++ g) gs → x ∈ cur ∨ ∃ g' ∈ g :: gs, x ∈ g' := by
      intro h
      rcases collect_mem breaker gs _ h with h | ⟨g', hg', h⟩
      · rcases List.mem_append.1 h with h | h
        · exact Or.inl h
        · exact Or.inr ⟨g, by simp, h⟩
      · exact Or.inr ⟨g', List.mem_cons_of_mem _ hg', h⟩
    cases breaker with
    | none => simp only [collect] at h; exact app h
    | some f =>
      simp only [collect] at h
      split at h
      · rcases collect_mem (some f) gs cur h with h | ⟨g', hg', h⟩
        · exact Or.inl h
        · exact Or.inr ⟨g', List.mem_cons_of_mem _ hg', h⟩
      · exact app h

theorem nextText_sync {input : Str} {s : Step} (h : s.text = input.drop s.pos.toNat) : s.nextText input = input.drop s.nextPos.toNat := by
  unfold Step.nextText Step.nextPos
  cases s.raws.getLast? with
  | none => exact h
  | some r => rfl

/-- A failed attempt leaves the text searched and the offset in step. -/
theorem runParts_resync {c : Chain} {input : Str} {parts : List Part} {first : Bool} {st st' : ChainSt}
    (hp : ∀ p ∈ parts, RegularPart p) (hf : FailsEarly parts) (hinv : st.Inv input) (hcur : st.current = [])
    (hsync : st.input = input.drop st.offset.toNat) (h : c.runParts input first parts st = .ok (st', false)) :
    st'.input = input.drop st'.offset.toNat := by
  cases parts with
  | nil => simp [Chain.runParts] at h
  | cons p rest =>
    unfold Chain.runParts at h
    split at h
    · simp only [Except.ok.injEq, Prod.mk.injEq, and_true] at h
      rw [← h, hcur]
      exact hsync
    · cases h
    · rename_i kept raws hm
      split at h
      · cases h
      · rename_i s1 hn
        obtain ⟨a1, a2, a3, a4, a5, a6, a7⟩ := toNext_spec (hp p (by simp)) hinv hm hn
        have hs1 : s1.input = input.drop s1.offset.toNat := by
          rw [a4, a3]; exact nextText_sync (s := ⟨p, st.input, st.offset, kept, raws⟩) hsync
        have hopt : ∀ (l : List Part), (∀ q ∈ l, RegularPart q) → (∀ q ∈ l, q.start ≤ 0) → ∀ b s2, c.runParts input b l s2 ≠ .ok (st', false) :=
          fun l h1 h2 b s2 => runParts_optional c input l b s2 st' (fun q hq => ⟨h1 q hq, h2 q hq⟩)
        rcases hf with hf | ⟨hf, hw⟩
        · exact absurd h (hopt rest (fun q hq => hp q (List.mem_cons_of_mem _ hq)) (by simpa using hf) false s1)
        · cases rest with
          | nil => simp [Chain.runParts] at h
          | cons q rest2 =>
            unfold Chain.runParts at h
            split at h
            · simp only [Except.ok.injEq, Prod.mk.injEq, and_true] at h
              rw [← h]
              cases hc1 : s1.current with
              | nil => exact hs1
              | cons x xs =>
                show s1.input = input.drop x.root.rawEndOf.toNat
                have hx : x ∈ s1.current := by rw [hc1]; simp
                rw [a2, hcur] at hx
                rcases collect_mem _ _ _ hx with hx | ⟨g, hg, hx⟩
                · simp at hx
                · have hwp := hw p rfl
                  unfold Step.groups at hg
                  split at hg
                  · simp at hg
                  · unfold repetitions at hg
                    obtain ⟨i, hi, rfl⟩ := List.mem_map.1 hg
                    have hi := List.mem_range.1 hi
                    simp only at hi
                    obtain ⟨hxm, hxi⟩ := List.mem_filter.1 hx
                    have hxi := of_decide_eq_true hxi
                    rw [fixList_eq] at hxm
                    obtain ⟨e, he, rfl⟩ := List.mem_map.1 hxm
                    rw [fix_index] at hxi
                    obtain ⟨em0, raws0, hs, hk, hr, _⟩ := matchesOf_ok hm
                    have hreg := (hp p (by simp)).raws _ _ _ hs
                    obtain ⟨t1, t2, t3, _⟩ := truncate_raws hreg first p.stop
                    rw [← hr] at t1 t3
                    obtain ⟨n, hn1, hn2⟩ := hwp.once
                    have := t3 n hn1
                    have hlen : raws.length = 1 := by omega
                    have hi0 : i = 0 := by omega
                    obtain ⟨r, hr1⟩ : ∃ r, raws = [r] := List.length_eq_one_iff.1 hlen
                    have hridx := prefix_index t1 hreg.index 0 r (by rw [hr1]; rfl)
                    have he0 : e ∈ em0 := by rw [hk] at he; exact truncate_sub.subset he
                    have hstop := hwp.whole _ _ _ hs e he0 r (t1.subset (by rw [hr1]; simp)) (by omega)
                    have hte := ((hp p (by simp)).emitted _ _ _ hs e he0).1
                    rw [fix_rawEnd hte.input hte.raw.2 hinv.zero, hstop, hs1, a3]
                    simp [Step.nextPos, hr1]
            · cases h
            · split at h
              · cases h
              · exact absurd h (hopt rest2 (fun q' hq => hp q' (by simp [hq])) (by simpa using hf) false _)

theorem loop_attempts (c : Chain) (input : Str) (hp : ∀ p ∈ c.parts, RegularPart p) :
    ∀ (fuel : Nat) (ci : Str) (o : Int) (acc ts : List MTree), ChainSt.Inv input ⟨false, ci, o, []⟩ →
      c.loop input fuel ci o acc = .ok ts → ∀ t ∈ ts, t ∈ acc ∨ ∃ steps, Attempt c input steps t ∧
        (FailsEarly c.parts → ci = input.drop o.toNat → ∀ s ∈ steps, 0 ≤ s.pos ∧ s.text = input.drop s.pos.toNat)
  | 0, ci, o, acc, ts, _, h => by
    unfold Chain.loop at h
    split at h
    · cases h
    · cases h; exact fun t ht => Or.inl ht
  | fuel + 1, ci, o, acc, ts, hi, h => by
    unfold Chain.loop at h
    split at h
    · rename_i hlt
      have h0 : 0 ≤ o := hi.nonneg
      obtain ⟨_, r2⟩ := runParts_forward c input o h0 (by omega) c.parts true ⟨false, ci, o, []⟩
        (fun p h => (hp p h).forwardSearch) hi (Int.le_refl o) (by simp) (by simp) (by simp)
      split at h
      · cases h
      · rename_i st v he
        obtain ⟨i1, _⟩ := r2 st v he
        have hinv : ChainSt.Inv input ⟨false, st.input, st.offset, []⟩ := i1
        split at h
        · cases h; exact fun t ht => Or.inl ht
        · -- the text stays in step
          have hnext : FailsEarly c.parts → ci = input.drop o.toNat → st.input = input.drop st.offset.toNat := by
            intro hf hsync
            cases v with
            | false => exact runParts_resync hp hf hi rfl hsync he
            | true =>
              obtain ⟨_, _, _, _, _, _, _, _, b7⟩ := runParts_trace c input c.parts true _ _ hp hi he
              exact (b7 hsync).1
          split at h
          · rename_i hcv
            have hv : v = true := by simp only [Bool.and_eq_true] at hcv; exact hcv.2
            subst hv
            obtain ⟨steps, moved, b1, b2, b3, b4, b5, b6, b7⟩ := runParts_trace c input c.parts true _ _ hp hi he
            split at h
            · cases h
            · rename_i m hm
              intro t ht
              rcases loop_attempts c input hp fuel _ _ _ ts hinv h t ht with hacc | ⟨steps', ha, hs⟩
              · rcases List.mem_append.1 hacc with hacc | hacc
                · exact Or.inl hacc
                · rw [List.mem_singleton] at hacc
                  subst hacc
                  have hb := build_spec hm
                  rw [b5] at hb
                  exact Or.inr ⟨steps, ⟨b1, ⟨_, _, b2⟩, moved, b3, b4, hb⟩, fun _ hsync => (b7 hsync).2⟩
              · exact Or.inr ⟨steps', ha, fun hf hsync => hs hf (hnext hf hsync)⟩
          · intro t ht
            rcases loop_attempts c input hp fuel _ _ _ ts hinv h t ht with hacc | ⟨steps', ha, hs⟩
            · exact Or.inl hacc
            · exact Or.inr ⟨steps', ha, fun hf hsync => hs hf (hnext hf hsync)⟩
    · cases h; exact fun t ht => Or.inl ht

end Rebulk
