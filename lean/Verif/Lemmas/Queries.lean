import Verif.Lemmas.Container
import Verif.Spec.Runs
/-!
# Lemmas on the compound lookups
-/
namespace Rebulk
open Spec

theorem pyRange_pairwise (a b : Int) : (pyRange a b).Pairwise (· < ·) := by
  unfold pyRange
  apply List.Pairwise.map (R := (· < ·)) _ (fun x y h => by omega)
  exact List.pairwise_lt_range

namespace Matches

theorem sameUpToEq_mem {l₁ l₂ : List Match} (h : SameUpToEq l₁ l₂) (e : Match) :
    (∃ x ∈ l₁, x.eqv e = true) ↔ ∃ x ∈ l₂, x.eqv e = true := by
  have := h e
  rw [← List.countP_pos_iff (p := fun x => x.eqv e) (l := l₁), ← List.countP_pos_iff (p := fun x => x.eqv e) (l := l₂), this]

theorem sameUpToEq_nil {l₁ l₂ : List Match} (h : SameUpToEq l₁ l₂) : l₁ = [] ↔ l₂ = [] := by
  have aux : ∀ {a b : List Match}, SameUpToEq a b → a = [] → b = [] := by
    intro a b hab ha
    subst ha
    cases b with
    | nil => rfl
    | cons x xs =>
      obtain ⟨y, hy, _⟩ := (sameUpToEq_mem hab x).2 ⟨x, List.mem_cons_self, x.eqv_refl⟩
      cases hy
  exact ⟨aux h, aux (fun e => (h e).symm)⟩

/-! ### The input string and the kind never change -/

/-- Same input string and same kind. -/
def Same (s s' : Matches) : Prop := s'.inputString = s.inputString ∧ s'.isMarkers = s.isMarkers

theorem Same.trans {a b c : Matches} (h : Same a b) (h' : Same b c) : Same a c := ⟨h'.1.trans h.1, h'.2.trans h.2⟩

theorem same_extend (s : Matches) (ms : List Match) : Same s (s.extend ms).1 := by
  induction ms generalizing s with
  | nil => exact ⟨rfl, rfl⟩
  | cons m ms ih =>
    have h : Same s (s.append m).1 := ⟨(append_static s m).2, (append_static s m).1⟩
    unfold extend
    split
    · next s' heq => rw [heq] at h; exact h.trans (ih _)
    · next s' e heq => rw [heq] at h; exact h

theorem same_delItem (s : Matches) (i : Int) : Same s (s.delItem i).1 := by
  unfold delItem
  split
  · exact ⟨rfl, rfl⟩
  · split
    · exact ⟨rfl, rfl⟩
    · exact removeMatch_input _ _

theorem same_pop (s : Matches) (i : Int) : Same s (s.pop i).1 := by
  have h := same_delItem s i
  unfold pop
  split
  · exact ⟨rfl, rfl⟩
  · split
    · next heq => rw [heq] at h; exact h
    · next heq => rw [heq] at h; exact h

theorem same_clearLoop (n : Nat) (s : Matches) : Same s (clearLoop n s).1 := by
  induction n generalizing s with
  | zero => exact ⟨rfl, rfl⟩
  | succ n ih =>
    have h := same_pop s (-1)
    unfold clearLoop
    split
    · next heq => rw [heq] at h; exact h.trans (ih _)
    · next heq => rw [heq] at h; exact h
    · next heq => rw [heq] at h; exact h

theorem same_step (s : Matches) (op : Op) (h : (isAddRemove op || isLookup op) = true) : Same s (s.step op).1 := by
  cases hl : isLookup op with
  | true => have := step_lookup_sim s op hl; exact ⟨this.input, this.markers⟩
  | false =>
    cases op with
    | append m => exact ⟨(append_static s m).2, (append_static s m).1⟩
    | insert i m => exact ⟨(insert_static s i m).2, (insert_static s i m).1⟩
    | extend ms => exact same_extend s ms
    | remove m =>
      simp only [step, remove]
      split
      · exact ⟨rfl, rfl⟩
      · exact same_delItem _ _
    | pop i => exact same_pop s i
    | delItem i => exact same_delItem s i
    | clear => exact same_clearLoop _ _
    | delSlice | setItem | reverse => simp [isAddRemove, isLookup] at h
    | _ => cases hl

theorem same_run (s : Matches) (ops : List Op) (h : ∀ op ∈ ops, (isAddRemove op || isLookup op) = true) : Same s (s.runOps ops) := by
  induction ops generalizing s with
  | nil => exact ⟨rfl, rfl⟩
  | cons op ops ih =>
    exact (same_step s op (h op List.mem_cons_self)).trans (ih _ (fun o ho => h o (List.mem_cons_of_mem _ ho)))

theorem _root_.Rebulk.Spec.Reachable.inv {b : Bool} {input : Option Str} {s : Matches} (h : Reachable b input s) : Inv s := by
  obtain ⟨ops, h1, h2⟩ := h
  rw [h2]; exact (inv_run (inv_empty b input) ops h1).1

theorem _root_.Rebulk.Spec.Reachable.input {b : Bool} {input : Option Str} {s : Matches} (h : Reachable b input s) :
    s.inputString = input ∧ s.isMarkers = b := by
  obtain ⟨ops, h1, h2⟩ := h
  rw [h2]
  exact same_run (empty b input) ops (fun op ho => (h1 op ho).1)

/-! ### `addMissing` -/

theorem addMissing_subset (acc l : List Match) {x : Match} (h : x ∈ addMissing acc l) : x ∈ acc ∨ x ∈ l := by
  unfold addMissing at h
  induction l generalizing acc with
  | nil => exact Or.inl h
  | cons y l ih =>
    rw [List.foldl_cons] at h
    rcases ih _ h with h' | h'
    · split at h'
      · exact Or.inl h'
      · rcases List.mem_append.1 h' with h' | h'
        · exact Or.inl h'
        · simp at h'; subst h'; exact Or.inr List.mem_cons_self
    · exact Or.inr (List.mem_cons_of_mem _ h')

theorem addMissing_mem (acc l : List Match) (e : Match) :
    (∃ x ∈ addMissing acc l, x.eqv e = true) ↔ (∃ x ∈ acc, x.eqv e = true) ∨ ∃ x ∈ l, x.eqv e = true := by
  unfold addMissing
  induction l generalizing acc with
  | nil => simp
  | cons y l ih =>
    rw [List.foldl_cons, ih]
    by_cases hy : acc.any (fun z => z.eqv y) = true
    · rw [if_pos hy]
      constructor
      · rintro (h | ⟨x, hx, hxe⟩)
        · exact Or.inl h
        · exact Or.inr ⟨x, List.mem_cons_of_mem _ hx, hxe⟩
      · rintro (h | ⟨x, hx, hxe⟩)
        · exact Or.inl h
        · rcases List.mem_cons.1 hx with rfl | hx
          · obtain ⟨z, hz, hze⟩ := List.any_eq_true.1 hy
            exact Or.inl ⟨z, hz, Match.eqv_trans hze hxe⟩
          · exact Or.inr ⟨x, hx, hxe⟩
    · rw [if_neg hy]
      constructor
      · rintro (⟨x, hx, hxe⟩ | ⟨x, hx, hxe⟩)
        · rcases List.mem_append.1 hx with hx | hx
          · exact Or.inl ⟨x, hx, hxe⟩
          · simp at hx; subst hx; exact Or.inr ⟨x, List.mem_cons_self, hxe⟩
        · exact Or.inr ⟨x, List.mem_cons_of_mem _ hx, hxe⟩
      · rintro (⟨x, hx, hxe⟩ | ⟨x, hx, hxe⟩)
        · exact Or.inl ⟨x, List.mem_append_left _ hx, hxe⟩
        · rcases List.mem_cons.1 hx with rfl | hx
          · exact Or.inl ⟨x, by simp, hxe⟩
          · exact Or.inr ⟨x, hx, hxe⟩

theorem noEqual_addMissing (acc l : List Match) (h : NoEqual acc) : NoEqual (addMissing acc l) := by
  unfold addMissing
  induction l generalizing acc with
  | nil => exact h
  | cons y l ih =>
    rw [List.foldl_cons]
    apply ih
    split
    · exact h
    · next hn =>
      unfold NoEqual
      rw [List.pairwise_append]
      refine ⟨h, by simp, ?_⟩
      intro a ha b hb
      simp at hb; subst hb
      by_cases hc : a.eqv b = true
      · exact absurd (List.any_eq_true.2 ⟨a, ha, hc⟩) hn
      · simpa using hc

theorem eqv_false_symm {a b : Match} (h : a.eqv b = false) : b.eqv a = false := by
  cases hb : b.eqv a with
  | false => rfl
  | true => rw [Match.eqv_symm hb] at h; cases h

/-! ### `previous`, `next` -/

theorem firstNonEmpty_spec (f : Int → List Match) (cs : List Int) :
    ((∀ c ∈ cs, f c = []) ∧ firstNonEmpty f cs = []) ∨
    ∃ pre c post, cs = pre ++ c :: post ∧ (∀ d ∈ pre, f d = []) ∧ f c ≠ [] ∧ firstNonEmpty f cs = f c := by
  induction cs with
  | nil => left; simp [firstNonEmpty]
  | cons c cs ih =>
    by_cases hc : (f c).isEmpty = true
    · have hnil : f c = [] := by simpa using hc
      rcases ih with ⟨h1, h2⟩ | ⟨pre, d, post, h1, h2, h3, h4⟩
      · left
        refine ⟨?_, by simp [firstNonEmpty, hc, h2]⟩
        intro x hx
        rcases List.mem_cons.1 hx with rfl | hx
        · exact hnil
        · exact h1 x hx
      · right
        refine ⟨c :: pre, d, post, by simp [h1], ?_, h3, by simp [firstNonEmpty, hc, h4]⟩
        intro x hx
        rcases List.mem_cons.1 hx with rfl | hx
        · exact hnil
        · exact h2 x hx
    · right
      refine ⟨[], c, cs, rfl, by simp, ?_, by simp [firstNonEmpty, hc]⟩
      intro h; simp [h] at hc

theorem ending_nil (l : List Match) (e : Int) : Spec.ending l e = [] ↔ ∀ x ∈ l, x.stop ≠ e := by
  simp [Spec.ending, List.filter_eq_nil_iff]

theorem starting_nil (l : List Match) (e : Int) : Spec.starting l e = [] ↔ ∀ x ∈ l, x.start ≠ e := by
  simp [Spec.starting, List.filter_eq_nil_iff]

theorem previous_spec {s : Matches} (hi : Inv s) (m : Match) :
    ((∀ x ∈ s.delegate, ¬ (0 ≤ x.stop ∧ x.stop ≤ m.start)) ∧ (s.previous m).2 = []) ∨
    ∃ e, 0 ≤ e ∧ e ≤ m.start ∧ (∃ x ∈ s.delegate, x.stop = e) ∧ (∀ x ∈ s.delegate, x.stop ≤ m.start → x.stop ≤ e) ∧
      SameUpToEq (s.previous m).2 (Spec.ending s.delegate e) := by
  unfold previous
  rw [previousLoop_eq]
  have hpw : ((pyRange 0 (m.start + 1)).reverse).Pairwise (fun a b => b < a) := by
    rw [List.pairwise_reverse]; exact pyRange_pairwise _ _
  have hv := fun e => (sameUpToEq_nil (hi.seesEnd e)).trans (ending_nil s.delegate e)
  rcases firstNonEmpty_spec (fun c => s.endDict.getList c) (pyRange 0 (m.start + 1)).reverse with ⟨h1, h2⟩ | ⟨pre, c, post, h1, h2, h3, h4⟩
  · left
    refine ⟨?_, h2⟩
    intro x hx hc
    have hmem : x.stop ∈ (pyRange 0 (m.start + 1)).reverse := by
      rw [List.mem_reverse, mem_pyRange]; omega
    exact (hv x.stop).1 (h1 _ hmem) x hx rfl
  · right
    have hc : c ∈ (pyRange 0 (m.start + 1)).reverse := by rw [h1]; simp
    rw [List.mem_reverse, mem_pyRange] at hc
    refine ⟨c, hc.1, by omega, ?_, ?_, ?_⟩
    · have : ¬ ∀ x ∈ s.delegate, x.stop ≠ c := fun h => h3 ((hv c).2 h)
      simpa using this
    · intro x hx hle
      rcases Int.lt_or_le c x.stop with hlt | hle'
      · exfalso
        have hmem : x.stop ∈ (pyRange 0 (m.start + 1)).reverse := by
          rw [List.mem_reverse, mem_pyRange]; omega
        rw [h1] at hmem hpw
        rcases List.mem_append.1 hmem with hp | hp
        · exact (hv x.stop).1 (h2 _ hp) x hx rfl
        · rw [List.pairwise_append] at hpw
          rcases List.mem_cons.1 hp with e | hp
          · omega
          · have := (List.pairwise_cons.1 hpw.2.1).1 _ hp; omega
      · exact hle'
    · rw [h4]; exact hi.seesEnd c

theorem next_spec {s : Matches} (hi : Inv s) (hw : ∀ x ∈ s.delegate, x.start ≤ x.stop) (m : Match) :
    ((∀ x ∈ s.delegate, x.start ≤ m.start) ∧ (s.next m).2 = []) ∨
    ∃ b, m.start < b ∧ (∃ x ∈ s.delegate, x.start = b) ∧ (∀ x ∈ s.delegate, m.start < x.start → b ≤ x.start) ∧
      SameUpToEq (s.next m).2 (Spec.starting s.delegate b) := by
  unfold next
  rw [nextLoop_eq]
  have hpw := pyRange_pairwise (m.start + 1) (s.maxEnd + 1)
  have hv := fun e => (sameUpToEq_nil (hi.seesStart e)).trans (starting_nil s.delegate e)
  have hin : ∀ x ∈ s.delegate, m.start < x.start → x.start ∈ pyRange (m.start + 1) (s.maxEnd + 1) := by
    intro x hx hlt
    have := hw x hx; have := hi.bound x hx
    rw [mem_pyRange]; omega
  rcases firstNonEmpty_spec (fun c => s.startDict.getList c) (pyRange (m.start + 1) (s.maxEnd + 1)) with ⟨h1, h2⟩ | ⟨pre, c, post, h1, h2, h3, h4⟩
  · left
    refine ⟨?_, h2⟩
    intro x hx
    rcases Int.lt_or_le m.start x.start with hlt | hle
    · exact absurd rfl ((hv x.start).1 (h1 _ (hin x hx hlt)) x hx)
    · exact hle
  · right
    have hc : c ∈ pyRange (m.start + 1) (s.maxEnd + 1) := by rw [h1]; simp
    rw [mem_pyRange] at hc
    refine ⟨c, by omega, ?_, ?_, ?_⟩
    · have : ¬ ∀ x ∈ s.delegate, x.start ≠ c := fun h => h3 ((hv c).2 h)
      simpa using this
    · intro x hx hlt
      have hmem := hin x hx hlt
      rcases Int.lt_or_le x.start c with hlt' | hle'
      · exfalso
        rw [h1] at hmem hpw
        rcases List.mem_append.1 hmem with hp | hp
        · exact (hv x.start).1 (h2 _ hp) x hx rfl
        · rw [List.pairwise_append] at hpw
          rcases List.mem_cons.1 hp with e | hp
          · omega
          · have := (List.pairwise_cons.1 hpw.2.1).1 _ hp; omega
      · exact hle'
    · rw [h4]; exact hi.seesStart c

/-! ### `conflicting`, `at_span` -/

theorem covering_mem (l : List Match) (i : Int) (e : Match) :
    (∃ x ∈ Spec.covering l i, x.eqv e = true) ↔ ∃ x ∈ l, x.eqv e = true ∧ x.start ≤ i ∧ i < x.stop := by
  simp only [Spec.covering, List.mem_filter, decide_eq_true_eq]
  constructor
  · rintro ⟨x, ⟨hx, h1⟩, h2⟩; exact ⟨x, hx, h2, h1⟩
  · rintro ⟨x, hx, h2, h1⟩; exact ⟨x, ⟨hx, h1⟩, h2⟩

theorem atIndex_mem {s : Matches} (hi : Inv s) (i : Int) (e : Match) :
    (∃ x ∈ s.indexDict.getList i, x.eqv e = true) ↔ ∃ x ∈ s.delegate, x.eqv e = true ∧ x.start ≤ i ∧ i < x.stop :=
  (sameUpToEq_mem (hi.seesIndex i) e).trans (covering_mem _ _ _)

theorem conflictSet_mem {s : Matches} (hi : Inv s) (m e : Match) :
    (∃ x ∈ (conflictLoop (pyRange m.start m.stop) s []).2, x.eqv e = true) ↔
      ∃ x ∈ s.delegate, x.eqv e = true ∧ ∃ i, (x.start ≤ i ∧ i < x.stop) ∧ (m.start ≤ i ∧ i < m.stop) := by
  rw [(conflictLoop_spec _ s []).2, addMissing_mem]
  simp only [List.not_mem_nil, false_and, exists_false, false_or, List.mem_flatMap]
  constructor
  · rintro ⟨x, ⟨i, hi', hx⟩, hxe⟩
    obtain ⟨y, hy, hye, hyi⟩ := (atIndex_mem hi i e).1 ⟨x, hx, hxe⟩
    exact ⟨y, hy, hye, i, hyi, mem_pyRange.1 hi'⟩
  · rintro ⟨y, hy, hye, i, hyi, hmi⟩
    obtain ⟨x, hx, hxe⟩ := (atIndex_mem hi i e).2 ⟨y, hy, hye, hyi⟩
    exact ⟨x, ⟨i, mem_pyRange.2 hmi, hx⟩, hxe⟩

theorem removeFirst_eqv_mem {l l' : List Match} {m : Match} (hno : NoEqual l) (h : removeFirst (fun x => x.eqv m) l = some l') (e : Match) :
    (∃ x ∈ l', x.eqv e = true) ↔ (∃ x ∈ l, x.eqv e = true) ∧ m.eqv e = false := by
  obtain ⟨a, x, b, h1, h2, h3, h4⟩ := removeFirst_some _ _ _ h
  have hb : ∀ y ∈ b, y.eqv m = false := by
    intro y hy
    unfold NoEqual at hno
    rw [h1, List.pairwise_append] at hno
    have := (List.pairwise_cons.1 hno.2.1).1 y hy
    cases hym : y.eqv m with
    | false => rfl
    | true => rw [Match.eqv_trans h3 (Match.eqv_symm hym)] at this; cases this
  subst h2
  constructor
  · rintro ⟨y, hy, hye⟩
    have hym : y.eqv m = false := by
      rcases List.mem_append.1 hy with hy | hy
      · exact h4 y hy
      · exact hb y hy
    refine ⟨⟨y, ?_, hye⟩, ?_⟩
    · rw [h1]
      rcases List.mem_append.1 hy with hy | hy
      · exact List.mem_append_left _ hy
      · exact List.mem_append_right _ (List.mem_cons_of_mem _ hy)
    · cases hme : m.eqv e with
      | false => rfl
      | true => rw [Match.eqv_trans hye (Match.eqv_symm hme)] at hym; cases hym
  · rintro ⟨⟨y, hy, hye⟩, hme⟩
    refine ⟨y, ?_, hye⟩
    rw [h1] at hy
    rcases List.mem_append.1 hy with hy | hy
    · exact List.mem_append_left _ hy
    · rcases List.mem_cons.1 hy with rfl | hy
      · rw [Match.eqv_trans (Match.eqv_symm h3) hye] at hme; cases hme
      · exact List.mem_append_right _ hy

/-! ### `chain_before`, `chain_after` -/

/-- `chainLoop` with the lookups and the separator test abstracted. -/
def chainPure (view : Int → List Match) (ns : Int → Except PyErr Bool) (pred : Match → Bool) :
    List Int → List Match → Except PyErr (List Match)
  | [], acc => .ok acc
  | i :: is, acc =>
    if ((view i).filter pred).isEmpty then
      match ns i with
      | .error e => .error e
      | .ok true => .ok acc
      | .ok false => chainPure view ns pred is acc
    else chainPure view ns pred is (addMissing acc ((view i).filter pred))

theorem notSep_sim {s s' : Matches} (h : Sim s s') (i : Int) (seps : Str) : s'.notSep i seps = s.notSep i seps := by
  unfold notSep; rw [h.input]

theorem chainLoop_eq (seps : Str) (pred : Match → Bool) (is : List Int) (s : Matches) (acc : List Match) :
    (chainLoop seps pred is s acc).2 =
      chainPure (fun i => s.indexDict.getList i) (fun i => s.notSep i seps) pred is acc := by
  induction is generalizing s acc with
  | nil => rfl
  | cons i is ih =>
    have hv : (s.lookIndex i).2 = s.indexDict.getList i := rfl
    have hs := lookIndex_sim s i
    have hview : (fun j => (s.lookIndex i).1.indexDict.getList j) = fun j => s.indexDict.getList j := funext hs.index
    have hns : (fun j => (s.lookIndex i).1.notSep j seps) = fun j => s.notSep j seps := funext (fun j => notSep_sim hs j seps)
    simp only [chainLoop, chainPure, hv]
    by_cases he : ((s.indexDict.getList i).filter pred).isEmpty = true
    · rw [if_pos he, if_pos he, notSep_sim hs]
      cases s.notSep i seps with
      | error e => rfl
      | ok b =>
        cases b with
        | true => rfl
        | false => simp only; rw [ih, hview, hns]
    · rw [if_neg he, if_neg he, ih, hview, hns]

/-- When the separator test never fails, the loop keeps what is found on the longest passable prefix. -/
theorem chainPure_spec (view : Int → List Match) (sep : Int → Bool) (ns : Int → Except PyErr Bool) (pred : Match → Bool)
    (is : List Int) (acc : List Match) (hns : ∀ i ∈ is, ns i = .ok (!sep i)) :
    ∃ pre post, is = pre ++ post ∧
      chainPure view ns pred is acc = .ok (addMissing acc (pre.flatMap (fun i => (view i).filter pred))) ∧
      (∀ i ∈ pre, (view i).filter pred ≠ [] ∨ sep i = true) ∧
      (∀ j r, post = j :: r → (view j).filter pred = [] ∧ sep j = false) := by
  induction is generalizing acc with
  | nil => exact ⟨[], [], rfl, by simp [chainPure, addMissing], by simp, by intro j r h; cases h⟩
  | cons i is ih =>
    simp only [chainPure]
    by_cases he : ((view i).filter pred).isEmpty = true
    · rw [if_pos he, hns i List.mem_cons_self]
      have hnil : (view i).filter pred = [] := by simpa using he
      cases hsep : sep i with
      | false =>
        exact ⟨[], i :: is, rfl, by simp [addMissing], by simp, by intro j r h; cases h; exact ⟨hnil, hsep⟩⟩
      | true =>
        obtain ⟨pre, post, h1, h2, h3, h4⟩ := ih acc (fun j hj => hns j (List.mem_cons_of_mem _ hj))
        refine ⟨i :: pre, post, by simp [h1], ?_, ?_, h4⟩
        · simp only [Bool.not_true]; rw [h2, List.flatMap_cons, hnil]; rfl
        · intro j hj
          rcases List.mem_cons.1 hj with rfl | hj
          · exact Or.inr hsep
          · exact h3 j hj
    · rw [if_neg he]
      obtain ⟨pre, post, h1, h2, h3, h4⟩ := ih (addMissing acc ((view i).filter pred)) (fun j hj => hns j (List.mem_cons_of_mem _ hj))
      refine ⟨i :: pre, post, by simp [h1], ?_, ?_, h4⟩
      · rw [h2, List.flatMap_cons]; simp [addMissing, List.foldl_append]
      · intro j hj
        rcases List.mem_cons.1 hj with rfl | hj
        · left; intro hc; rw [hc] at he; simp at he
        · exact h3 j hj

theorem filtered_index_mem {s : Matches} (hi : Inv s) {pred : Match → Bool} (hp : RespectsEq pred) (i : Int) (e : Match) :
    (∃ x ∈ (s.indexDict.getList i).filter pred, x.eqv e = true) ↔
      ∃ x ∈ s.delegate, x.eqv e = true ∧ pred x = true ∧ x.start ≤ i ∧ i < x.stop := by
  simp only [List.mem_filter]
  constructor
  · rintro ⟨x, ⟨hx, hpx⟩, hxe⟩
    obtain ⟨y, hy, hye, hyi⟩ := (atIndex_mem hi i e).1 ⟨x, hx, hxe⟩
    exact ⟨y, hy, hye, (hp y x (Match.eqv_trans hye (Match.eqv_symm hxe))).trans hpx, hyi⟩
  · rintro ⟨y, hy, hye, hpy, hyi⟩
    obtain ⟨x, hx, hxe⟩ := (atIndex_mem hi i e).2 ⟨y, hy, hye, hyi⟩
    exact ⟨x, ⟨hx, (hp x y (Match.eqv_trans hxe (Match.eqv_symm hye))).trans hpy⟩, hxe⟩

theorem filtered_index_ne {s : Matches} (hi : Inv s) {pred : Match → Bool} (hp : RespectsEq pred) (i : Int) :
    (s.indexDict.getList i).filter pred ≠ [] ↔ ∃ x ∈ s.delegate, pred x = true ∧ x.start ≤ i ∧ i < x.stop := by
  constructor
  · intro h
    obtain ⟨x, hx⟩ := List.exists_mem_of_ne_nil _ h
    obtain ⟨y, hy, _, h1⟩ := (filtered_index_mem hi hp i x).1 ⟨x, hx, x.eqv_refl⟩
    exact ⟨y, hy, h1⟩
  · rintro ⟨y, hy, h1⟩ hc
    obtain ⟨x, hx, _⟩ := (filtered_index_mem hi hp i y).2 ⟨y, hy, y.eqv_refl, h1⟩
    rw [hc] at hx; cases hx

/-- Characterisation of the chain loops over a list of positions. -/
theorem chainLoop_spec {s : Matches} (hi : Inv s) {pred : Match → Bool} (hp : RespectsEq pred) (seps : Str) (str : Str)
    (hstr : s.inputString = some str) (is : List Int) (his : ∀ i ∈ is, 0 ≤ i ∧ i < str.length) :
    ∃ r, (chainLoop seps pred is s []).2 = .ok r ∧ NoEqual r ∧
      ∀ e, (∃ x ∈ r, x.eqv e = true) ↔
        ∃ pre i post, is = pre ++ i :: post ∧ (∃ x ∈ s.delegate, x.eqv e = true ∧ pred x = true ∧ x.start ≤ i ∧ i < x.stop) ∧
          ∀ j ∈ pre, (∃ x ∈ s.delegate, pred x = true ∧ x.start ≤ j ∧ j < x.stop) ∨ ∃ c ∈ seps, str[j.toNat]? = some c := by
  have hget : ∀ i ∈ is, ∃ c, pyGet str i = some c ∧ str[i.toNat]? = some c := by
    intro i hi'
    obtain ⟨h1, h2⟩ := his i hi'
    have hlt : i.toNat < str.length := by omega
    refine ⟨str[i.toNat], ?_, List.getElem?_eq_getElem hlt⟩
    unfold pyGet normIdx
    rw [if_pos h1, if_pos h2]
    exact List.getElem?_eq_getElem hlt
  let sep : Int → Bool := fun i => match str[i.toNat]? with | some c => seps.contains c | none => false
  have hns : ∀ i ∈ is, s.notSep i seps = .ok (!sep i) := by
    intro i hi'
    obtain ⟨c, h1, h2⟩ := hget i hi'
    simp only [notSep, hstr, h1, sep, h2]
  have hsep : ∀ i, sep i = true ↔ ∃ c ∈ seps, str[i.toNat]? = some c := by
    intro i
    simp only [sep]
    cases h : str[i.toNat]? with
    | none => simp
    | some c => simp
  obtain ⟨pre, post, h1, h2, h3, h4⟩ := chainPure_spec (fun i => s.indexDict.getList i) sep (fun i => s.notSep i seps) pred is [] hns
  refine ⟨_, by rw [chainLoop_eq]; exact h2, noEqual_addMissing _ _ List.Pairwise.nil, ?_⟩
  intro e
  rw [addMissing_mem]
  simp only [List.not_mem_nil, false_and, exists_false, false_or, List.mem_flatMap]
  have pass : ∀ j ∈ pre, (∃ x ∈ s.delegate, pred x = true ∧ x.start ≤ j ∧ j < x.stop) ∨ ∃ c ∈ seps, str[j.toNat]? = some c := by
    intro j hj
    exact (h3 j hj).imp (filtered_index_ne hi hp j).1 (hsep j).1
  constructor
  · rintro ⟨x, ⟨i, hi', hx⟩, hxe⟩
    obtain ⟨p1, p2, hp12⟩ := List.append_of_mem hi'
    refine ⟨p1, i, p2 ++ post, by rw [h1, hp12]; simp, (filtered_index_mem hi hp i e).1 ⟨x, hx, hxe⟩, ?_⟩
    intro j hj
    exact pass j (by rw [hp12]; exact List.mem_append_left _ hj)
  · rintro ⟨p1, i, p2, hp12, hx, hpass⟩
    -- i must be in pre: otherwise the first element of post is not passable
    have hin : i ∈ pre := by
      rw [h1] at hp12
      rcases List.append_eq_append_iff.1 hp12 with ⟨t, ht1, ht2⟩ | ⟨t, ht1, ht2⟩
      · -- p1 = pre ++ t, post = t ++ i :: p2
        cases t with
        | nil =>
          simp only [List.nil_append] at ht2
          obtain ⟨hn, _⟩ := h4 i p2 ht2
          obtain ⟨x, hx, _, h⟩ := hx
          exact absurd hn ((filtered_index_ne hi hp i).2 ⟨x, hx, h⟩)
        | cons j t =>
          obtain ⟨hn, hns'⟩ := h4 j (t ++ i :: p2) (by simpa using ht2)
          have hj : j ∈ p1 := by rw [ht1]; simp
          rcases hpass j hj with h | h
          · exact absurd hn ((filtered_index_ne hi hp j).2 h)
          · rw [(hsep j).2 h] at hns'; cases hns'
      · -- pre = p1 ++ t, i :: p2 = t ++ post
        cases t with
        | nil =>
          simp only [List.nil_append] at ht2
          obtain ⟨hn, _⟩ := h4 i p2 ht2.symm
          obtain ⟨x, hx, _, h⟩ := hx
          exact absurd hn ((filtered_index_ne hi hp i).2 ⟨x, hx, h⟩)
        | cons j t =>
          simp only [List.cons_append, List.cons.injEq] at ht2
          rw [ht1, ht2.1]; simp
    obtain ⟨y, hy, hye⟩ := (filtered_index_mem hi hp i e).2 hx
    exact ⟨y, ⟨i, hin, hy⟩, hye⟩

end Matches
end Rebulk
