import Verif.Spec.IdentitySet
/-!
# C107: a set by identity
-/
namespace Rebulk
open Spec

namespace IdSet

/-- No object twice. -/
def Good (s : IdSet) : Prop := (List.map (fun r : Ref => r.value) s).Nodup

theorem contains_iff (s : IdSet) (x : Nat) : s.contains x = true ↔ x ∈ List.map (fun r : Ref => r.value) s := by
  unfold contains Ref.found Ref.hash Ref.eq
  rw [List.any_eq_true, List.mem_map]
  constructor
  · rintro ⟨q, hq, he⟩
    exact ⟨q, hq, by simpa using he⟩
  · rintro ⟨q, hq, rfl⟩
    exact ⟨q, hq, by simp⟩

theorem add_mem (s : IdSet) (x y : Nat) : (s.add x).contains y = true ↔ s.contains y = true ∨ y = x := by
  by_cases h : s.contains x = true
  · rw [add, if_pos h]
    constructor
    · exact Or.inl
    · rintro (h' | rfl)
      · exact h'
      · exact h
  · rw [add, if_neg h, contains_iff, contains_iff]
    simp [eq_comm]

theorem add_good {s : IdSet} (hs : s.Good) (x : Nat) : (s.add x).Good := by
  by_cases h : s.contains x = true
  · rw [add, if_pos h]; exact hs
  · rw [add, if_neg h]
    rw [contains_iff] at h
    unfold Good at hs ⊢
    rw [List.map_append, List.nodup_append]
    refine ⟨hs, by simp, ?_⟩
    intro a ha b hb hab
    simp only [List.map_cons, List.map_nil, List.mem_singleton] at hb
    subst hab hb
    exact h ha

theorem discard_mem (s : IdSet) (x y : Nat) : (s.discard x).contains y = true ↔ s.contains y = true ∧ y ≠ x := by
  rw [contains_iff, contains_iff]
  unfold discard Ref.found Ref.hash Ref.eq
  simp only [List.mem_map, List.mem_filter]
  constructor
  · rintro ⟨q, ⟨hq, hn⟩, rfl⟩
    exact ⟨⟨q, hq, rfl⟩, by simpa using hn⟩
  · rintro ⟨⟨q, hq, rfl⟩, hn⟩
    exact ⟨q, ⟨hq, by simpa using hn⟩, rfl⟩

theorem discard_good {s : IdSet} (hs : s.Good) (x : Nat) : (s.discard x).Good :=
  List.Nodup.sublist (List.Sublist.map _ List.filter_sublist) hs

theorem update_mem (xs : List Nat) : ∀ (s : IdSet) (y : Nat), (s.update xs).contains y = true ↔ s.contains y = true ∨ y ∈ xs := by
  induction xs with
  | nil => intro s y; simp [update]
  | cons x xs ih =>
    intro s y
    have := ih (s.add x) y
    unfold update at this ⊢
    rw [List.foldl_cons, this, add_mem, List.mem_cons]
    exact or_assoc

theorem update_good (xs : List Nat) : ∀ {s : IdSet}, s.Good → (s.update xs).Good := by
  induction xs with
  | nil => intro s h; exact h
  | cons x xs ih => intro s h; exact ih (add_good h x)

theorem ofList_mem (xs : List Nat) (y : Nat) : (ofList xs).contains y = true ↔ y ∈ xs := by
  rw [ofList, update_mem]; simp [contains]

theorem ofList_good (xs : List Nat) : (ofList xs).Good := update_good xs (by simp [Good])

theorem iter_mem {order : List Nat → List Nat} (ho : Reorders order) (s : IdSet) (x : Nat) : x ∈ s.iter order ↔ s.contains x = true := by
  rw [contains_iff, iter, (ho _).mem_iff]

theorem iter_nodup {order : List Nat → List Nat} (ho : Reorders order) {s : IdSet} (hs : s.Good) : (s.iter order).Nodup :=
  (ho _).nodup_iff.2 hs

theorem isub_mem (xs : List Nat) : ∀ (s : IdSet) (y : Nat), (s.isub xs).contains y = true ↔ s.contains y = true ∧ y ∉ xs := by
  induction xs with
  | nil => intro s y; simp [isub]
  | cons x xs ih =>
    intro s y
    have := ih (s.discard x) y
    unfold isub at this ⊢
    rw [List.foldl_cons, this, discard_mem, List.mem_cons, not_or]
    exact and_assoc

theorem isub_good (xs : List Nat) : ∀ {s : IdSet}, s.Good → (s.isub xs).Good := by
  induction xs with
  | nil => intro s h; exact h
  | cons x xs ih => intro s h; exact ih (discard_good h x)

theorem diff_mem {order : List Nat → List Nat} (ho : Reorders order) (s t : IdSet) (y : Nat) :
    (diff order s t).contains y = true ↔ s.contains y = true ∧ ¬ t.contains y = true := by
  rw [diff, ofList_mem, List.mem_filter, iter_mem ho]; simp

theorem toggle_mem (s : IdSet) (x y : Nat) :
    (s.toggle x).contains y = true ↔ (y ≠ x ∧ s.contains y = true) ∨ (y = x ∧ ¬ s.contains y = true) := by
  by_cases h : s.contains x = true
  · rw [toggle, if_pos h, discard_mem]
    by_cases hy : y = x
    · subst hy; simp [h]
    · simp [hy]
  · rw [toggle, if_neg h, add_mem]
    by_cases hy : y = x
    · subst hy; simp [h]
    · simp [hy]

theorem toggle_good {s : IdSet} (hs : s.Good) (x : Nat) : (s.toggle x).Good := by
  unfold toggle; split
  · exact discard_good hs x
  · exact add_good hs x

theorem toggles_mem (xs : List Nat) : ∀ (s : IdSet) (y : Nat), xs.Nodup →
    ((xs.foldl toggle s).contains y = true ↔ (s.contains y = true ∧ y ∉ xs) ∨ (¬ s.contains y = true ∧ y ∈ xs)) := by
  induction xs with
  | nil => intro s y _; simp
  | cons x xs ih =>
    intro s y hn
    rw [List.nodup_cons] at hn
    rw [List.foldl_cons, ih _ _ hn.2, toggle_mem]
    by_cases hy : y = x
    · subst hy; simp [hn.1]
    · simp [hy]

theorem toggles_good (xs : List Nat) : ∀ {s : IdSet}, s.Good → Good (xs.foldl toggle s) := by
  induction xs with
  | nil => intro s h; exact h
  | cons x xs ih => intro s h; exact ih (toggle_good h x)

theorem discard_len {s : IdSet} {x : Nat} (h : s.contains x = true) : (s.discard x).len < s.len := by
  rw [contains, List.any_eq_true] at h
  obtain ⟨q, hq, he⟩ := h
  unfold discard len
  rcases Nat.lt_or_ge (List.filter (fun q => !(Ref.mk x).found q) s).length (List.length s) with h | h
  · exact h
  · have := List.filter_sublist (l := s) (p := fun q => !(Ref.mk x).found q)
    have := (this.eq_of_length_le h) ▸ hq
    simp [he] at this

theorem pop_spec {order : List Nat → List Nat} (ho : Reorders order) (s : IdSet) :
    (s.pop? order = none ∧ s = []) ∨ ∃ x, s.contains x = true ∧ s.pop? order = some (s.discard x, x) := by
  unfold pop?
  cases h : s.iter order with
  | nil =>
    refine .inl ⟨rfl, ?_⟩
    have h' := ho (List.map (fun r => r.value) s)
    rw [iter] at h
    rw [h] at h'
    exact List.map_eq_nil_iff.1 h'.nil_eq.symm
  | cons x r => exact .inr ⟨x, (iter_mem ho s x).1 (by rw [h]; exact List.mem_cons_self), rfl⟩

theorem clearLoop_eq {order : List Nat → List Nat} (ho : Reorders order) : ∀ (n : Nat) (s : IdSet), s.len < n → clearLoop order n s = [] := by
  intro n
  induction n with
  | zero => intro s h; omega
  | succ n ih =>
    intro s h
    rcases pop_spec ho s with ⟨h1, h2⟩ | ⟨x, hx, h1⟩
    · rw [clearLoop, h1]; exact h2
    · rw [clearLoop, h1]
      exact ih _ (Nat.lt_of_lt_of_le (discard_len hx) (by omega))

theorem step_good {order : List Nat → List Nat} (ho : Reorders order) {s : IdSet} (hs : s.Good) (op : IdOp) : (s.step (order, op)).Good := by
  cases op with
  | add x => exact add_good hs x
  | discard x => exact discard_good hs x
  | remove x =>
    simp only [step, remove?]
    split
    · exact discard_good hs x
    · exact hs
  | pop =>
    simp only [step]
    rcases pop_spec ho s with ⟨h1, _⟩ | ⟨x, _, h1⟩
    · rw [h1]; exact hs
    · rw [h1]; exact discard_good hs x
  | update xs => exact update_good xs hs
  | ior xs => exact update_good xs hs
  | isub xs => exact isub_good xs hs
  | iand xs => exact isub_good _ hs
  | ixor xs => exact toggles_good _ hs
  | clear => simp only [step, clear]; rw [clearLoop_eq ho _ _ (Nat.lt_succ_self _)]; simp [Good]

theorem step_changes {order : List Nat → List Nat} (ho : Reorders order) {s : IdSet} (op : IdOp) :
    Changes op (fun x => s.contains x = true) (fun x => (s.step (order, op)).contains x = true) := by
  cases op with
  | add x => exact .add (add_mem s x)
  | discard x => exact .discard (discard_mem s x)
  | remove x =>
    refine .remove (fun y => ?_)
    simp only [step, remove?]
    by_cases h : s.contains x = true
    · rw [if_pos h]; exact discard_mem s x y
    · rw [if_neg h]
      refine ⟨fun h' => ⟨h', fun e => h (e ▸ h')⟩, fun h' => h'.1⟩
  | pop =>
    simp only [step]
    rcases pop_spec ho s with ⟨h1, h2⟩ | ⟨x, hx, h1⟩
    · rw [h1, h2]; exact .popEmpty (by simp [contains]) (by simp [contains])
    · rw [h1]; exact .pop hx (discard_mem s x)
  | update xs => exact .update (update_mem xs s)
  | ior xs => exact .ior (update_mem xs s)
  | isub xs => exact .isub (isub_mem xs s)
  | iand xs =>
    refine .iand (fun y => ?_)
    have := isub_mem ((diff order s (ofList xs)).iter order) s y
    unfold isub at this
    simp only [step, iand]
    rw [this, iter_mem ho, diff_mem ho, ofList_mem]
    by_cases h : s.contains y = true <;> simp [h]
  | ixor xs =>
    refine .ixor (fun y => ?_)
    simp only [step, ixor]
    rw [toggles_mem _ _ _ (iter_nodup ho (ofList_good xs)), iter_mem ho, ofList_mem]
  | clear => refine .clear ?_; simp only [step, clear]; rw [clearLoop_eq ho _ _ (Nat.lt_succ_self _)]; simp [contains]

theorem history {calls : List ((List Nat → List Nat) × IdOp)} : ∀ {s : IdSet}, s.Good → (∀ c ∈ calls, Reorders c.1) →
    (calls.foldl step s).Good ∧
      ChangesAll (calls.map (fun c => c.2)) (fun x => s.contains x = true) (fun x => (calls.foldl step s).contains x = true) := by
  induction calls with
  | nil => intro s hs _; exact ⟨hs, .nil⟩
  | cons c cs ih =>
    intro s hs h
    obtain ⟨o, op⟩ := c
    have ho := h _ List.mem_cons_self
    obtain ⟨h1, h2⟩ := ih (step_good ho hs op) (fun c hc => h c (List.mem_cons_of_mem _ hc))
    exact ⟨h1, .cons (step_changes ho op) h2⟩

end IdSet

theorem nodup_subset_length : ∀ {l r : List Nat}, l.Nodup → (∀ x ∈ l, x ∈ r) → l.length ≤ r.length := by
  intro l
  induction l with
  | nil => intro r _ _; exact Nat.zero_le _
  | cons a l ih =>
    intro r hn hs
    rw [List.nodup_cons] at hn
    have ha := hs a List.mem_cons_self
    have := ih (r := r.erase a) hn.2 (fun x hx => (List.mem_erase_of_ne (fun e : x = a => hn.1 (e ▸ hx))).2 (hs x (List.mem_cons_of_mem _ hx)))
    rw [List.length_erase_of_mem ha] at this
    have := List.length_pos_of_mem ha
    rw [List.length_cons]
    omega

/-- **C107.** After any calls on a set made from `items`, whatever the iteration orders: membership is what the calls make of the set of these
objects, iteration gives each member once, and the length is their number. -/
theorem C107_history (items : List Nat) (calls : List ((List Nat → List Nat) × IdOp)) (ho : ∀ c ∈ calls, Reorders c.1) :
    ∃ S, ChangesAll (calls.map (fun c => c.2)) (fun x => x ∈ items) S ∧
      (∀ x, (calls.foldl IdSet.step (IdSet.ofList items)).contains x = true ↔ S x) ∧
      ∀ order, Reorders order → ListsSet ((calls.foldl IdSet.step (IdSet.ofList items)).iter order) S ∧
        (calls.foldl IdSet.step (IdSet.ofList items)).len = ((calls.foldl IdSet.step (IdSet.ofList items)).iter order).length := by
  obtain ⟨h1, h2⟩ := IdSet.history (IdSet.ofList_good items) ho
  rw [show (fun x => (IdSet.ofList items).contains x = true) = (fun x => x ∈ items) from funext (fun x => propext (IdSet.ofList_mem items x))] at h2
  refine ⟨_, h2, fun _ => Iff.rfl, fun order hr => ⟨⟨IdSet.iter_nodup hr h1, fun x => IdSet.iter_mem hr _ x⟩, ?_⟩⟩
  rw [IdSet.iter, (hr _).length_eq, List.length_map, IdSet.len]

/-- **C107**, calls that give something back: `in`, `remove` and `pop` (which raise `KeyError` exactly when there is nothing to remove), `&`, `|`, `-`,
`^`, `<=`, `==`, `isdisjoint` of sets that list `S` and `T`. -/
theorem C107_results {order : List Nat → List Nat} (ho : Reorders order) (s t : IdSet) (S T : Nat → Prop)
    (hs : ListsSet (s.iter order) S) (ht : ListsSet (t.iter order) T) :
    (∀ x, s.contains x = true ↔ S x) ∧
    (∀ x, s.remove? x = none ↔ ¬ S x) ∧
    (s.pop? order = none ↔ ∀ x, ¬ S x) ∧
    (∀ s' x, s.pop? order = some (s', x) → S x ∧ ListsSet (s'.iter order) (fun y => S y ∧ y ≠ x)) ∧
    ListsSet ((IdSet.inter order s t).iter order) (fun x => S x ∧ T x) ∧
    ListsSet ((IdSet.union order s t).iter order) (fun x => S x ∨ T x) ∧
    ListsSet ((IdSet.diff order s t).iter order) (fun x => S x ∧ ¬ T x) ∧
    ListsSet ((IdSet.xor order s t).iter order) (fun x => (S x ∧ ¬ T x) ∨ (T x ∧ ¬ S x)) ∧
    (IdSet.le order s t = true ↔ ∀ x, S x → T x) ∧
    (IdSet.eq order s t = true ↔ ∀ x, S x ↔ T x) ∧
    (∀ xs, s.isDisjoint xs = true ↔ ∀ x ∈ xs, ¬ S x) := by
  have gs : s.Good := (ho _).nodup_iff.1 hs.1
  have gt : t.Good := (ho _).nodup_iff.1 ht.1
  have cs : ∀ x, s.contains x = true ↔ S x := fun x => (IdSet.iter_mem ho s x).symm.trans (hs.2 x)
  have ct : ∀ x, t.contains x = true ↔ T x := fun x => (IdSet.iter_mem ho t x).symm.trans (ht.2 x)
  have mk : ∀ (u : IdSet) (U : Nat → Prop), u.Good → (∀ x, u.contains x = true ↔ U x) → ListsSet (u.iter order) U :=
    fun u U g h => ⟨IdSet.iter_nodup ho g, fun x => (IdSet.iter_mem ho u x).trans (h x)⟩
  have ls : s.len = (s.iter order).length := by rw [IdSet.iter, (ho _).length_eq, List.length_map, IdSet.len]
  have lt : t.len = (t.iter order).length := by rw [IdSet.iter, (ho _).length_eq, List.length_map, IdSet.len]
  have hle : IdSet.le order s t = true ↔ ∀ x, S x → T x := by
    unfold IdSet.le
    have hall : (s.iter order).all t.contains = true ↔ ∀ x, S x → T x := by
      rw [List.all_eq_true]
      exact ⟨fun h x hx => (ct x).1 (h x ((hs.2 x).2 hx)), fun h x hx => (ct x).2 (h x ((hs.2 x).1 hx))⟩
    by_cases hl : s.len > t.len
    · rw [if_pos hl]
      refine ⟨fun h => by simp at h, fun h => absurd (nodup_subset_length hs.1 (r := t.iter order) ?_) (by omega)⟩
      intro x hx
      exact (ht.2 x).2 (h x ((hs.2 x).1 hx))
    · rw [if_neg hl]; exact hall
  refine ⟨cs, ?_, ?_, ?_, ?_, ?_, ?_, ?_, hle, ?_, ?_⟩
  · intro x
    rw [← cs x]
    unfold IdSet.remove?
    split <;> simp_all
  · rcases IdSet.pop_spec ho s with ⟨h1, h2⟩ | ⟨x, hx, h1⟩
    · rw [h1]
      refine ⟨fun _ x hx => ?_, fun _ => rfl⟩
      rw [← cs x, h2] at hx
      simp [IdSet.contains] at hx
    · rw [h1]
      exact ⟨fun h => by simp at h, fun h => absurd ((cs x).1 hx) (h x)⟩
  · intro s' x h
    rcases IdSet.pop_spec ho s with ⟨h1, h2⟩ | ⟨y, hy, h1⟩
    · rw [h1] at h; simp at h
    · rw [h1] at h
      obtain ⟨rfl, rfl⟩ := Prod.mk.inj (Option.some.inj h)
      exact ⟨(cs _).1 hy, mk _ _ (IdSet.discard_good gs _) (fun z => by rw [IdSet.discard_mem, cs])⟩
  · refine mk _ _ (IdSet.ofList_good _) (fun x => ?_)
    rw [IdSet.inter, IdSet.ofList_mem, List.mem_filter, ht.2, cs]; exact and_comm
  · refine mk _ _ (IdSet.ofList_good _) (fun x => ?_)
    rw [IdSet.union, IdSet.ofList_mem, List.mem_append, ht.2, hs.2]
  · refine mk _ _ (IdSet.ofList_good _) (fun x => ?_)
    rw [IdSet.diff_mem ho, cs, ct]
  · refine mk _ _ (IdSet.ofList_good _) (fun x => ?_)
    rw [IdSet.xor, IdSet.union, IdSet.ofList_mem, List.mem_append, IdSet.iter_mem ho, IdSet.iter_mem ho, IdSet.diff_mem ho, IdSet.diff_mem ho, cs, ct]
  · unfold IdSet.eq
    rw [Bool.and_eq_true, beq_iff_eq, hle]
    constructor
    · rintro ⟨hl, h⟩ x
      refine ⟨h x, fun hx => ?_⟩
      apply Classical.byContradiction
      intro hn
      have := nodup_subset_length (l := x :: s.iter order) (r := t.iter order)
        (List.nodup_cons.2 ⟨fun hm => hn ((hs.2 x).1 hm), hs.1⟩) (fun y hy => by
          rcases List.mem_cons.1 hy with rfl | hy
          · exact (ht.2 _).2 hx
          · exact (ht.2 y).2 (h y ((hs.2 y).1 hy)))
      rw [List.length_cons] at this
      omega
    · intro h
      refine ⟨?_, fun x => (h x).1⟩
      rw [ls, lt]
      refine Nat.le_antisymm (nodup_subset_length hs.1 ?_) (nodup_subset_length ht.1 ?_)
      · intro x hx; exact (ht.2 x).2 ((h x).1 ((hs.2 x).1 hx))
      · intro x hx; exact (hs.2 x).2 ((h x).2 ((ht.2 x).1 hx))
  · intro xs
    unfold IdSet.isDisjoint
    rw [List.all_eq_true]
    simp only [Bool.not_eq_true', Bool.eq_false_iff]
    exact ⟨fun h x hx hS => h x hx ((cs x).2 hS), fun h x hx hc => h x hx ((cs x).1 hc)⟩

/-- Objects 1 and 2 may be equal: they are kept apart. The orders are really different. -/
example : (([(id, .add 1), (List.reverse, .update [2, 1, 3]), (id, .discard 3), (List.reverse, .pop), (id, .ixor [1, 5])] :
      List ((List Nat → List Nat) × IdOp)).foldl IdSet.step (IdSet.ofList [])).iter id = [5] ∧
    Reorders id ∧ Reorders List.reverse :=
  ⟨by decide, fun _ => .refl _, fun l => List.reverse_perm l⟩

example : ListsSet ((IdSet.ofList [1, 2, 2]).iter List.reverse) (fun x => x ∈ [1, 2]) ∧
    IdSet.le List.reverse (IdSet.ofList [1]) (IdSet.ofList [2, 1]) = true ∧
    (IdSet.xor List.reverse (IdSet.ofList [1, 2]) (IdSet.ofList [2, 3])).iter id = [1, 3] :=
  ⟨⟨by decide, by intro x; simp [IdSet.ofList, IdSet.update, IdSet.add, IdSet.contains, Ref.found, Ref.hash, Ref.eq, IdSet.iter, or_comm]⟩,
    by decide, by decide⟩

end Rebulk
