import Verif.Spec.Utils
namespace Rebulk
open Spec
variable {κ : Type} [DecidableEq κ]

/-- The items of a dependency list. -/
def itemsOf (D : Deps κ) : List κ := D.map (fun kv => kv.1)

def ClosedDeps (D : Deps κ) : Prop := ∀ kv ∈ D, ∀ d ∈ kv.2, d ∈ itemsOf D

omit [DecidableEq κ] in
theorem mem_itemsOf {D : Deps κ} {x : κ} : x ∈ itemsOf D ↔ ∃ ds, (x, ds) ∈ D := by
  unfold itemsOf
  rw [List.mem_map]
  constructor
  · rintro ⟨⟨a, b⟩, h, rfl⟩; exact ⟨b, h⟩
  · rintro ⟨ds, h⟩; exact ⟨_, h, rfl⟩

omit [DecidableEq κ] in
theorem mem_ordered {D : Deps κ} {x : κ} : x ∈ orderedItems D ↔ (x, []) ∈ D := by
  unfold orderedItems
  rw [List.mem_map]
  constructor
  · rintro ⟨⟨a, b⟩, h, rfl⟩
    rw [List.mem_filter] at h
    have : b = [] := by simpa using h.2
    subst this
    exact h.1
  · intro h; exact ⟨_, List.mem_filter.2 ⟨h, rfl⟩, rfl⟩

theorem mem_removeOrdered {D : Deps κ} {O : List κ} {x : κ} {ds : List κ} :
    (x, ds) ∈ removeOrdered O D ↔ ∃ ds0, (x, ds0) ∈ D ∧ x ∉ O ∧ ds = ds0.filter (fun d => decide (d ∉ O)) := by
  unfold removeOrdered
  rw [List.mem_map]
  constructor
  · rintro ⟨⟨a, b⟩, h, he⟩
    rw [List.mem_filter] at h
    simp only [Prod.mk.injEq] at he
    obtain ⟨rfl, rfl⟩ := he
    exact ⟨b, h.1, by simpa using h.2, rfl⟩
  · rintro ⟨ds0, h1, h2, rfl⟩
    exact ⟨(x, ds0), List.mem_filter.2 ⟨h1, by simpa using h2⟩, rfl⟩

theorem itemsOf_removeOrdered (O : List κ) (D : Deps κ) :
    itemsOf (removeOrdered O D) = (itemsOf D).filter (fun x => decide (x ∉ O)) := by
  unfold itemsOf removeOrdered
  rw [List.map_map, List.filter_map]
  rfl

omit [DecidableEq κ] in
theorem deps_unique {D : Deps κ} (hn : (itemsOf D).Nodup) {x : κ} {a b : List κ} (ha : (x, a) ∈ D) (hb : (x, b) ∈ D) : a = b := by
  induction D with
  | nil => cases ha
  | cons kv D ih =>
    simp only [itemsOf, List.map_cons, List.nodup_cons] at hn
    rcases List.mem_cons.1 ha with ha' | ha' <;> rcases List.mem_cons.1 hb with hb' | hb'
    · have := ha'.trans hb'.symm; cases this; rfl
    · exfalso; subst ha'; exact hn.1 (List.mem_map.2 ⟨_, hb', rfl⟩)
    · exfalso; subst hb'; exact hn.1 (List.mem_map.2 ⟨_, ha', rfl⟩)
    · exact ih hn.2 ha' hb'

structure TopoResult (D : Deps κ) (groups : List (List κ)) (rem : Deps κ) : Prop where
  all : ∀ x, x ∈ itemsOf D ↔ (∃ i, InGroup groups i x) ∨ x ∈ itemsOf rem
  apart : ∀ x i, InGroup groups i x → x ∉ itemsOf rem
  unique : ∀ x i j, InGroup groups i x → InGroup groups j x → i = j
  nodup : ∀ g ∈ groups, g.Nodup ∧ g ≠ []
  earlier : ∀ x ds i, (x, ds) ∈ D → InGroup groups i x →
    (∀ d ∈ ds, ∃ j, j < i ∧ InGroup groups j d) ∧ (0 < i → ∃ d ∈ ds, InGroup groups (i - 1) d)
  stuck : ∀ x ds, (x, ds) ∈ rem → ds ≠ [] ∧ ∀ d ∈ ds, d ∈ itemsOf rem ∧ ∃ ds', (x, ds') ∈ D ∧ d ∈ ds'

omit [DecidableEq κ] in
theorem inGroup_zero {g : List κ} {gs : List (List κ)} {x : κ} : InGroup (g :: gs) 0 x ↔ x ∈ g := by
  simp [InGroup]

omit [DecidableEq κ] in
theorem inGroup_succ {g : List κ} {gs : List (List κ)} {i : Nat} {x : κ} : InGroup (g :: gs) (i + 1) x ↔ InGroup gs i x := by
  simp [InGroup]

theorem topoLoop_spec : ∀ (fuel : Nat) (D : Deps κ), D.length < fuel → (itemsOf D).Nodup → ClosedDeps D →
    ∃ groups rem, topoLoop fuel D = some (groups, rem) ∧ TopoResult D groups rem
  | 0, D, h, _, _ => by omega
  | fuel + 1, D, hlen, hnd, hcl => by
    unfold topoLoop
    simp only
    by_cases ho : (orderedItems D).isEmpty = true
    · rw [if_pos ho]
      have ho' : orderedItems D = [] := by simpa using ho
      refine ⟨[], D, rfl, ?_, ?_, ?_, ?_, ?_, ?_⟩
      · intro x; simp [InGroup]
      · rintro x i ⟨g, hg, _⟩; simp at hg
      · rintro x i j ⟨g, hg, _⟩; simp at hg
      · intro g hg; cases hg
      · rintro x ds i _ ⟨g, hg, _⟩; simp at hg
      · intro x ds hx
        refine ⟨?_, ?_⟩
        · rintro rfl
          have := mem_ordered.2 hx
          rw [ho'] at this
          cases this
        · intro d hd; exact ⟨hcl _ hx d hd, ds, hx, hd⟩
    · rw [if_neg ho]
      have ho' : orderedItems D ≠ [] := by simpa using ho
      generalize hO : orderedItems D = O at *
      have hOm : ∀ x, x ∈ O ↔ (x, []) ∈ D := by intro x; rw [← hO]; exact mem_ordered
      have hlen' : (removeOrdered O D).length < fuel := by
        have h1 : (removeOrdered O D).length = ((itemsOf D).filter (fun x => decide (x ∉ O))).length := by
          rw [← itemsOf_removeOrdered]; simp [itemsOf]
        have h2 : ((itemsOf D).filter (fun x => decide (x ∉ O))).length < (itemsOf D).length := by
          obtain ⟨x, hx⟩ := List.exists_mem_of_ne_nil _ ho'
          apply List.length_filter_lt_length_iff_exists.2
          exact ⟨x, mem_itemsOf.2 ⟨_, (hOm x).1 hx⟩, by simpa using hx⟩
        have h3 : (itemsOf D).length = D.length := by simp [itemsOf]
        omega
      have hnd' : (itemsOf (removeOrdered O D)).Nodup := by
        rw [itemsOf_removeOrdered]; exact hnd.filter _
      have hcl' : ClosedDeps (removeOrdered O D) := by
        rintro ⟨x, ds⟩ hx d hd
        obtain ⟨ds0, h1, h2, rfl⟩ := mem_removeOrdered.1 hx
        rw [itemsOf_removeOrdered, List.mem_filter]
        rw [List.mem_filter] at hd
        exact ⟨hcl _ h1 d hd.1, hd.2⟩
      obtain ⟨gs, rem, he, hr⟩ := topoLoop_spec fuel (removeOrdered O D) hlen' hnd' hcl'
      have hOK : ∀ x, x ∈ O → x ∈ itemsOf D := fun x hx => mem_itemsOf.2 ⟨_, (hOm x).1 hx⟩
      have hnotO : ∀ x i, InGroup gs i x → x ∉ O := by
        intro x i hi hx
        have := (hr.all x).2 (Or.inl ⟨i, hi⟩)
        rw [itemsOf_removeOrdered, List.mem_filter] at this
        simp [hx] at this
      rw [he]
      refine ⟨O :: gs, rem, rfl, ?_, ?_, ?_, ?_, ?_, ?_⟩
      · intro x
        constructor
        · intro hx
          by_cases hxO : x ∈ O
          · exact Or.inl ⟨0, inGroup_zero.2 hxO⟩
          · rcases (hr.all x).1 (by rw [itemsOf_removeOrdered, List.mem_filter]; exact ⟨hx, by simpa using hxO⟩) with ⟨i, hi⟩ | h
            · exact Or.inl ⟨i + 1, inGroup_succ.2 hi⟩
            · exact Or.inr h
        · have back : x ∈ itemsOf (removeOrdered O D) → x ∈ itemsOf D := by
            rw [itemsOf_removeOrdered]; exact fun h => (List.mem_filter.1 h).1
          rintro (⟨i, hi⟩ | h)
          · cases i with
            | zero => exact hOK x (inGroup_zero.1 hi)
            | succ i => exact back ((hr.all x).2 (Or.inl ⟨i, inGroup_succ.1 hi⟩))
          · exact back ((hr.all x).2 (Or.inr h))
      · intro x i hi hx
        cases i with
        | zero =>
          have := (hr.all x).2 (Or.inr hx)
          rw [itemsOf_removeOrdered, List.mem_filter] at this
          simp [inGroup_zero.1 hi] at this
        | succ i => exact hr.apart x i (inGroup_succ.1 hi) hx
      · intro x i j hi hj
        cases i with
        | zero =>
          cases j with
          | zero => rfl
          | succ j => exact absurd (inGroup_zero.1 hi) (hnotO x j (inGroup_succ.1 hj))
        | succ i =>
          cases j with
          | zero => exact absurd (inGroup_zero.1 hj) (hnotO x i (inGroup_succ.1 hi))
          | succ j => rw [hr.unique x i j (inGroup_succ.1 hi) (inGroup_succ.1 hj)]
      · intro g hg
        rcases List.mem_cons.1 hg with rfl | hg
        · refine ⟨?_, ho'⟩
          rw [← hO]
          unfold orderedItems
          exact List.Nodup.sublist (List.Sublist.map _ List.filter_sublist) hnd
        · exact hr.nodup g hg
      · intro x ds i hx hi
        cases i with
        | zero =>
          have := deps_unique hnd hx ((hOm x).1 (inGroup_zero.1 hi))
          subst this
          refine ⟨?_, fun h => absurd h (Nat.lt_irrefl 0)⟩
          intro d hd; cases hd
        | succ i =>
          have hi' := inGroup_succ.1 hi
          have hxO := hnotO x i hi'
          have hx' : (x, ds.filter (fun d => decide (d ∉ O))) ∈ removeOrdered O D := mem_removeOrdered.2 ⟨ds, hx, hxO, rfl⟩
          have := hr.earlier x _ i hx' hi'
          refine ⟨?_, ?_⟩
          · intro d hd
            by_cases hdO : d ∈ O
            · exact ⟨0, by omega, inGroup_zero.2 hdO⟩
            · obtain ⟨j, h1, h2⟩ := this.1 d (List.mem_filter.2 ⟨hd, by simpa using hdO⟩)
              exact ⟨j + 1, by omega, inGroup_succ.2 h2⟩
          · intro _
            cases i with
            | zero =>
              -- all the remaining dependencies are gone, but there was one
              have hempty : ds.filter (fun d => decide (d ∉ O)) = [] := by
                cases hf : ds.filter (fun d => decide (d ∉ O)) with
                | nil => rfl
                | cons d t =>
                  obtain ⟨j, h1, _⟩ := this.1 d (by rw [hf]; exact List.mem_cons_self)
                  omega
              cases hds : ds with
              | nil => subst hds; exact absurd ((hOm x).2 hx) hxO
              | cons d t =>
                refine ⟨d, List.mem_cons_self, ?_⟩
                apply inGroup_zero.2
                by_cases hdO : d ∈ O
                · exact hdO
                · exfalso
                  have : d ∈ ds.filter (fun d => decide (d ∉ O)) := List.mem_filter.2 ⟨by rw [hds]; exact List.mem_cons_self, by simpa using hdO⟩
                  rw [hempty] at this
                  cases this
            | succ i =>
              obtain ⟨d, h1, h2⟩ := this.2 (by omega)
              refine ⟨d, (List.mem_filter.1 h1).1, ?_⟩
              exact inGroup_succ.2 h2
      · intro x ds hx
        obtain ⟨h1, h2⟩ := hr.stuck x ds hx
        refine ⟨h1, ?_⟩
        intro d hd
        obtain ⟨h3, ds', h4, h5⟩ := h2 d hd
        obtain ⟨ds0, e1, e2, rfl⟩ := mem_removeOrdered.1 h4
        exact ⟨h3, ds0, e1, (List.mem_filter.1 h5).1⟩

theorem mem_dedup {l : List κ} {x : κ} : x ∈ dedup l ↔ x ∈ l := by
  induction l with
  | nil => simp [dedup]
  | cons a l ih =>
    simp only [dedup, List.mem_cons, List.mem_filter, ih, decide_eq_true_eq]
    by_cases h : x = a
    · simp [h]
    · simp [h]

theorem nodup_dedup (l : List κ) : (dedup l).Nodup := by
  induction l with
  | nil => simp [dedup]
  | cons a l ih =>
    simp only [dedup, List.nodup_cons]
    refine ⟨?_, ih.filter _⟩
    simp [List.mem_filter]

/-- The dict the loop starts from. -/
def topoStart (data : Deps κ) : Deps κ := discardSelf data ++ (extraItems (discardSelf data)).map (fun d => (d, []))

theorem itemsOf_discardSelf (data : Deps κ) : itemsOf (discardSelf data) = itemsOf data := by
  unfold itemsOf discardSelf
  rw [List.map_map]
  rfl

theorem itemsOf_topoStart (data : Deps κ) : itemsOf (topoStart data) = itemsOf data ++ extraItems (discardSelf data) := by
  have h1 : itemsOf (topoStart data) = itemsOf (discardSelf data) ++
      itemsOf ((extraItems (discardSelf data)).map (fun d => (d, ([] : List κ)))) := by
    unfold topoStart itemsOf
    rw [List.map_append]
  rw [h1, itemsOf_discardSelf]
  congr 1
  unfold itemsOf
  rw [List.map_map]
  exact List.map_id _

theorem topoStart_nodup {data : Deps κ} (hn : (itemsOf data).Nodup) : (itemsOf (topoStart data)).Nodup := by
  rw [itemsOf_topoStart, List.nodup_append]
  refine ⟨hn, (nodup_dedup _).filter _, ?_⟩
  intro a ha b hb hab
  subst hab
  unfold extraItems at hb
  rw [List.mem_filter] at hb
  have := hb.2
  simp only [decide_eq_true_eq] at this
  exact this (by rw [← itemsOf_discardSelf] at ha; exact ha)

theorem mem_topoStart_dep {data : Deps κ} {x y : κ} : (∃ ds, (x, ds) ∈ topoStart data ∧ y ∈ ds) ↔ DependsOn data x y := by
  unfold topoStart DependsOn
  constructor
  · rintro ⟨ds, h, hy⟩
    rcases List.mem_append.1 h with h | h
    · unfold discardSelf at h
      rw [List.mem_map] at h
      obtain ⟨⟨a, b⟩, h1, h2⟩ := h
      simp only [Prod.mk.injEq] at h2
      obtain ⟨rfl, rfl⟩ := h2
      rw [List.mem_filter] at hy
      exact ⟨by have := hy.2; simp at this; exact fun e => this e.symm, b, h1, hy.1⟩
    · rw [List.mem_map] at h
      obtain ⟨d, _, h2⟩ := h
      simp only [Prod.mk.injEq] at h2
      obtain ⟨rfl, rfl⟩ := h2
      cases hy
  · rintro ⟨hne, ds, h, hy⟩
    refine ⟨ds.filter (fun d => decide (d ≠ x)), List.mem_append.2 (Or.inl ?_), ?_⟩
    · unfold discardSelf
      exact List.mem_map.2 ⟨(x, ds), h, rfl⟩
    · exact List.mem_filter.2 ⟨hy, by simpa using fun e => hne e.symm⟩

theorem mem_itemsOf_topoStart {data : Deps κ} {x : κ} : x ∈ itemsOf (topoStart data) ↔
    x ∈ itemsOf data ∨ ∃ y, DependsOn data y x := by
  rw [itemsOf_topoStart, List.mem_append]
  constructor
  · rintro (h | h)
    · exact Or.inl h
    · right
      unfold extraItems at h
      rw [List.mem_filter, mem_dedup, List.mem_flatMap] at h
      obtain ⟨⟨⟨k, ds⟩, h1, h2⟩, _⟩ := h
      exact ⟨k, mem_topoStart_dep.1 ⟨ds, List.mem_append.2 (Or.inl h1), h2⟩⟩
  · rintro (h | ⟨y, hy⟩)
    · exact Or.inl h
    · by_cases hx : x ∈ itemsOf data
      · exact Or.inl hx
      · right
        obtain ⟨ds, h1, h2⟩ := mem_topoStart_dep.2 hy
        have h1' : (y, ds) ∈ discardSelf data := by
          rcases List.mem_append.1 h1 with h1 | h1
          · exact h1
          · exfalso
            rw [List.mem_map] at h1
            obtain ⟨d, _, h3⟩ := h1
            simp only [Prod.mk.injEq] at h3
            rw [← h3.2] at h2
            cases h2
        unfold extraItems
        rw [List.mem_filter, mem_dedup, List.mem_flatMap]
        refine ⟨⟨_, h1', h2⟩, ?_⟩
        simp only [decide_eq_true_eq]
        intro hc
        exact hx (by rw [← itemsOf_discardSelf]; exact hc)

theorem topoStart_closed (data : Deps κ) : ClosedDeps (topoStart data) := by
  rintro ⟨x, ds⟩ hx d hd
  exact mem_itemsOf_topoStart.2 (Or.inr ⟨x, mem_topoStart_dep.1 ⟨ds, hx, hd⟩⟩)

/-- The sufficient number of iterations. -/
def topoFuel (data : Deps κ) : Nat := (topoStart data).length + 1

theorem toposort_loop {data : Deps κ} (hn : (itemsOf data).Nodup) (fuel : Nat) (hf : topoFuel data ≤ fuel) :
    ∃ groups rem, TopoResult (topoStart data) groups rem ∧
      toposort fuel data = some (groups, if rem.isEmpty then none else some .cyclicDependency) := by
  obtain ⟨groups, rem, he, hr⟩ := topoLoop_spec fuel (topoStart data) (by unfold topoFuel at hf; omega) (topoStart_nodup hn)
    (topoStart_closed data)
  unfold toposort
  by_cases hd : data.isEmpty = true
  · have hd' : data = [] := by simpa using hd
    subst hd'
    rw [if_pos hd]
    refine ⟨groups, rem, hr, ?_⟩
    obtain ⟨f, rfl⟩ : ∃ f, fuel = f + 1 := by unfold topoFuel at hf; exact ⟨fuel - 1, by omega⟩
    have : topoLoop (f + 1) (topoStart ([] : Deps κ)) = some ([], []) := by
      simp [topoLoop, topoStart, discardSelf, extraItems, orderedItems, dedup]
    rw [this] at he
    cases he
    rfl
  · rw [if_neg hd]
    refine ⟨groups, rem, hr, ?_⟩
    unfold topoFrom
    rw [show discardSelf data ++ (extraItems (discardSelf data)).map (fun d => (d, [])) = topoStart data from rfl, he]
    rfl

omit [DecidableEq κ] in
theorem dependsTrans_trans {data : Deps κ} {x y z : κ} (h : DependsTrans data x y) (h' : DependsTrans data y z) :
    DependsTrans data x z := by
  induction h with
  | single h => exact .step h h'
  | step h _ ih => exact .step h (ih h')

omit [DecidableEq κ] in
theorem exists_minimal (T : κ → κ → Prop) (hir : ∀ x, ¬ T x x) (htr : ∀ x y z, T x y → T y z → T x z) :
    ∀ (K : List κ), K ≠ [] → ∃ x ∈ K, ∀ y ∈ K, ¬ T x y
  | [], h => absurd rfl h
  | [a], _ => ⟨a, List.mem_cons_self, by intro y hy; simp only [List.mem_singleton] at hy; subst hy; exact hir y⟩
  | a :: b :: K, _ => by
    obtain ⟨x, hx, hmin⟩ := exists_minimal T hir htr (b :: K) (by simp)
    by_cases ht : T x a
    · refine ⟨a, List.mem_cons_self, ?_⟩
      intro y hy
      rcases List.mem_cons.1 hy with rfl | hy
      · exact hir y
      · intro hay; exact hmin y hy (htr _ _ _ ht hay)
    · refine ⟨x, List.mem_cons_of_mem _ hx, ?_⟩
      intro y hy
      rcases List.mem_cons.1 hy with rfl | hy
      · exact ht
      · exact hmin y hy

theorem stuck_iff_cycle {data : Deps κ} {groups : List (List κ)} {rem : Deps κ}
    (hr : TopoResult (topoStart data) groups rem) : rem ≠ [] ↔ ∃ x, DependsTrans data x x := by
  constructor
  · intro hne
    refine Classical.byContradiction (fun hno => ?_)
    have hir : ∀ x, ¬ DependsTrans data x x := fun x hx => hno ⟨x, hx⟩
    obtain ⟨x, hx, hmin⟩ := exists_minimal (DependsTrans data) hir (fun x y z => dependsTrans_trans) (itemsOf rem) (by
      intro hc; apply hne; cases rem with | nil => rfl | cons a t => simp [itemsOf] at hc)
    obtain ⟨ds, hds⟩ := mem_itemsOf.1 hx
    obtain ⟨h1, h2⟩ := hr.stuck x ds hds
    obtain ⟨d, hd⟩ := List.exists_mem_of_ne_nil _ h1
    obtain ⟨h3, ds', h4, h5⟩ := h2 d hd
    exact hmin d h3 (.single (mem_topoStart_dep.1 ⟨ds', h4, h5⟩))
  · rintro ⟨x, hx⟩ hc
    subst hc
    have rank : ∀ x y, DependsTrans data x y → ∃ i j, InGroup groups i x ∧ InGroup groups j y ∧ j < i := by
      intro x y h
      have one : ∀ x y, DependsOn data x y → ∃ i j, InGroup groups i x ∧ InGroup groups j y ∧ j < i := by
        intro x y h
        obtain ⟨ds, h1, h2⟩ := mem_topoStart_dep.2 h
        rcases (hr.all x).1 (mem_itemsOf.2 ⟨ds, h1⟩) with ⟨i, hi⟩ | hc
        · obtain ⟨j, hj, hg⟩ := (hr.earlier x ds i h1 hi).1 y h2
          exact ⟨i, j, hi, hg, hj⟩
        · simp [itemsOf] at hc
      induction h with
      | single h => exact one _ _ h
      | step h _ ih =>
        obtain ⟨i, j, h1, h2, h3⟩ := one _ _ h
        obtain ⟨i', j', h1', h2', h3'⟩ := ih
        have := hr.unique _ _ _ h2 h1'
        exact ⟨i, j', h1, h2', by omega⟩
    obtain ⟨i, j, h1, h2, h3⟩ := rank x x hx
    have := hr.unique x i j h1 h2
    omega

/-! ## Store -/

theorem discardSelfStore_other (data : List (κ × Nat)) (sets : Nat → List κ) (i : Nat) (h : ∀ ka ∈ data, ka.2 ≠ i) :
    discardSelfStore data sets i = sets i := by
  induction data generalizing sets with
  | nil => rfl
  | cons ka data ih =>
    show discardSelfStore data _ i = _
    rw [ih _ (fun kb hb => h kb (List.mem_cons_of_mem _ hb))]
    show (if i = ka.2 then _ else _) = _
    rw [if_neg (fun e => h ka List.mem_cons_self e.symm)]

theorem discardSelfStore_entry (data : List (κ × Nat)) (sets : Nat → List κ) (hn : (data.map (fun ka => ka.2)).Nodup)
    (ka : κ × Nat) (h : ka ∈ data) : discardSelfStore data sets ka.2 = (sets ka.2).filter (fun d => decide (d ≠ ka.1)) := by
  induction data generalizing sets with
  | nil => cases h
  | cons kb data ih =>
    simp only [List.map_cons, List.nodup_cons] at hn
    show discardSelfStore data _ ka.2 = _
    rcases List.mem_cons.1 h with rfl | h
    · rw [discardSelfStore_other]
      · show (if ka.2 = ka.2 then _ else _) = _
        rw [if_pos rfl]
      · intro kc hc e
        exact hn.1 (List.mem_map.2 ⟨kc, hc, e⟩)
    · rw [ih _ hn.2 h]
      congr 1
      show (if ka.2 = kb.2 then _ else _) = _
      rw [if_neg]
      intro e
      exact hn.1 (List.mem_map.2 ⟨ka, h, e⟩)

end Rebulk
