import Verif.Lemmas.Utils
import Verif.Lemmas.Toposort
import Verif.Lemmas.Loose
import Verif.Props.Container
import Verif.Spec.Truth
/-!
# Properties of the utilities: C32 – C38, C40, C41
-/
namespace Rebulk
open Spec

/-! ## C32, C33 -/

/-- **C32.** For a non-empty `sub`, `find_all` ends, with an increasing list of indexes; an index is yielded iff `sub` occurs
there inside the window and it does not fall inside an occurrence yielded before. With `ignore_case` the same holds of the lowered
strings. -/
theorem C32_find_all (lower : Str → Str) (s sub : Str) (start stop : Option Int) (ignoreCase : Bool)
    (hsub : (if ignoreCase then lower sub else sub) ≠ []) :
    ∃ l N, (∀ fuel, N ≤ fuel → findAll lower fuel s sub start stop ignoreCase = some l) ∧ l.Pairwise (· < ·) ∧
      let s' := if ignoreCase then lower s else s
      let sub' := if ignoreCase then lower sub else sub
      ∀ p, p ∈ l ↔ OccursIn s' sub' start stop p ∧ ∀ q ∈ l, ¬ (q < p ∧ p < q + sub'.length) := by
  have main : ∀ (s sub : Str), sub ≠ [] → ∃ l N, (∀ fuel, N ≤ fuel → findAllLoop fuel s sub start stop = some l) ∧
      l.Pairwise (· < ·) ∧ ∀ p, p ∈ l ↔ OccursIn s sub start stop p ∧ ∀ q ∈ l, ¬ (q < p ∧ p < q + sub.length) := by
    intro s sub hs
    obtain ⟨l, h1, h2, h3⟩ := findAllLoop_spec s sub hs stop (findHi s stop + 1 - findLo s start + 1) start (by omega)
    refine ⟨l, findHi s stop + 1 - findLo s start + 1, ?_, h2, ?_⟩
    · intro fuel hf
      obtain ⟨k, rfl⟩ := Nat.exists_eq_add_of_le hf
      exact findAllLoop_mono s sub stop l _ start h1 k
    · intro p; rw [h3 p, win_iff]
  unfold findAll
  cases ignoreCase with
  | true => simpa using main (lower s) (lower sub) (by simpa using hsub)
  | false => simpa using main s sub (by simpa using hsub)

example : findAll id 9 "aaabaa".toList "aa".toList (some (-5)) none false = some [1, 4] := by decide

/-- **C33 is false**: with an empty `sub` (and a window that is not empty) `find_all` never ends. -/
theorem C33_find_all_terminates_refuted (lower : Str → Str) (s : Str) (fuel : Nat) :
    findAll lower fuel s [] none none false = none := by
  have : ∀ (fuel : Nat) (a : Option Int), findLo s a = 0 → findAllLoop fuel s [] a none = none := by
    intro fuel
    induction fuel with
    | zero => intro a _; rfl
    | succ n ih =>
      intro a ha
      unfold findAllLoop
      obtain ⟨p, hp⟩ := pyFind_complete (s := s) (sub := []) (a := a) (b := none) 0
        ⟨by omega, by simp [findHi], by simp [occursAt]⟩
      have hmin := (pyFind_some hp).2 0 ⟨by omega, by simp [findHi], by simp [occursAt]⟩
      have hp0 : p = 0 := by omega
      subst hp0
      simp only [hp, Option.map_eq_none_iff]
      exact ih _ (by simp [findLo])
  exact this fuel none rfl

/-- **C33, partial**: `find_all` ends for every non-empty `sub`, and for an empty one when the window is empty, that is when `start`
is past its end. (Missing: an empty `sub` otherwise, which never ends.) -/
theorem C33_find_all_terminates_partial (lower : Str → Str) (s sub : Str) (start stop : Option Int) (ignoreCase : Bool)
    (h : (if ignoreCase then lower sub else sub) ≠ [] ∨ NoPlace (if ignoreCase then lower s else s) start stop) :
    ∃ fuel, (findAll lower fuel s sub start stop ignoreCase).isSome := by
  rw [noPlace_iff] at h
  rcases h with h | h
  · obtain ⟨l, N, h1, _⟩ := C32_find_all lower s sub start stop ignoreCase h
    exact ⟨N, by rw [h1 N (Nat.le_refl _)]; rfl⟩
  · refine ⟨1, ?_⟩
    unfold findAll
    have one : ∀ (s sub : Str), findHi s stop < findLo s start → (findAllLoop 1 s sub start stop).isSome := by
      intro s sub hlt
      unfold findAllLoop
      cases hp : pyFind s sub start stop with
      | none => rfl
      | some p => have := (pyFind_some hp).1; obtain ⟨h1, h2, _⟩ := this; omega
    cases ignoreCase with
    | true => simpa using one _ _ (by simpa using h)
    | false => simpa using one _ _ (by simpa using h)

example : NoPlace "ab".toList (some 5) none := by rw [noPlace_iff]; decide

/-! ## C34 -/

/-- **C34.** Whatever elements are hashable, `extend_safe` with a re-iterable source keeps the target and appends the distinct
source elements that are not in it, in order of first occurrence. -/
theorem C34_extend_safe {α : Type} (eq : α → α → Bool) (hr : ∀ x, eq x x = true) (hashable : α → Bool) (target source : List α) :
    extendSafe eq hashable false target source = target ++ distinctFrom eq target source :=
  extendSafe_spec eq hr hashable target source

example : extendSafe (fun a b : Nat => a == b) (fun n => n % 2 == 0) false [0] [2, 0, 2, 5, 2, 5, 4] = [0, 2, 5, 4] := by decide

/-- Why C34 needs a re-iterable source: with an iterator, the unhashable element met is lost. -/
theorem C34_iterator_refuted : ∃ (hashable : Nat → Bool) (target source : List Nat),
    extendSafe (fun a b => a == b) hashable true target source ≠ target ++ distinctFrom (fun a b => a == b) target source :=
  ⟨fun n => n % 2 == 0, [], [2, 5, 4], by decide⟩

/-! ## C35 – C37 -/

section
variable {κ : Type} [DecidableEq κ]

/-- **C35.** The groups `toposort` yields (whether or not it raises in the end): groups are non-empty sets, an item is in one
group at most; every dependency of an item (itself excepted) is in an earlier group, and an item that is not in the first group
has a dependency in the group just before (so that no group could come earlier); without error, exactly the items and
dependencies are in the groups. `N` iterations are enough. -/
theorem C35_toposort_groups (data : Deps κ) (hn : (data.map (fun kv => kv.1)).Nodup) :
    ∃ groups err N, (∀ fuel, N ≤ fuel → toposort fuel data = some (groups, err)) ∧
      (∀ g ∈ groups, g.Nodup ∧ g ≠ []) ∧
      (∀ x i j, InGroup groups i x → InGroup groups j x → i = j) ∧
      (∀ x y i, InGroup groups i x → DependsOn data x y → ∃ j, j < i ∧ InGroup groups j y) ∧
      (∀ x i, InGroup groups (i + 1) x → ∃ y, DependsOn data x y ∧ InGroup groups i y) ∧
      (∀ x i, InGroup groups i x → Mentioned data x) ∧
      (err = none → ∀ x, Mentioned data x → ∃ i, InGroup groups i x) := by
  obtain ⟨groups, rem, hr, he⟩ := toposort_loop (data := data) hn (topoFuel data) (Nat.le_refl _)
  refine ⟨groups, (if rem.isEmpty then none else some .cyclicDependency), topoFuel data, ?_, hr.nodup, hr.unique, ?_, ?_, ?_, ?_⟩
  · intro fuel hf
    obtain ⟨g', rem', hr', he'⟩ := toposort_loop (data := data) hn fuel hf
    rw [he']
    -- both runs give the same answer
    have mono : ∀ (f k : Nat) (D : Deps κ) r, topoLoop f D = some r → topoLoop (f + k) D = some r := by
      intro f
      induction f with
      | zero => intro k D r h; simp [topoLoop] at h
      | succ f ih =>
        intro k D r h
        rw [Nat.add_right_comm]
        unfold topoLoop at h ⊢
        simp only at h ⊢
        split
        · next hc => rw [if_pos hc] at h; exact h
        · next hc =>
          rw [if_neg hc] at h
          simp only [Option.map_eq_some_iff] at h ⊢
          obtain ⟨a, h1, h2⟩ := h
          exact ⟨a, ih k _ a h1, h2⟩
    have : toposort fuel data = toposort (topoFuel data) data := by
      unfold toposort
      split
      · rfl
      · obtain ⟨k, rfl⟩ := Nat.exists_eq_add_of_le hf
        unfold topoFrom
        have hs : ∃ r, topoLoop (topoFuel data) (discardSelf data ++ (extraItems (discardSelf data)).map (fun d => (d, []))) = some r := by
          obtain ⟨g, r, h1, _⟩ := topoLoop_spec (topoFuel data) (topoStart data) (by unfold topoFuel; omega) (topoStart_nodup hn)
            (topoStart_closed data)
          exact ⟨_, h1⟩
        obtain ⟨r, hr⟩ := hs
        rw [hr, mono _ k _ r hr]
    rw [he, he'] at this
    exact this
  · intro x y i hi hd
    obtain ⟨ds, h1, h2⟩ := mem_topoStart_dep.2 hd
    exact (hr.earlier x ds i h1 hi).1 y h2
  · intro x i hi
    have hx : x ∈ itemsOf (topoStart data) := (hr.all x).2 (Or.inl ⟨_, hi⟩)
    obtain ⟨ds, h1⟩ := mem_itemsOf.1 hx
    obtain ⟨d, h2, h3⟩ := (hr.earlier x ds _ h1 hi).2 (by omega)
    exact ⟨d, mem_topoStart_dep.1 ⟨ds, h1, h2⟩, h3⟩
  · intro x i hi
    have hx : x ∈ itemsOf (topoStart data) := (hr.all x).2 (Or.inl ⟨_, hi⟩)
    rcases mem_itemsOf_topoStart.1 hx with h | ⟨y, _, ds, h1, h2⟩
    · obtain ⟨ds, h⟩ := mem_itemsOf.1 h
      exact ⟨_, h, Or.inl rfl⟩
    · exact ⟨_, h1, Or.inr h2⟩
  · intro herr x hx
    have hrem : rem = [] := by
      cases rem with
      | nil => rfl
      | cons a t => simp at herr
    have : x ∈ itemsOf (topoStart data) := by
      rw [mem_itemsOf_topoStart]
      obtain ⟨⟨k, ds⟩, h1, h2⟩ := hx
      rcases h2 with rfl | h2
      · exact Or.inl (mem_itemsOf.2 ⟨ds, h1⟩)
      · by_cases hk : k = x
        · subst hk; exact Or.inl (mem_itemsOf.2 ⟨ds, h1⟩)
        · exact Or.inr ⟨k, hk, ds, h1, h2⟩
    rcases (hr.all x).1 this with h | h
    · exact h
    · rw [hrem] at h; simp [itemsOf] at h

example : toposort 9 [("a", ["a", "b", "x"]), ("c", ["a"]), ("b", [])] = some ([["b", "x"], ["a"], ["c"]], none) ∧
    ((([("a", ["a", "b", "x"]), ("c", ["a"]), ("b", [])] : Deps String).map (fun kv => kv.1)).Nodup) := by decide

/-- **C36.** `toposort` raises `CyclicDependency` iff some item depends on itself through others; otherwise it ends without error
(and then C35 says that every item was yielded). -/
theorem C36_toposort_cycles (data : Deps κ) (hn : (data.map (fun kv => kv.1)).Nodup) :
    ∃ groups N,
      ((∃ x, DependsTrans data x x) → ∀ fuel, N ≤ fuel → toposort fuel data = some (groups, some .cyclicDependency)) ∧
      ((¬ ∃ x, DependsTrans data x x) → ∀ fuel, N ≤ fuel → toposort fuel data = some (groups, none)) := by
  obtain ⟨groups, rem, hr, he⟩ := toposort_loop (data := data) hn (topoFuel data) (Nat.le_refl _)
  obtain ⟨groups', err, N, hN, _⟩ := C35_toposort_groups data hn
  have heq : (groups', err) = (groups, if rem.isEmpty then none else some .cyclicDependency) := by
    obtain ⟨g2, rem2, hr2, he2⟩ := toposort_loop (data := data) hn (max N (topoFuel data)) (Nat.le_max_right _ _)
    have h1 := hN (max N (topoFuel data)) (Nat.le_max_left _ _)
    obtain ⟨g3, e3, N3, hN3, _⟩ := C35_toposort_groups data hn
    -- all sufficiently long runs agree
    have mono : ∀ (f k : Nat) (D : Deps κ) r, topoLoop f D = some r → topoLoop (f + k) D = some r := by
      intro f
      induction f with
      | zero => intro k D r h; simp [topoLoop] at h
      | succ f ih =>
        intro k D r h
        rw [Nat.add_right_comm]
        unfold topoLoop at h ⊢
        simp only at h ⊢
        split
        · next hc => rw [if_pos hc] at h; exact h
        · next hc =>
          rw [if_neg hc] at h
          simp only [Option.map_eq_some_iff] at h ⊢
          obtain ⟨a, h1, h2⟩ := h
          exact ⟨a, ih k _ a h1, h2⟩
    obtain ⟨k, hk⟩ := Nat.exists_eq_add_of_le (Nat.le_max_right N (topoFuel data))
    have : toposort (max N (topoFuel data)) data = toposort (topoFuel data) data := by
      rw [hk]
      unfold toposort
      split
      · rfl
      · unfold topoFrom
        obtain ⟨g, r, h1, _⟩ := topoLoop_spec (topoFuel data) (topoStart data) (by unfold topoFuel; omega) (topoStart_nodup hn)
          (topoStart_closed data)
        rw [show discardSelf data ++ (extraItems (discardSelf data)).map (fun d => (d, [])) = topoStart data from rfl, h1,
          mono _ k _ _ h1]
    rw [h1, he] at this
    exact Option.some.inj this
  refine ⟨groups, N, ?_, ?_⟩
  · intro hc fuel hf
    have hne := (stuck_iff_cycle hr).2 hc
    have : rem.isEmpty = false := by simpa using hne
    rw [hN fuel hf, heq, this]
    rfl
  · intro hc fuel hf
    have : rem = [] := by
      refine Classical.byContradiction (fun h => hc ((stuck_iff_cycle hr).1 h))
    rw [hN fuel hf, heq, this]
    rfl

example : toposort 9 [("a", ["b"]), ("b", ["c"]), ("c", ["a"]), ("d", [])] = some ([["d"]], some .cyclicDependency) := by decide
example : DependsTrans [("a", ["b"]), ("b", ["c"]), ("c", ["a"]), ("d", [])] "a" "a" :=
  .step (y := "b") ⟨by decide, ["b"], by decide, by decide⟩
    (.step (y := "c") ⟨by decide, ["c"], by decide, by decide⟩ (.single ⟨by decide, ["a"], by decide, by decide⟩))

/-- **C35, C36, flat**: `toposort_flatten` raises `CyclicDependency` iff some item depends on itself through others; otherwise it lists every item and
mentioned dependency once, each after all the items it depends on. `arrange` is `sorted`, or `list` with the iteration order of the sets. -/
theorem C35_flatten (data : Deps κ) (hn : (data.map (fun kv => kv.1)).Nodup) (arrange : List κ → List κ) (ha : ∀ l, (arrange l).Perm l) :
    ∃ N,
      ((∃ x, DependsTrans data x x) → ∀ fuel, N ≤ fuel → toposortFlatten fuel arrange data = some (.error .cyclicDependency)) ∧
      ((¬ ∃ x, DependsTrans data x x) → ∃ l, (∀ fuel, N ≤ fuel → toposortFlatten fuel arrange data = some (.ok l)) ∧
        l.Nodup ∧ (∀ x, x ∈ l ↔ Mentioned data x) ∧
        (∀ x y, DependsOn data x y → ∃ a b c, l = a ++ y :: b ++ x :: c)) := by
  obtain ⟨groups, N, h1, h2⟩ := C36_toposort_cycles data hn
  obtain ⟨groups', err, N', g0, g1, g2, g3, _, g5, g6⟩ := C35_toposort_groups data hn
  refine ⟨N, fun hc fuel hf => ?_, fun hc => ⟨groups.flatMap arrange, fun fuel hf => ?_, ?_⟩⟩
  · unfold toposortFlatten; rw [h1 hc fuel hf]; rfl
  · unfold toposortFlatten; rw [h2 hc fuel hf]; rfl
  · have heq := (g0 (max N N') (Nat.le_max_right _ _)).symm.trans (h2 hc (max N N') (Nat.le_max_left _ _))
    obtain ⟨rfl, rfl⟩ : groups' = groups ∧ err = none := by simpa using heq
    have hmem : ∀ x, x ∈ groups'.flatMap arrange ↔ ∃ i, InGroup groups' i x := by
      intro x
      rw [List.mem_flatMap]
      constructor
      · rintro ⟨g, hg, hx⟩
        obtain ⟨i, hi, he⟩ := List.mem_iff_getElem.1 hg
        exact ⟨i, g, by rw [List.getElem?_eq_getElem hi, he], (ha g).mem_iff.1 hx⟩
      · rintro ⟨i, g, hg, hx⟩
        exact ⟨g, List.mem_of_getElem? hg, (ha g).mem_iff.2 hx⟩
    refine ⟨?_, ?_, ?_⟩
    · rw [List.Nodup, List.pairwise_flatMap]
      refine ⟨fun g hg => ((ha g).nodup_iff).2 (g1 g hg).1, ?_⟩
      rw [List.pairwise_iff_getElem]
      intro i j hi hj hij x hx y hy he
      subst he
      have := g2 x i j ⟨_, List.getElem?_eq_getElem hi, (ha _).mem_iff.1 hx⟩ ⟨_, List.getElem?_eq_getElem hj, (ha _).mem_iff.1 hy⟩
      omega
    · intro x
      rw [hmem]
      exact ⟨fun ⟨i, hi⟩ => g5 x i hi, g6 rfl x⟩
    · intro x y hd
      obtain ⟨i, hi⟩ := g6 rfl x (by obtain ⟨_, ds, hk, _⟩ := hd; exact ⟨_, hk, Or.inl rfl⟩)
      obtain ⟨j, hji, hj⟩ := g3 x y i hi hd
      obtain ⟨gi, hgi, hxi⟩ := hi
      obtain ⟨gj, hgj, hyj⟩ := hj
      have hsplit : groups' = groups'.take i ++ gi :: groups'.drop (i + 1) := by
        obtain ⟨hlt, he⟩ := List.getElem?_eq_some_iff.1 hgi
        rw [← he, List.getElem_cons_drop, List.take_append_drop]
      have hy : y ∈ (groups'.take i).flatMap arrange := by
        rw [List.mem_flatMap]
        refine ⟨gj, ?_, (ha gj).mem_iff.2 hyj⟩
        refine List.mem_of_getElem? (i := j) ?_
        rw [List.getElem?_take, if_pos hji, hgj]
      obtain ⟨a, b, hab⟩ := List.append_of_mem hy
      obtain ⟨c, d, hcd⟩ := List.append_of_mem ((ha gi).mem_iff.2 hxi)
      refine ⟨a, b ++ c, d ++ (groups'.drop (i + 1)).flatMap arrange, ?_⟩
      have hflat := congrArg (fun l => l.flatMap arrange) hsplit
      simp only [List.flatMap_append, List.flatMap_cons, hab, hcd] at hflat
      rw [hflat]
      simp

example : toposortFlatten 9 (fun l => l.reverse) [("a", ["a", "b", "x"]), ("c", ["a"]), ("b", [])] = some (.ok ["x", "b", "a", "c"]) ∧
    (∀ l : List String, l.reverse.Perm l) := ⟨by rfl, List.reverse_perm⟩

/-- **C37 is false**: a self-dependency is removed from the caller's set. -/
theorem C37_toposort_pure_refuted :
    ∃ (data : List (String × Nat)) (sets : Nat → List String), (toposortStore 9 data sets).1 ≠ sets := by
  refine ⟨[("a", 0)], fun _ => ["a", "b"], ?_⟩
  intro h
  have := congrFun h 0
  revert this
  decide

/-- **C37, partial**: without self-dependency nothing changes, and when every item has its own set object the only change is the
removal of self-dependencies and the outcome is the one of C35, C36. (Missing: purity with self-dependencies, false.) -/
theorem C37_toposort_pure_partial (fuel : Nat) (data : List (κ × Nat)) (sets : Nat → List κ) :
    ((∀ ka ∈ data, ka.1 ∉ sets ka.2) → (toposortStore fuel data sets).1 = sets) ∧
    ((data.map (fun ka => ka.2)).Nodup →
      (∀ i, (∀ ka ∈ data, ka.2 ≠ i) → (toposortStore fuel data sets).1 i = sets i) ∧
      (∀ ka ∈ data, (toposortStore fuel data sets).1 ka.2 = (sets ka.2).filter (fun d => decide (d ≠ ka.1))) ∧
      (toposortStore fuel data sets).2 = toposort fuel (data.map (fun ka => (ka.1, sets ka.2)))) := by
  constructor
  · intro h
    unfold toposortStore
    split
    · rfl
    · simp only
      unfold discardSelfStore
      have : ∀ (data : List (κ × Nat)) (cur : Nat → List κ), cur = sets → (∀ ka ∈ data, ka.1 ∉ sets ka.2) →
          data.foldl (fun sets ka i => if i = ka.2 then (sets i).filter (fun d => decide (d ≠ ka.1)) else sets i) cur = sets := by
        intro data
        induction data with
        | nil => intro cur hc _; exact hc
        | cons ka data ih =>
          intro cur hc hk
          refine ih _ ?_ (fun kb hb => hk kb (List.mem_cons_of_mem _ hb))
          funext i
          simp only [hc]
          split
          · next hi =>
            subst hi
            rw [List.filter_eq_self]
            intro d hd
            simp only [decide_eq_true_eq]
            rintro rfl
            exact hk ka List.mem_cons_self hd
          · rfl
      exact this data sets rfl h
  · intro hn
    unfold toposortStore
    by_cases hd : data.isEmpty = true
    · have : data = [] := by simpa using hd
      subst this
      simp [toposort]
    · rw [if_neg hd]
      refine ⟨fun i hi => discardSelfStore_other data sets i hi, fun ka hka => discardSelfStore_entry data sets hn ka hka, ?_⟩
      unfold toposort
      rw [if_neg (by simpa using hd)]
      show topoFrom fuel _ = topoFrom fuel _
      congr 1
      unfold discardSelf
      rw [List.map_map]
      apply List.map_congr_left
      intro ka hka
      simp only [Function.comp]
      rw [discardSelfStore_entry data sets hn ka hka]

example : (∀ ka ∈ [("a", 0), ("b", 1)], ka.1 ∉ (fun i => if i = 0 then ["b"] else ["c"] : Nat → List String) ka.2) ∧
    (([("a", 0), ("b", 1)] : List (String × Nat)).map (fun ka => ka.2)).Nodup := by decide

end

/-! ## C38 -/

/-- **C38.** `set_defaults(defaults, kwargs, override)`; `base` is `kwargs`, emptied when `defaults` has a true `clear`. The key
`clear` is never set. Without override a key of `base` keeps its value, but a list default is prepended to a list value and a dict
default is merged (recursively, without override) into a dict value; a missing key takes the default. With override default keys
take the default (a dict default replacing a dict loses its own `clear` key). Other keys do not change, the keys of `base` come first and then the new ones in order. -/
theorem C38_set_defaults (defaults kwargs base : KVs) (hn : defaults.keys.Nodup)
    (hclear : (∃ v, defaults.get? "clear" = some v ∧ IsTrueKV v) → base = .nil)
    (hkeep : (¬ ∃ v, defaults.get? "clear" = some v ∧ IsTrueKV v) → base = kwargs) :
    (∀ override, (setDefaults defaults kwargs override).keys =
      base.keys ++ defaults.keys.filter (fun k => decide (k ≠ "clear" ∧ k ∉ base.keys))) ∧
    (∀ override k, (k = "clear" ∨ defaults.get? k = none) → (setDefaults defaults kwargs override).get? k = base.get? k) ∧
    (∀ override k v, k ≠ "clear" → defaults.get? k = some v → base.get? k = none →
      (setDefaults defaults kwargs override).get? k = some v) ∧
    (∀ k v cur, k ≠ "clear" → defaults.get? k = some v → base.get? k = some cur →
      (setDefaults defaults kwargs true).get? k = some (match v, cur with
        | .dict d, .dict _ => .dict (withoutClear d)
        | _, _ => v) ∧
      (setDefaults defaults kwargs false).get? k = some (match v, cur with
        | .list a, .list b => .list (a ++ b)
        | .dict d, .dict e => .dict (setDefaults d e false)
        | _, _ => cur)) := by
  have hb : (if clears defaults then KVs.nil else kwargs) = base := by
    unfold clears
    cases h : defaults.get? "clear" with
    | none => rw [hkeep (by rintro ⟨v, hv, _⟩; rw [h] at hv; cases hv)]; rfl
    | some v =>
      simp only
      by_cases ht : v.truthy = true
      · rw [if_pos ht, hclear ⟨v, h, isTrueKV_iff.1 ht⟩]
      · rw [if_neg ht, hkeep ?_]
        rintro ⟨w, hw, hwt⟩
        rw [h] at hw
        cases hw
        exact ht (isTrueKV_iff.2 hwt)
  have key := fun o k => setDefaultsLoop_get? defaults base o hn k
  have hsd : ∀ o, setDefaults defaults kwargs o = setDefaultsLoop defaults base o := by
    intro o; rw [setDefaults, hb]
  refine ⟨?_, ?_, ?_, ?_⟩
  · intro o; rw [hsd]; exact setDefaultsLoop_keys defaults base o hn
  · intro o k h
    rw [hsd, key]
    rcases h with h | h
    · simp [h]
    · simp [h]
  · intro o k v hk h1 h2
    rw [hsd, key, if_neg hk, h1, h2]
    rfl
  · intro k v cur hk h1 h2
    refine ⟨?_, ?_⟩
    · rw [hsd, key, if_neg hk, h1, h2]
      simp only [withoutClear_eq]
      cases v <;> cases cur <;> rfl
    · rw [hsd, key, if_neg hk, h1, h2]
      simp only [keyResult, Bool.false_eq_true, if_false]
      cases v with
      | val v => simp [mergeValue]
      | list a => cases cur <;> simp [mergeValue]
      | dict d =>
        cases cur with
        | dict e => rw [mergeValue_dict]
        | val _ => simp [mergeValue]
        | list _ => simp [mergeValue]

example : (¬ ∃ v, (KVs.cons "clear" (.list []) .nil).get? "clear" = some v ∧ IsTrueKV v) ∧
    ∃ v, (KVs.cons "clear" (.val (.bool true)) .nil).get? "clear" = some v ∧ IsTrueKV v :=
  ⟨by rintro ⟨v, h, ht⟩; cases h; cases ht with | list h => exact h rfl, ⟨_, rfl, .val .bool⟩⟩

example : let defaults : KVs := .cons "a" (.dict (.cons "x" (.val (.int 1)) .nil)) (.cons "tags" (.list [.int 1]) (.cons "new" (.val (.int 2)) .nil))
    let kwargs : KVs := .cons "tags" (.list [.int 5]) (.cons "a" (.dict (.cons "y" (.val (.int 7)) .nil)) .nil)
    defaults.keys.Nodup ∧ setDefaults defaults kwargs false =
      .cons "tags" (.list [.int 1, .int 5]) (.cons "a" (.dict (.cons "y" (.val (.int 7)) (.cons "x" (.val (.int 1)) .nil)))
        (.cons "new" (.val (.int 2)) .nil)) := by
  refine ⟨by decide, by rfl⟩

/-! ## C40 -/

/-- **C40 is false**: a keyword-only parameter is not passed; and a function with `**kwargs` receives an `ignore_unused` that the
caller did not give. -/
theorem C40_call_refuted :
    (∃ (spec : ArgSpec) (kwargs : Dict String Nat), "b" ∈ spec.kwonly ∧ kwargs.get? "b" = some 1 ∧
      (callArgs spec false 0 [] kwargs).2.get? "b" = none) ∧
    (∃ (spec : ArgSpec) (kwargs : Dict String Nat), kwargs.get? "ignore_unused" = none ∧
      (callArgs spec false 0 [] kwargs).2.get? "ignore_unused" ≠ none) :=
  ⟨⟨{ args := ["a"], varargs := false, varkw := false, kwonly := ["b"] }, [("b", 1)], by decide⟩, ⟨{ args := [], varargs := false, varkw := true, kwonly := [] }, [], by decide⟩⟩

/-- **C40, partial**: without keyword-only parameters and without a parameter named `ignore_unused`, for a function (`k = 0`) or a
class whose signature counts `self` (`k = 1`): the positional arguments are all of them with `*args`, else the longest prefix that
fits; the keywords are, without `**kwargs`, exactly the given ones naming parameters, and with `**kwargs` all the given ones and
`ignore_unused=True`. (Missing: keyword-only parameters and `ignore_unused`.) -/
theorem C40_call_partial {α : Type} (spec : ArgSpec) (isClass : Bool) (true_ : α) (args : List α) (kwargs : Dict String α)
    (hself : isClass = true → spec.args ≠ []) (hi : "ignore_unused" ∉ spec.args) :
    let room := spec.args.length - (if isClass then 1 else 0)
    let passed := callArgs spec isClass true_ args kwargs
    (spec.varargs = true → passed.1 = args) ∧
    (spec.varargs = false → passed.1 = args.take room ∧ passed.1.length ≤ room) ∧
    (spec.varkw = false → (∀ kv, kv ∈ passed.2 ↔ kv ∈ kwargs ∧ kv.1 ∈ spec.args) ∧ passed.2.Sublist kwargs) ∧
    (spec.varkw = true → passed.2 = ("ignore_unused", true_) :: kwargs) := by
  intro room passed
  refine ⟨?_, ?_, ?_, ?_⟩
  · intro h; simp [passed, callArgs, argspecArgs, h]
  · intro h
    have hroom : ((spec.args.length : Int) - (if isClass then 1 else 0)) = (room : Int) := by
      cases isClass with
      | false => simp [room]
      | true =>
        have : 0 < spec.args.length := List.length_pos_iff.2 (hself rfl)
        simp only [room, if_true]; omega
    have he : passed.1 = args.take room := by
      simp only [passed, callArgs, argspecArgs, h, Bool.false_eq_true, if_false]
      rw [hroom]
      unfold pySlice clampIdx
      simp only
      rw [if_neg (by omega)]
      simp [← List.take_eq_take_min]
    rw [he]
    exact ⟨rfl, by rw [List.length_take]; omega⟩
  · intro h
    have he : passed.2 = kwargs.filter (fun kv => spec.args.contains kv.1) := by
      simp only [passed, callArgs, argspecArgs, h, Bool.false_eq_true, if_false]
      rw [List.filter_cons, if_neg (by simpa using hi)]
    rw [he]
    refine ⟨?_, List.filter_sublist⟩
    intro kv; rw [List.mem_filter]; simp
  · intro h; simp [passed, callArgs, argspecArgs, h]

example : let spec : ArgSpec := { args := ["a", "b"], varargs := false, varkw := false, kwonly := [] }
    "ignore_unused" ∉ spec.args ∧ callArgs spec false 1 [10, 11, 12] [("b", 5), ("zz", 6)] = ([10, 11], [("b", 5)]) := by decide

/-! ## C41 -/

/-- **C41.** For a span inside the input: `chars_before` accepts iff the match starts the input or the character before it is in
the set, `chars_after` iff it ends the input or the character after it is in the set, `chars_surround` iff both accept;
`validators` is the conjunction and `formatters` the composition of its arguments, first to last. -/
theorem C41_validators_formatters (chars input : Str) (m : Match) (h0 : 0 ≤ m.start) (h1 : m.start ≤ m.stop)
    (h2 : m.stop ≤ (input.length : Int)) :
    (∃ b, charsBefore chars m input = .ok b ∧ (b = true ↔ m.start = 0 ∨ ∃ c ∈ chars, input[(m.start - 1).toNat]? = some c)) ∧
    (∃ b, charsAfter chars m input = .ok b ∧ (b = true ↔ m.stop = input.length ∨ ∃ c ∈ chars, input[m.stop.toNat]? = some c)) ∧
    (∃ b, charsSurround chars m input = .ok b ∧
      (b = true ↔ charsBefore chars m input = .ok true ∧ charsAfter chars m input = .ok true)) ∧
    (∀ vs : List (Match → Bool), validators vs m = true ↔ ∀ v ∈ vs, v m = true) ∧
    (∀ v, formatters [] v = v) ∧ (∀ f fs v, formatters (f :: fs) v = formatters fs (f v)) := by
  have hb : ∃ b, charsBefore chars m input = .ok b ∧
      (b = true ↔ m.start = 0 ∨ ∃ c ∈ chars, input[(m.start - 1).toNat]? = some c) := by
    unfold charsBefore
    by_cases h : m.start ≤ 0
    · rw [if_pos h]; exact ⟨true, rfl, by simp; left; omega⟩
    · rw [if_neg h]
      have hg : pyGet input (m.start - 1) = input[(m.start - 1).toNat]? := by
        unfold pyGet normIdx
        rw [if_pos (by omega), if_pos (by omega)]
      rw [hg, List.getElem?_eq_getElem (by omega)]
      refine ⟨_, rfl, ?_⟩
      rw [List.contains_iff_mem]
      constructor
      · intro hc; exact Or.inr ⟨_, hc, rfl⟩
      · rintro (hc | ⟨c, hc, he⟩)
        · omega
        · cases he; exact hc
  have ha : ∃ b, charsAfter chars m input = .ok b ∧
      (b = true ↔ m.stop = input.length ∨ ∃ c ∈ chars, input[m.stop.toNat]? = some c) := by
    unfold charsAfter
    by_cases h : m.stop ≥ (input.length : Int)
    · rw [if_pos h]; exact ⟨true, rfl, by simp; left; omega⟩
    · rw [if_neg h]
      have hg : pyGet input m.stop = input[m.stop.toNat]? := by
        unfold pyGet normIdx
        rw [if_pos (by omega), if_pos (by omega)]
      rw [hg, List.getElem?_eq_getElem (by omega)]
      refine ⟨_, rfl, ?_⟩
      rw [List.contains_iff_mem]
      constructor
      · intro hc; exact Or.inr ⟨_, hc, rfl⟩
      · rintro (hc | ⟨c, hc, he⟩)
        · omega
        · cases he; exact hc
  refine ⟨hb, ha, ?_, ?_, fun _ => rfl, fun _ _ _ => rfl⟩
  · obtain ⟨b, hb, _⟩ := hb
    obtain ⟨a, ha, _⟩ := ha
    unfold charsSurround
    cases b with
    | true => simp only [hb, ha]; exact ⟨a, rfl, by simp⟩
    | false => simp only [hb]; exact ⟨false, rfl, by simp⟩
  · intro vs; simp [validators]

example : charsSurround " .".toList (mk 1 3) "-ab.".toList = .ok false ∧ charsSurround " .".toList (mk 0 3) "zab.".toList = .ok true ∧
    charsAfter "".toList (mk 2 4) "zab.".toList = .ok true := ⟨rfl, rfl, rfl⟩

end Rebulk
