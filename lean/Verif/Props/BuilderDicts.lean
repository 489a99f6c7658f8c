import Verif.Spec.BuilderDicts
import Verif.Props.BuilderOptions
/-!
# Dict-valued options meeting dict-valued defaults (`C101`)
-/
namespace Rebulk
open Spec

/-- The option is that dict object. -/
def RefAt (d : HDict) (key : String) (x : Nat) : Prop := d.get? key = some (.ref x)

theorem Spec.FlatDict.good {d : HDict} (h : FlatDict d) : Good d := ⟨h.1, h.2.1⟩

theorem combine_noref {u v : Option HV} (hu : ∀ x, u ≠ some (.ref x)) (hv : ∀ x, v ≠ some (.ref x)) (x : Nat) : combine u v ≠ some (.ref x) := by
  intro h
  cases u with
  | none => rw [combine_none] at h; exact hv x h
  | some u =>
    cases v with
    | none => cases u <;> simp [combine] at h; exact hu x (by rw [h])
    | some v => cases u <;> cases v <;> simp [combine] at h <;> exact hv x (by rw [h])

/-- Merging a flat dict into another. -/
theorem setDefaultsH_flat {fuel : Nat} {x y : Addr} {h h' : DHeap} (hxy : x ≠ y) (hx : x < h.length) (hy : y < h.length)
    (fx : FlatDict (h.at_ x)) (fy : FlatDict (h.at_ y)) (he : setDefaultsH fuel x y false h = some h') :
    Frame h h' y ∧ FlatDict (h'.at_ y) ∧ ∀ n, (h'.at_ y).get? n = combine ((h.at_ x).get? n) ((h.at_ y).get? n) := by
  have hsh : ∀ key, ¬ (DictOption (h.at_ x) key ∧ DictOption (h.at_ y) key) := fun key hc => by
    obtain ⟨a, ha⟩ := hc.1
    exact fx.2.2 key a ha
  have f := setDefaultsH_frame (o := false) hxy fx.good hsh he
  have g := setDefaultsH_get hxy hy hx fx.1 hsh he
  have k := setDefaultsH_keeps _ _ _ _ _ _ he
  have hn : (h.at_ x).get? "clear" = none := (Dict.get?_eq_none_iff _ _).2 fx.2.1
  have g' : ∀ n, (h'.at_ y).get? n = combine ((h.at_ x).get? n) ((h.at_ y).get? n) := by
    intro n
    have hnc : ¬ ∃ v, (h.at_ x).get? "clear" = some v ∧ v.truthy h = true := by
      rintro ⟨v, hv, _⟩
      rw [hn] at hv; cases hv
    rw [g n, if_neg hnc]
    by_cases e : n = "clear"
    · subst e; rw [if_pos rfl, hn]; rfl
    · rw [if_neg e]; rfl
  have hg := k.2 y fy.good
  refine ⟨f.1, ⟨hg.1, hg.2, ?_⟩, g'⟩
  intro n a
  rw [g']
  exact combine_noref (fx.2.2 n) (fy.2.2 n) a

theorem combine_ref {u v : Option HV} {y : Nat} (h : combine u v = some (.ref y)) :
    v = some (.ref y) ∨ (v = none ∧ u = some (.ref y)) := by
  cases v with
  | none =>
    right
    refine ⟨rfl, ?_⟩
    cases u with
    | none => cases h
    | some u => cases u <;> simpa [combine] using h
  | some v =>
    left
    cases u with
    | none => exact h
    | some u => cases u <;> cases v <;> simp [combine] at h ⊢ <;> exact h

theorem optionAfter_ref {o : Bool} {u v : Option HV} {y : Nat} (h : optionAfter o u v = some (.ref y)) : v = some (.ref y) ∨ u = some (.ref y) := by
  cases o with
  | true =>
    cases u with
    | none => exact Or.inl h
    | some u => exact Or.inr h
  | false =>
    rcases combine_ref (u := u) (v := v) h with h | h
    · exact Or.inl h
    · exact Or.inr h.2

/-- One key. -/
theorem defaultKeyH_merge {fuel : Nat} {d k : Addr} {o : Bool} {h h' : DHeap} {key : String} (hdk : d ≠ k) (hk : k < h.length)
    (h1 : ∀ x, RefAt (h.at_ d) key x → x < h.length ∧ FlatDict (h.at_ x))
    (h2 : ∀ y, RefAt (h.at_ k) key y → y < h.length ∧ y ≠ d ∧ y ≠ k ∧ FlatDict (h.at_ y))
    (h3 : ∀ x y, RefAt (h.at_ d) key x → RefAt (h.at_ k) key y → x ≠ y)
    (he : defaultKeyH (fun d e h => setDefaultsH fuel d e false h) d k o h key = some h') :
    h'.length = h.length ∧
    (∀ x, (h'.at_ k).get? x = if x = key then optionAfter o ((h.at_ d).get? key) ((h.at_ k).get? key) else (h.at_ k).get? x) ∧
    (∀ a, a ≠ k → ¬ (RefAt (h.at_ k) key a ∧ ∃ x, RefAt (h.at_ d) key x) → h'[a]? = h[a]?) ∧
    (∀ x y, RefAt (h.at_ d) key x → RefAt (h.at_ k) key y → FlatDict (h'.at_ y) ∧
      ∀ n, (h'.at_ y).get? n = combine ((h.at_ x).get? n) ((h.at_ y).get? n)) := by
  by_cases hsh : DictOption (h.at_ d) key ∧ DictOption (h.at_ k) key
  · obtain ⟨⟨x, hx⟩, y, hy⟩ := hsh
    unfold defaultKeyH at he
    rw [hx, hy] at he
    simp only [Option.map_eq_some_iff] at he
    obtain ⟨g, e1, e2⟩ := he
    obtain ⟨y1, y2, y3, y4⟩ := h2 y hy
    obtain ⟨x1, x2⟩ := h1 x hx
    obtain ⟨f1, f2, f3⟩ := setDefaultsH_flat (h3 x y hx hy) x1 y1 x2 y4 e1
    have hgk : g.at_ k = h.at_ k := DHeap.at_congr (f1.2 k (fun e => y3 e.symm))
    have hF : h'.length = h.length ∧ (∀ a, a ≠ k → h'[a]? = g[a]?) ∧
        ∀ n, (h'.at_ k).get? n = if n = key then optionAfter o (some (.ref x)) (some (.ref y)) else (h.at_ k).get? n := by
      subst e2
      cases o with
      | true =>
        rw [if_pos rfl]
        refine ⟨(DHeap.length_put _ _ _).trans f1.1, fun a ha => (Frame.put g k _).2 a ha, fun n => ?_⟩
        rw [at_put_self (by rw [f1.1]; exact hk), Dict.get?_set, hgk]
        by_cases e : n = key
        · rw [if_pos e, if_pos e.symm]; rfl
        · rw [if_neg e, if_neg (fun h => e h.symm)]
      | false =>
        rw [if_neg (by simp)]
        refine ⟨f1.1, fun _ _ => rfl, fun n => ?_⟩
        rw [hgk]
        by_cases e : n = key
        · rw [if_pos e, e, hy]; rfl
        · rw [if_neg e]
    refine ⟨hF.1, ?_, ?_, ?_⟩
    · rw [hx, hy]; exact hF.2.2
    · intro a hak ha
      rw [hF.2.1 a hak]
      exact f1.2 a (fun e => ha ⟨e ▸ hy, x, hx⟩)
    · intro x' y' hx' hy'
      unfold RefAt at hx' hy'
      rw [hx] at hx'; rw [hy] at hy'
      simp only [Option.some.injEq, HV.ref.injEq] at hx' hy'
      subst hx'; subst hy'
      rw [DHeap.at_congr (hF.2.1 y y3)]
      exact ⟨f2, f3⟩
  · have hno : ∀ x y, RefAt (h.at_ d) key x → RefAt (h.at_ k) key y → False := fun x y hx hy => hsh ⟨⟨x, hx⟩, y, hy⟩
    obtain ⟨l, _, gq⟩ := defaultKeyH_get hdk hk hsh he
    refine ⟨l, gq, ?_, fun x y hx hy => (hno x y hx hy).elim⟩
    intro a ha _
    have hput : ∀ (e : HDict), (h.put k e)[a]? = h[a]? := fun e => (Frame.put h k e).2 a ha
    unfold defaultKeyH at he
    cases hd : (h.at_ d).get? key with
    | none => rw [hd] at he; cases he; rfl
    | some v =>
      rw [hd] at he
      simp only at he
      cases hc : (h.at_ k).get? key with
      | none => rw [hc] at he; cases he; exact hput _
      | some cur =>
        rw [hc] at he
        simp only [Option.map_eq_some_iff] at he
        obtain ⟨g, e3, e4⟩ := he
        have hlast : h'[a]? = g[a]? := by
          rw [← e4]
          cases o with
          | true => rw [if_pos rfl]; exact (Frame.put g k _).2 a ha
          | false => rw [if_neg (by simp)]
        rw [hlast]
        cases v with
        | atom v => simp only [Option.some.injEq] at e3; rw [← e3]
        | list l =>
          cases cur with
          | list b => simp only [Option.some.injEq] at e3; subst e3; exact hput _
          | atom _ => simp only [Option.some.injEq] at e3; rw [← e3]
          | ref _ => simp only [Option.some.injEq] at e3; rw [← e3]
        | ref b =>
          cases cur with
          | ref c => exact (hno b c hd hc).elim
          | atom _ => simp only [Option.some.injEq] at e3; rw [← e3]
          | list _ => simp only [Option.some.injEq] at e3; rw [← e3]

/-- The loop. -/
theorem defaultLoop_merge {fuel : Nat} {d k : Addr} {o : Bool} (hdk : d ≠ k) (ks : List String) (hn : ks.Nodup) : ∀ {h h' : DHeap}, k < h.length →
    (∀ key ∈ ks, ∀ x, RefAt (h.at_ d) key x → x < h.length ∧ x ≠ k ∧ FlatDict (h.at_ x)) →
    (∀ key ∈ ks, ∀ y, RefAt (h.at_ k) key y → y < h.length ∧ y ≠ d ∧ y ≠ k ∧ FlatDict (h.at_ y)) →
    (∀ key ∈ ks, ∀ key' x y, RefAt (h.at_ d) key x → RefAt (h.at_ k) key' y → x ≠ y) →
    (∀ key ∈ ks, ∀ key' y, RefAt (h.at_ k) key y → RefAt (h.at_ k) key' y → key = key') →
    (∀ key key' x, RefAt (h.at_ d) key x → RefAt (h.at_ d) key' x → key = key') →
    ks.foldlM (defaultKeyH (fun d e h => setDefaultsH fuel d e false h) d k o) h = some h' →
    h'.length = h.length ∧
    (∀ x, (h'.at_ k).get? x = if x ∈ ks then optionAfter o ((h.at_ d).get? x) ((h.at_ k).get? x) else (h.at_ k).get? x) ∧
    (∀ a, a ≠ k → (∀ key ∈ ks, ¬ (RefAt (h.at_ k) key a ∧ ∃ x, RefAt (h.at_ d) key x)) → h'[a]? = h[a]?) ∧
    (∀ key ∈ ks, ∀ x y, RefAt (h.at_ d) key x → RefAt (h.at_ k) key y → FlatDict (h'.at_ y) ∧
      ∀ n, (h'.at_ y).get? n = combine ((h.at_ x).get? n) ((h.at_ y).get? n)) := by
  induction ks with
  | nil =>
    intro h h' hk _ _ _ _ _ he
    simp only [List.foldlM_nil, pure, Option.some.injEq] at he; subst he
    exact ⟨rfl, fun x => by rw [if_neg (by simp)], fun _ _ _ => rfl, by simp⟩
  | cons key ks ih =>
    intro h h' hk H1 H2 H3 H4 H5 he
    simp only [List.foldlM_cons, bind, Option.bind_eq_some_iff] at he
    obtain ⟨g, e1, e2⟩ := he
    obtain ⟨hnk, hn⟩ := List.nodup_cons.1 hn
    have hne : ∀ x ∈ ks, x ≠ key := fun x hx e => hnk (e ▸ hx)
    have mem : ∀ x ∈ ks, x ∈ key :: ks := fun x hx => List.mem_cons_of_mem _ hx
    have k0 : key ∈ key :: ks := List.mem_cons_self
    obtain ⟨l1, c1, f1, m1⟩ := defaultKeyH_merge hdk hk (fun x hx => ⟨(H1 key k0 x hx).1, (H1 key k0 x hx).2.2⟩) (H2 key k0)
      (fun x y => H3 key k0 key x y) e1
    -- `d` is unchanged
    have hd : g.at_ d = h.at_ d := DHeap.at_congr (f1 d hdk (fun hc => (H2 key k0 d hc.1).2.1 rfl))
    have rk : ∀ x ∈ ks, ∀ y, RefAt (g.at_ k) x y ↔ RefAt (h.at_ k) x y := by
      intro x hx y; unfold RefAt; rw [c1, if_neg (hne x hx)]
    have rkey : ∀ y, RefAt (g.at_ k) key y → RefAt (h.at_ k) key y ∨ RefAt (h.at_ d) key y := by
      intro y hy
      unfold RefAt at hy ⊢
      rw [c1, if_pos rfl] at hy
      rcases optionAfter_ref hy with hy | hy
      · exact Or.inl hy
      · exact Or.inr hy
    have same : ∀ a, a ≠ k → (∀ y, RefAt (h.at_ k) key y → a ≠ y) → g.at_ a = h.at_ a := fun a ha hy =>
      DHeap.at_congr (f1 a ha (fun hc => hy a hc.1 rfl))
    have key2y : ∀ x ∈ ks, ∀ y, RefAt (h.at_ k) x y → ∀ z, RefAt (h.at_ k) key z → y ≠ z := by
      intro x hx y hy z hz e
      subst e
      exact hne x hx (H4 x (mem x hx) key y hy hz)
    obtain ⟨l2, c2, f2, m2⟩ := ih hn (h := g) (h' := h') (by rw [l1]; exact hk)
      (by
        intro x hx a ha
        rw [hd] at ha
        obtain ⟨q1, q2, q3⟩ := H1 x (mem x hx) a ha
        rw [l1]
        refine ⟨q1, q2, ?_⟩
        rw [same a q2 (fun y hy => H3 x (mem x hx) key a y ha hy)]
        exact q3)
      (by
        intro x hx y hy
        rw [rk x hx] at hy
        obtain ⟨q1, q2, q3, q4⟩ := H2 x (mem x hx) y hy
        rw [l1]
        refine ⟨q1, q2, q3, ?_⟩
        rw [same y q3 (key2y x hx y hy)]
        exact q4)
      (by
        intro x hx key' a y ha hy
        rw [hd] at ha
        by_cases e : key' = key
        · subst e
          rcases rkey y hy with hy | hy
          · exact H3 x (mem x hx) _ a y ha hy
          · intro e; subst e
            exact hne x hx (H5 x _ a ha hy)
        · unfold RefAt at hy
          rw [c1, if_neg e] at hy
          exact H3 x (mem x hx) key' a y ha hy)
      (by
        intro x hx key' y hy hy'
        rw [rk x hx] at hy
        by_cases e : key' = key
        · subst e
          rcases rkey y hy' with hy' | hy'
          · exact H4 x (mem x hx) _ y hy hy'
          · exact absurd rfl (H3 _ k0 x y y hy' hy)
        · unfold RefAt at hy'
          rw [c1, if_neg e] at hy'
          exact H4 x (mem x hx) key' y hy hy')
      (by rw [hd]; exact H5) e2
    refine ⟨l2.trans l1, ?_, ?_, ?_⟩
    · intro x
      rw [c2 x, hd]
      by_cases hx : x = key
      · subst hx
        rw [if_neg hnk, if_pos k0, c1, if_pos rfl]
      · rw [c1 x, if_neg hx]
        by_cases hm : x ∈ ks
        · rw [if_pos hm, if_pos (mem x hm)]
        · rw [if_neg hm, if_neg (by simp [hx, hm])]
    · intro a ha hc
      rw [f2 a ha, f1 a ha (hc key k0)]
      intro x hx hr
      rw [rk x hx, hd] at hr
      exact hc x (mem x hx) hr
    · intro x hx a y ha hy
      rcases List.mem_cons.1 hx with rfl | hx
      · -- merged now, unchanged later
        have hyk := (H2 _ k0 y hy).2.2.1
        have : h'.at_ y = g.at_ y := DHeap.at_congr (f2 y hyk (by
          intro z hz hr
          rw [rk z hz] at hr
          exact hne z hz (H4 z (mem z hz) _ y hr.1 hy)))
        rw [this]
        exact m1 a y ha hy
      · obtain ⟨q1, q2⟩ := m2 x hx a y (by rw [hd]; exact ha) ((rk x hx y).2 hy)
        refine ⟨q1, fun n => ?_⟩
        rw [q2 n, same a (H1 x (mem x hx) a ha).2.1 (fun z hz => H3 x (mem x hx) key a z ha hz),
          same y (H2 x (mem x hx) y hy).2.2.1 (key2y x hx y hy)]

/-- `set_defaults`, the dicts being separate. -/
theorem setDefaultsH_merge' {fuel : Nat} {d k : Addr} {o : Bool} {h h' : DHeap} (hdk : d ≠ k) (hk : k < h.length) (hg : Good (h.at_ d))
    (H1 : ∀ key x, RefAt (h.at_ d) key x → x < h.length ∧ x ≠ k ∧ FlatDict (h.at_ x))
    (H2 : ∀ key y, RefAt (h.at_ k) key y → y < h.length ∧ y ≠ d ∧ y ≠ k ∧ FlatDict (h.at_ y))
    (H3 : ∀ key key' x y, RefAt (h.at_ d) key x → RefAt (h.at_ k) key' y → x ≠ y)
    (H4 : ∀ key key' y, RefAt (h.at_ k) key y → RefAt (h.at_ k) key' y → key = key')
    (H5 : ∀ key key' x, RefAt (h.at_ d) key x → RefAt (h.at_ d) key' x → key = key')
    (he : setDefaultsH fuel d k o h = some h') :
    h'.length = h.length ∧
    (∀ x, (h'.at_ k).get? x = optionAfter o ((h.at_ d).get? x) ((h.at_ k).get? x)) ∧
    (∀ a, a ≠ k → (∀ key, ¬ (RefAt (h.at_ k) key a ∧ ∃ x, RefAt (h.at_ d) key x)) → h'[a]? = h[a]?) ∧
    (∀ key x y, RefAt (h.at_ d) key x → RefAt (h.at_ k) key y → FlatDict (h'.at_ y) ∧
      ∀ n, (h'.at_ y).get? n = combine ((h.at_ x).get? n) ((h.at_ y).get? n)) := by
  cases fuel with
  | zero => simp [setDefaultsH] at he
  | succ fuel =>
    unfold setDefaultsH at he
    simp only [popClear_good hg.2, Bool.false_eq_true, if_false] at he
    obtain ⟨l, c, f, m⟩ := defaultLoop_merge hdk _ hg.1 hk (fun key _ => H1 key) (fun key _ => H2 key) (fun key _ => H3 key)
      (fun key _ => H4 key) H5 he
    have hmem : ∀ key x, RefAt (h.at_ d) key x → key ∈ (h.at_ d).keys := by
      intro key x hx
      apply Classical.byContradiction
      intro hn
      unfold RefAt at hx
      rw [(Dict.get?_eq_none_iff _ _).2 hn] at hx
      cases hx
    refine ⟨l, ?_, ?_, ?_⟩
    · intro x
      rw [c x]
      by_cases hx : x ∈ (h.at_ d).keys
      · rw [if_pos hx]
      · rw [if_neg hx, (Dict.get?_eq_none_iff _ _).2 hx]
        unfold optionAfter
        rw [combine_none]
        cases o <;> simp
    · exact fun a ha hc => f a ha (fun key _ => hc key)
    · exact fun key x y hx hy => m key (hmem key x hx) x y hx hy

/-- `set_defaults` without `override`. -/
theorem setDefaultsH_merge {fuel : Nat} {d k : Addr} {h h' : DHeap} (hdk : d ≠ k) (hk : k < h.length) (hg : Good (h.at_ d))
    (H1 : ∀ key x, RefAt (h.at_ d) key x → x < h.length ∧ x ≠ k ∧ FlatDict (h.at_ x))
    (H2 : ∀ key y, RefAt (h.at_ k) key y → y < h.length ∧ y ≠ d ∧ y ≠ k ∧ FlatDict (h.at_ y))
    (H3 : ∀ key key' x y, RefAt (h.at_ d) key x → RefAt (h.at_ k) key' y → x ≠ y)
    (H4 : ∀ key key' y, RefAt (h.at_ k) key y → RefAt (h.at_ k) key' y → key = key')
    (H5 : ∀ key key' x, RefAt (h.at_ d) key x → RefAt (h.at_ d) key' x → key = key')
    (he : setDefaultsH fuel d k false h = some h') :
    h'.length = h.length ∧
    (∀ x, (h'.at_ k).get? x = combine ((h.at_ d).get? x) ((h.at_ k).get? x)) ∧
    (∀ a, a ≠ k → (∀ key, ¬ (RefAt (h.at_ k) key a ∧ ∃ x, RefAt (h.at_ d) key x)) → h'[a]? = h[a]?) ∧
    (∀ key x y, RefAt (h.at_ d) key x → RefAt (h.at_ k) key y → FlatDict (h'.at_ y) ∧
      ∀ n, (h'.at_ y).get? n = combine ((h.at_ x).get? n) ((h.at_ y).get? n)) :=
  setDefaultsH_merge' hdk hk hg H1 H2 H3 H4 H5 he

/-! ## Building -/

theorem refAt_mem {d : HDict} {key : String} {x : Nat} (h : RefAt d key x) : (key, HV.ref x) ∈ d := by
  unfold RefAt at h
  induction d with
  | nil => cases h
  | cons kv d ih =>
    obtain ⟨k', v⟩ := kv
    simp only [Dict.get?] at h
    by_cases hk : (k' == key) = true
    · rw [if_pos hk] at h
      have : k' = key := by simpa using hk
      cases h
      rw [this]
      exact List.mem_cons_self
    · rw [if_neg hk] at h
      exact List.mem_cons_of_mem _ (ih h)

theorem mem_dictsIn {d : HDict} {key : String} {x : Nat} (h : RefAt d key x) : x ∈ dictsIn d :=
  List.mem_filterMap.2 ⟨_, refAt_mem h, rfl⟩

theorem mem_unique {d : HDict} (hn : (dictsIn d).Nodup) {key key' : String} {x : Nat} (h : (key, HV.ref x) ∈ d) (h' : (key', HV.ref x) ∈ d) :
    key = key' := by
  induction d with
  | nil => cases h
  | cons kv d ih =>
    have hin : ∀ {n : String}, (n, HV.ref x) ∈ d → x ∈ dictsIn d := fun hm => List.mem_filterMap.2 ⟨_, hm, rfl⟩
    have hn' : (dictsIn d).Nodup := by
      unfold dictsIn at hn
      rw [List.filterMap_cons] at hn
      split at hn
      · exact hn
      · exact (List.nodup_cons.1 hn).2
    have hnew : ∀ {n : String}, kv = (n, HV.ref x) → x ∉ dictsIn d := by
      intro n e
      subst e
      unfold dictsIn at hn
      rw [List.filterMap_cons] at hn
      exact (List.nodup_cons.1 hn).1
    rcases List.mem_cons.1 h with h | h
    · rcases List.mem_cons.1 h' with h' | h'
      · rw [← h'] at h
        exact congrArg Prod.fst h
      · exact absurd (hin h') (hnew h.symm)
    · rcases List.mem_cons.1 h' with h' | h'
      · exact absurd (hin h) (hnew h'.symm)
      · exact ih hn' h h'

theorem refAt_unique {d : HDict} (hn : (dictsIn d).Nodup) {key key' : String} {x : Nat} (h : RefAt d key x) (h' : RefAt d key' x) : key = key' :=
  mem_unique hn (refAt_mem h) (refAt_mem h')

theorem combine_right_none (u : Option HV) : combine u none = u := by
  cases u with
  | none => rfl
  | some u => cases u <;> rfl

theorem expandFold_frame (expand : List Val → HV → HV) (ab : Option HV) (a : Nat) : ∀ (args : List HV) (h : DHeap), HV.ref a ∉ args →
    (args.foldl (expandPatternDict expand ab) h)[a]? = h[a]?
  | [], _, _ => rfl
  | arg :: args, h, hn => by
    rw [List.foldl_cons, expandFold_frame expand ab a args _ (fun hm => hn (List.mem_cons_of_mem _ hm))]
    have harg : arg ≠ .ref a := fun e => hn (by simp [e])
    unfold expandPatternDict
    split
    · next b =>
      split
      · exact (Frame.put h b _).2 a (fun e => harg (by rw [e]))
      · rfl
    · rfl

theorem expandFold_length (expand : List Val → HV → HV) (ab : Option HV) (args : List HV) (h : DHeap) :
    (args.foldl (expandPatternDict expand ab) h).length = h.length := (expandFold_keeps expand ab args h).1

/-- The dict objects among the options are separate (`SeparateDicts`, `SeparateArgs`). -/
structure RefSep (h : DHeap) (given : HDict) (f : Factory) (slot : Slot) (args : List HV) : Prop where
  uv : ∀ {key key' : String} {y : Nat}, RefAt given key y → RefAt given key' y → key = key'
  uk : ∀ {key key' : String} {y : Nat}, RefAt (h.at_ (f.slot slot)) key y → RefAt (h.at_ (f.slot slot)) key' y → key = key'
  ug : ∀ {key key' : String} {y : Nat}, RefAt (h.at_ f.base) key y → RefAt (h.at_ f.base) key' y → key = key'
  vk : ∀ {n m : String} {x y : Nat}, RefAt (h.at_ (f.slot slot)) n x → RefAt given m y → x ≠ y
  vg : ∀ {n m : String} {x y : Nat}, RefAt (h.at_ f.base) n x → RefAt given m y → x ≠ y
  kg : ∀ {n m : String} {x y : Nat}, RefAt (h.at_ f.base) n x → RefAt (h.at_ (f.slot slot)) m y → x ≠ y
  pV : ∀ (key : String) (y : Nat), RefAt given key y → y < h.length ∧ y ≠ f.slot slot ∧ y ≠ f.base ∧ FlatDict (h.at_ y)
  pK : ∀ (key : String) (y : Nat), RefAt (h.at_ (f.slot slot)) key y → y < h.length ∧ y ≠ f.slot slot ∧ y ≠ f.base ∧ FlatDict (h.at_ y)
  pG : ∀ (key : String) (y : Nat), RefAt (h.at_ f.base) key y → y < h.length ∧ y ≠ f.slot slot ∧ y ≠ f.base ∧ FlatDict (h.at_ y)
  args : ∀ a, HV.ref a ∈ args → a < h.length ∧ ∀ key, ¬ RefAt given key a ∧ ¬ RefAt (h.at_ (f.slot slot)) key a ∧ ¬ RefAt (h.at_ f.base) key a

theorem RefSep.of {h : DHeap} {given : HDict} {f : Factory} {slot : Slot} {args : List HV} (hsep : SeparateDicts h given f slot)
    (hr : SeparateArgs h given f slot args) : RefSep h given f slot args := by
  obtain ⟨hdiff, hplain⟩ := hsep
  obtain ⟨dv, dkg, dvkg⟩ := List.nodup_append.1 hdiff
  obtain ⟨dk, dg, dkg'⟩ := List.nodup_append.1 dkg
  exact {
    uv := refAt_unique dv
    uk := refAt_unique dk
    ug := refAt_unique dg
    vk := fun hx hy e => dvkg _ (mem_dictsIn hy) _ (List.mem_append_left _ (mem_dictsIn hx)) e.symm
    vg := fun hx hy e => dvkg _ (mem_dictsIn hy) _ (List.mem_append_right _ (mem_dictsIn hx)) e.symm
    kg := fun hx hy e => dkg' _ (mem_dictsIn hy) _ (mem_dictsIn hx) e.symm
    pV := fun key y hy => hplain y (List.mem_append_left _ (mem_dictsIn hy))
    pK := fun key y hy => hplain y (List.mem_append_right _ (List.mem_append_left _ (mem_dictsIn hy)))
    pG := fun key y hy => hplain y (List.mem_append_right _ (List.mem_append_right _ (mem_dictsIn hy)))
    args := fun a ha => ⟨(hr a ha).1, fun key =>
      ⟨fun hk => (hr a ha).2 (List.mem_append_left _ (mem_dictsIn hk)),
       fun hk => (hr a ha).2 (List.mem_append_right _ (List.mem_append_left _ (mem_dictsIn hk))),
       fun hk => (hr a ha).2 (List.mem_append_right _ (List.mem_append_right _ (mem_dictsIn hk)))⟩⟩ }

theorem buildPattern_dicts {expand : List Val → HV → HV} {fuel : Nat} {f : Factory} {slot : Slot} {args : List HV} {kw : HDict}
    {h : DHeap} {r : DHeap × PatCfg} (e : buildPattern expand fuel f slot args kw h = some r)
    (hin : ∀ s, f.slot s < h.length ∧ Good (h.at_ (f.slot s)))
    (hsep : RefSep h (HDict.pop kw "overrides") f slot args) :
    h.length < r.2.kwargs ∧ r.2.kwargs < r.1.length ∧
      BuiltWith (fun n => kw.get? n) (h.at_ (f.slot slot)) (h.at_ f.base) (Overridden kw) (r.1.at_ r.2.kwargs) ∧
      MergedDicts h r.1 (fun n => kw.get? n) (h.at_ (f.slot slot)) (h.at_ f.base) (r.1.at_ r.2.kwargs) ∧
      ∀ name a, (r.1.at_ r.2.kwargs).get? name = some (.ref a) → a < h.length := by
  unfold buildPattern at e
  cases hp : popOverrides kw with
  | none => rw [hp] at e; cases e
  | some q =>
    obtain ⟨kw', backup⟩ := q
    rw [hp] at e
    simp only [DHeap.alloc] at e
    cases e1 : setDefaultsH fuel (f.slot slot) h.length false (h ++ [kw']) with
    | none => rw [e1] at e; cases e
    | some h1 =>
      rw [e1] at e
      simp only at e
      cases e2 : setDefaultsH fuel f.base h.length false h1 with
      | none => rw [e2] at e; cases e
      | some h2 =>
        rw [e2] at e
        simp only [Option.some.injEq] at e
        have hkw' := popOverrides_options hp
        rw [← hkw'] at hsep
        obtain ⟨uv, uk, ug, vk, vg, kg, pV, pK, pG, hr⟩ := hsep
        have x0 := Ext.append h [kw']
        have hnew : (h ++ [kw'] : DHeap).at_ h.length = kw' := by rw [DHeap.at_eq]; simp
        have hold : ∀ a, a < h.length → (h ++ [kw'] : DHeap).at_ a = h.at_ a := fun a ha => x0.at ha
        have hs := hold _ (hin slot).1
        have hlb : f.base < h.length := (hin .base).1
        have hls := (hin slot).1
        obtain ⟨l1, c1, f1, m1⟩ := setDefaultsH_merge (by omega) (by simp) (by rw [hs]; exact (hin slot).2)
          (by
            intro key x hx
            rw [hs] at hx
            have := pK key x hx
            exact ⟨by simp; omega, by omega, by rw [hold x this.1]; exact this.2.2.2⟩)
          (by
            intro key y hy
            rw [hnew] at hy
            have := pV key y hy
            exact ⟨by simp; omega, this.2.1, by omega, by rw [hold y this.1]; exact this.2.2.2⟩)
          (by intro key key' x y hx hy; rw [hs] at hx; rw [hnew] at hy; exact vk hx hy)
          (by intro key key' y; rw [hnew]; exact uv)
          (by intro key key' y; rw [hs]; exact uk) e1
        rw [hs, hnew] at c1 f1 m1
        have l1' : h1.length = h.length + 1 := by rw [l1]; simp
        -- what the first stage leaves alone
        have s1 : ∀ a, a < h.length → (∀ key, ¬ RefAt kw' key a) → h1.at_ a = h.at_ a := by
          intro a ha hn
          rw [DHeap.at_congr (f1 a (by omega) (fun key hc => hn key hc.1)), hold a ha]
        have hb : h1.at_ f.base = h.at_ f.base := s1 _ hlb (fun key hc => (pV key _ hc).2.2.1 rfl)
        have c1ref : ∀ key y, RefAt (h1.at_ h.length) key y → RefAt kw' key y ∨ (kw'.get? key = none ∧ RefAt (h.at_ (f.slot slot)) key y) := by
          intro key y hy
          unfold RefAt at hy
          rw [c1] at hy
          exact combine_ref hy
        have flat1 : ∀ key y, RefAt (h1.at_ h.length) key y → FlatDict (h1.at_ y) ∧ ∀ n, (h1.at_ y).get? n =
            combine (entry h ((h.at_ (f.slot slot)).get? key) n) (entry h (kw'.get? key) n) := by
          intro key y hy
          rcases c1ref key y hy with hy | ⟨hno, hy⟩
          · have py := pV key y hy
            by_cases hx : ∃ x, RefAt (h.at_ (f.slot slot)) key x
            · obtain ⟨x, hx⟩ := hx
              obtain ⟨q1, q2⟩ := m1 key x y hx hy
              refine ⟨q1, fun n => ?_⟩
              rw [q2 n, hold x (pK key x hx).1, hold y py.1]
              unfold RefAt at hx hy
              rw [hx, hy]; rfl
            · have : h1.at_ y = h.at_ y := by
                rw [DHeap.at_congr (f1 y (by omega) (fun key' hc => ?_)), hold y py.1]
                have := uv hc.1 hy
                subst this
                exact hx hc.2
              rw [this]
              refine ⟨py.2.2.2, fun n => ?_⟩
              have : entry h ((h.at_ (f.slot slot)).get? key) n = none := by
                cases hq : (h.at_ (f.slot slot)).get? key with
                | none => rfl
                | some v =>
                  cases v with
                  | ref x => exact absurd ⟨x, hq⟩ hx
                  | _ => rfl
              rw [this, combine_none]
              unfold RefAt at hy
              rw [hy]; rfl
          · have py := pK key y hy
            rw [s1 y py.1 (fun key' hc => vk hy hc rfl)]
            refine ⟨py.2.2.2, fun n => ?_⟩
            rw [hno]
            unfold RefAt at hy
            rw [hy]
            show _ = combine _ none
            rw [combine_right_none]; rfl
        have lt1 : ∀ key y, RefAt (h1.at_ h.length) key y → y < h.length ∧ y ≠ f.base := by
          intro key y hy
          rcases c1ref key y hy with hy | ⟨_, hy⟩
          · exact ⟨(pV key y hy).1, (pV key y hy).2.2.1⟩
          · exact ⟨(pK key y hy).1, (pK key y hy).2.2.1⟩
        have g1x : ∀ key x, RefAt (h.at_ f.base) key x → h1.at_ x = h.at_ x := fun key x hx =>
          s1 x (pG key x hx).1 (fun key' hc => vg hx hc rfl)
        have gb : Good (h1.at_ f.base) := by rw [hb]; exact (hin .base).2
        obtain ⟨l2, c2, f2, m2⟩ := setDefaultsH_merge (d := f.base) (k := h.length) (by omega) (by omega) gb
          (by
            intro key x hx
            rw [hb] at hx
            have := pG key x hx
            exact ⟨by omega, by omega, by rw [g1x key x hx]; exact this.2.2.2⟩)
          (by
            intro key y hy
            have := lt1 key y hy
            exact ⟨by omega, this.2, by omega, (flat1 key y hy).1⟩)
          (by
            intro key key' x y hx hy
            rw [hb] at hx
            rcases c1ref key' y hy with hy | ⟨_, hy⟩
            · exact vg hx hy
            · exact kg hx hy)
          (by
            intro key key' y hy hy'
            rcases c1ref key y hy with hy | ⟨_, hy⟩
            · rcases c1ref key' y hy' with hy' | ⟨_, hy'⟩
              · exact uv hy hy'
              · exact absurd rfl (vk hy' hy)
            · rcases c1ref key' y hy' with hy' | ⟨_, hy'⟩
              · exact absurd rfl (vk hy hy')
              · exact uk hy hy')
          (by intro key key' y; rw [hb]; exact ug) e2
        rw [hb] at c2 f2 m2
        have l2' : h2.length = h.length + 1 := by omega
        have content2 : ∀ x, (h2.at_ h.length).get? x = combine ((h.at_ f.base).get? x) (combine ((h.at_ (f.slot slot)).get? x) (kw'.get? x)) := by
          intro x
          rw [c2, c1]
        have flat2 : ∀ key y, RefAt (h2.at_ h.length) key y → y < h.length ∧
            (RefAt kw' key y ∨ RefAt (h.at_ (f.slot slot)) key y ∨ RefAt (h.at_ f.base) key y) ∧ ∀ n, (h2.at_ y).get? n =
            combine (entry h ((h.at_ f.base).get? key) n) (combine (entry h ((h.at_ (f.slot slot)).get? key) n) (entry h (kw'.get? key) n)) := by
          intro key y hy
          unfold RefAt at hy
          rw [c2] at hy
          rcases combine_ref hy with hy | ⟨hno, hy⟩
          · have hy : RefAt (h1.at_ h.length) key y := hy
            have hlt := lt1 key y hy
            refine ⟨hlt.1, ?_, ?_⟩
            · rcases c1ref key y hy with hy | ⟨_, hy⟩
              · exact Or.inl hy
              · exact Or.inr (Or.inl hy)
            · intro n
              by_cases hx : ∃ x, RefAt (h.at_ f.base) key x
              · obtain ⟨x, hx⟩ := hx
                rw [(m2 key x y hx hy).2 n, (flat1 key y hy).2 n, g1x key x hx]
                unfold RefAt at hx
                rw [hx]; rfl
              · have : h2.at_ y = h1.at_ y := by
                  refine DHeap.at_congr (f2 y (by omega) (fun key' hc => ?_))
                  have : key' = key := by
                    rcases c1ref key y hy with hy | ⟨_, hy⟩
                    · rcases c1ref key' y hc.1 with hy' | ⟨_, hy'⟩
                      · exact uv hy' hy
                      · exact absurd rfl (vk hy' hy)
                    · rcases c1ref key' y hc.1 with hy' | ⟨_, hy'⟩
                      · exact absurd rfl (vk hy hy')
                      · exact uk hy' hy
                  subst this
                  exact hx hc.2
                have hnone : entry h ((h.at_ f.base).get? key) n = none := by
                  cases hq : (h.at_ f.base).get? key with
                  | none => rfl
                  | some v =>
                    cases v with
                    | ref x => exact absurd ⟨x, hq⟩ hx
                    | _ => rfl
                rw [this, hnone, combine_none]
                exact (flat1 key y hy).2 n
          · have hy : RefAt (h.at_ f.base) key y := hy
            have py := pG key y hy
            refine ⟨py.1, Or.inr (Or.inr hy), fun n => ?_⟩
            have : h2.at_ y = h.at_ y := by
              rw [DHeap.at_congr (f2 y (by omega) (fun key' hc => ?_)), g1x key y hy]
              rcases c1ref key' y hc.1 with hy' | ⟨_, hy'⟩
              · exact vg hy hy' rfl
              · exact kg hy hy' rfl
            rw [this]
            rw [c1] at hno
            have hv : kw'.get? key = none := by
              cases hv : kw'.get? key with
              | none => rfl
              | some v =>
                rw [hv] at hno
                cases hk : (h.at_ (f.slot slot)).get? key with
                | none => rw [hk] at hno; cases hno
                | some u => rw [hk] at hno; cases u <;> cases v <;> cases hno
            rw [hv, combine_right_none] at hno
            rw [hv, hno]
            show _ = combine _ (combine none none)
            rw [combine_none, combine_right_none]
            unfold RefAt at hy
            rw [hy]; rfl
        -- after the overrides
        obtain ⟨b1, b2⟩ := popOverrides_backup hp
        generalize hK : Dict.update (h2.at_ h.length) backup = K at e
        have hk3 : ((h2.put h.length K).at_ h.length) = K := at_put_self (by omega) _
        have hgivenOf : ∀ name, Overridden kw name → K.get? name = kw'.get? name ∧ kw'.get? name = kw.get? name := by
          intro name ho
          have hm := (b2 name).2 ho
          rw [← hK, get?_update backup _ (fun n => kw'.get? n) name b1, if_pos hm]
          refine ⟨rfl, ?_⟩
          obtain ⟨kv, hkv, rfl⟩ := List.mem_map.1 hm
          have := b1 kv hkv
          rw [this]
          rw [hkw'] at this
          exact (get?_pop this).symm
        have hother : ∀ name, ¬ Overridden kw name → K.get? name = (h2.at_ h.length).get? name := by
          intro name ho
          rw [← hK, get?_update backup _ (fun n => kw'.get? n) name b1, if_neg (fun hm => ho ((b2 name).1 hm))]
        have hKget : BuiltWith (fun n => kw.get? n) (h.at_ (f.slot slot)) (h.at_ f.base) (Overridden kw) K := by
          intro name
          refine ⟨fun ho => ?_, fun ho => ?_⟩
          · rw [(hgivenOf name ho).1, (hgivenOf name ho).2]
          · rw [hother name ho, content2, hkw', get?_pop_iff]
        have hKref : ∀ name a, K.get? name = some (.ref a) → RefAt (h2.at_ h.length) name a := by
          intro name a ha
          by_cases ho : Overridden kw name
          · rw [(hgivenOf name ho).1] at ha
            unfold RefAt
            rw [content2, ha]
            have : ∀ u : Option HV, combine u (some (.ref a)) = some (.ref a) := by
              intro u
              cases u with
              | none => rfl
              | some u => cases u <;> rfl
            rw [this, this]
          · rw [hother name ho] at ha
            exact ha
        rw [hk3] at e
        generalize hfold : (if slot = .regex then args.foldl (expandPatternDict expand (K.get? "abbreviations")) (h2.put h.length K)
            else h2.put h.length K) = h3 at e
        have l3 : h3.length = h.length + 1 := by
          rw [← hfold]
          split
          · rw [expandFold_length, DHeap.length_put]; exact l2'
          · rw [DHeap.length_put]; exact l2'
        have f3 : ∀ a, HV.ref a ∉ args → h3[a]? = (h2.put h.length K)[a]? := by
          intro a ha
          rw [← hfold]
          split
          · exact expandFold_frame _ _ a _ _ ha
          · rfl
        obtain ⟨n1, n2⟩ := newPattern_kwargs h3 K
        have hx := n2.trans (inheritKeys_ext f.keys (hasBareFormatter (newPattern h3 K).1 K) (newPattern h3 K).1 (newPattern h3 K).2)
        have hat : (h3 ++ [K] : DHeap).at_ (h.length + 1) = K := by
          rw [DHeap.at_eq, ← l3]; simp
        subst e
        rw [inheritKeys_kwargs, n1, l3]
        have hres : DHeap.at_ (inheritKeys f.keys (hasBareFormatter (newPattern h3 K).1 K) (newPattern h3 K).1 (newPattern h3 K).2).1 (h.length + 1) = K := by
          rw [hx.at (by simp only [List.length_append, l3, List.length_singleton]; omega), hat]
        rw [hres]
        refine ⟨by omega, ?_, hKget, ?_, fun name a ha => (flat2 name a (hKref name a ha)).1⟩
        · have := hx.1
          simp only [List.length_append, l3, List.length_singleton] at this
          omega
        · intro name a ha n
          have href := hKref name a ha
          obtain ⟨q1, q2, q3⟩ := flat2 name a href
          have hgiven : kw'.get? name = if name = "overrides" then none else kw.get? name := by rw [hkw', get?_pop_iff]
          rw [hx.at (by simp only [List.length_append, l3, List.length_singleton]; omega)]
          have : (h3 ++ [K] : DHeap).at_ a = h3.at_ a := (Ext.append h3 [K]).at (by omega)
          rw [this, DHeap.at_congr (f3 a (fun hm => by
            have := (hr a hm).2 name
            rcases q2 with q | q | q
            · exact this.1 q
            · exact this.2.1 q
            · exact this.2.2 q)), DHeap.at_put, if_neg (by omega), q3 n, hgiven]

theorem RefSep.mono {h : DHeap} {given given' : HDict} {f : Factory} {slot : Slot} {args : List HV} (r : RefSep h given f slot args)
    (hsub : ∀ key y, RefAt given' key y → RefAt given key y) : RefSep h given' f slot args :=
  { uv := fun hx hy => r.uv (hsub _ _ hx) (hsub _ _ hy)
    uk := r.uk
    ug := r.ug
    vk := fun hx hy => r.vk hx (hsub _ _ hy)
    vg := fun hx hy => r.vg hx (hsub _ _ hy)
    kg := r.kg
    pV := fun key y hy => r.pV key y (hsub _ _ hy)
    pK := r.pK
    pG := r.pG
    args := fun a ha => ⟨(r.args a ha).1, fun key => ⟨fun hx => ((r.args a ha).2 key).1 (hsub _ _ hx), ((r.args a ha).2 key).2⟩⟩ }

theorem refAt_pop {d : HDict} {k key : String} {y : Nat} (h : RefAt (HDict.pop d k) key y) : RefAt d key y := get?_pop h

/-- **C101**, `regex(...)`, `string(...)`, `functional(...)`, dicts meeting dicts included: the options of the new pattern are the given ones combined with the
defaults of its kind and then with the general defaults, those listed in `overrides=[...]` being the given ones; an option that is a dict has the entries of
the given dict combined with those of the dicts among the defaults, name by name — listed in `overrides=[...]` or not (see `C101_overrides_refuted`). The dict
objects in the call and in the defaults are separate objects without dicts in them. Sequences of keys: `C101_build_keys`. -/
theorem C101_build_dicts {expand : List Val → HV → HV} {fuel : Nat} {w w' : World} {f : Nat} {fac : Factory} {slot : Slot} {key : KeyArg}
    {args : List HV} {kw : HDict} (hw : ReachableB expand w) (hkey : ∀ k ks, key ≠ .many (k :: ks)) (hf : w.factories[f]? = some fac)
    (hsep : SeparateDicts w.heap kw fac slot) (hargs : SeparateArgs w.heap kw fac slot args)
    (he : stepB expand fuel w (.build f slot key args kw) = some w') :
    ∃ p, w'.patterns = w.patterns ++ [p] ∧ w.heap.length ≤ p.kwargs ∧
      BuiltWith (optionsWithKey key kw) (w.heap.at_ (fac.slot slot)) (w.heap.at_ fac.base) (Overridden kw) (w'.heap.at_ p.kwargs) ∧
      MergedDicts w.heap w'.heap (optionsWithKey key kw) (w.heap.at_ (fac.slot slot)) (w.heap.at_ fac.base) (w'.heap.at_ p.kwargs) := by
  have i := InvB.reachable hw
  have hin := i.good f fac hf
  simp only [stepB, hf] at he
  have hk : ∃ kw', applyKey key kw w.heap = .ok (kw', w.heap) ∧ (∀ n, kw'.get? n = optionsWithKey key kw n) ∧
      (∀ n y, RefAt kw' n y → RefAt kw n y) ∧ kw'.get? "overrides" = kw.get? "overrides" := by
    cases key with
    | absent => exact ⟨kw, rfl, fun _ => rfl, fun _ _ h => h, rfl⟩
    | many ks =>
      cases ks with
      | nil => exact ⟨kw, rfl, fun _ => rfl, fun _ _ h => h, rfl⟩
      | cons k ks => exact absurd rfl (hkey k ks)
    | one k =>
      have hget : ∀ n, (Dict.setDefault (Dict.setDefault kw "name" (.atom (.str k.name.toList))) "formatter" k.conv).get? n =
          optionsWithKey (.one k) kw n := by
        intro n
        rw [get?_setDefault, get?_setDefault]
        unfold optionsWithKey
        by_cases h1 : n = "name"
        · subst h1; cases hq : kw.get? "name" <;> simp [hq]
        · by_cases h2 : n = "formatter"
          · subst h2; cases hq : kw.get? "formatter" <;> simp [hq, BKey.conv]
          · cases hq : kw.get? n <;> simp [h1, h2, hq]
      refine ⟨_, rfl, hget, ?_, ?_⟩
      · intro n y ha
        unfold RefAt at ha ⊢
        rw [hget] at ha
        simp only [optionsWithKey] at ha
        cases hg : kw.get? n with
        | some v => rw [hg] at ha; exact ha
        | none =>
          rw [hg] at ha
          simp only [Option.none_or] at ha
          split at ha
          · cases ha
          · split at ha
            · cases ha
            · cases ha
      · rw [hget]
        unfold optionsWithKey
        simp
  obtain ⟨kw', hk1, hk2, hk3, hk4⟩ := hk
  rw [hk1] at he
  simp only [Option.map_eq_some_iff] at he
  obtain ⟨r, e1, rfl⟩ := he
  obtain ⟨g1, g2, g3, g4, _⟩ := buildPattern_dicts e1 hin ((RefSep.of hsep hargs).mono (fun n y hy => hk3 n y (refAt_pop hy)))
  have hfun : (fun n => kw'.get? n) = optionsWithKey key kw := funext hk2
  have hov : Overridden kw' = Overridden kw := by funext n; unfold Overridden; rw [hk4]
  rw [hfun, hov] at g3
  rw [hfun] at g4
  exact ⟨r.2, rfl, by omega, g3, g4⟩

/-! ## Sequences of keys -/

theorem addConverters_get (ks : List BKey) (n : String) : ∀ base : HDict, (addConverters base ks).get? n = (base.get? n).or (converterOf ks n) := by
  induction ks with
  | nil => intro base; simp [addConverters, converterOf]
  | cons k ks ih =>
    intro base
    have : addConverters base (k :: ks) = addConverters (Dict.setDefault base k.name k.conv) ks := rfl
    rw [this, ih, get?_setDefault]
    unfold converterOf
    rw [List.find?_cons]
    by_cases h : n = k.name
    · have : (k.name == n) = true := by simp [h]
      rw [if_pos h, this]
      cases base.get? n <;> simp [BKey.conv]
    · have : (k.name == n) = false := by simpa using fun e => h e.symm
      rw [if_neg h, this]
      cases base.get? n <;> simp

theorem setDefault_keys (d : HDict) (k : String) (v : HV) : (Dict.setDefault d k v).keys = d.keys ∨
    ((Dict.setDefault d k v).keys = (d.set k v).keys) := by
  unfold Dict.setDefault
  split
  · exact Or.inl rfl
  · exact Or.inr rfl

theorem addConverters_flat (ks : List BKey) (hk : ∀ k ∈ ks, k.name ≠ "clear") : ∀ base : HDict, FlatDict base → FlatDict (addConverters base ks) := by
  intro base hb
  have hg : Good (addConverters base ks) := by
    have : ∀ base : HDict, Good base → Good (addConverters base ks) := by
      clear hb base
      induction ks with
      | nil => exact fun base h => h
      | cons k ks ih =>
        intro base h
        refine ih (fun k' hk' => hk k' (List.mem_cons_of_mem _ hk')) _ ?_
        show Good (Dict.setDefault base k.name k.conv)
        unfold Dict.setDefault
        split
        · exact h
        · exact h.set (hk k (by simp)) _
    exact this base hb.good
  refine ⟨hg.1, hg.2, fun n x => ?_⟩
  rw [addConverters_get]
  intro h
  cases hq : base.get? n with
  | some v => rw [hq] at h; exact hb.2.2 n x (by rw [hq]; simpa using h)
  | none =>
    rw [hq] at h
    simp only [Option.none_or, converterOf, Option.map_eq_some_iff] at h
    obtain ⟨k, _, hk⟩ := h
    cases hk

theorem keysBase_get {kw base : HDict} {h : DHeap} (e : keysBase kw h = .ok base) (n : String) : base.get? n = entry h (kw.get? "formatter") n := by
  unfold keysBase at e
  split at e
  · next h1 => cases e; rw [h1]; rfl
  · next h1 => cases e; rw [h1]; rfl
  · next a h1 => cases e; rw [h1]; rfl
  · cases e

/-- **C101**, `regex(..., key=[k, ...])`: `formatter` is a new dict (the first object made) with the entries of the given one, then the converter of the first key of each name, then
the entries of the dicts among the defaults; the other options are as in `C101_build_dicts`. -/
theorem C101_build_keys {expand : List Val → HV → HV} {fuel : Nat} {w w' : World} {f : Nat} {fac : Factory} {slot : Slot} {k : BKey} {ks : List BKey}
    {args : List HV} {kw : HDict} (hw : ReachableB expand w) (hf : w.factories[f]? = some fac)
    (hsep : SeparateDicts w.heap (HDict.pop kw "formatter") fac slot) (hargs : SeparateArgs w.heap (HDict.pop kw "formatter") fac slot args)
    (hform : ∀ a, kw.get? "formatter" = some (.ref a) → FlatDict (w.heap.at_ a)) (hclear : ∀ k' ∈ k :: ks, k'.name ≠ "clear")
    (he : stepB expand fuel w (.build f slot (.many (k :: ks)) args kw) = some w') :
    ∃ p, w'.patterns = w.patterns ++ [p] ∧ w.heap.length ≤ p.kwargs ∧
      (∀ name, name ≠ "formatter" →
        (Overridden kw name → (w'.heap.at_ p.kwargs).get? name = kw.get? name) ∧
        (¬ Overridden kw name → (w'.heap.at_ p.kwargs).get? name =
          combine ((w.heap.at_ fac.base).get? name) (combine ((w.heap.at_ (fac.slot slot)).get? name) (if name = "overrides" then none else kw.get? name))) ∧
        ∀ a, (w'.heap.at_ p.kwargs).get? name = some (.ref a) → ∀ n, (w'.heap.at_ a).get? n =
          combine (entry w.heap ((w.heap.at_ fac.base).get? name) n) (combine (entry w.heap ((w.heap.at_ (fac.slot slot)).get? name) n)
            (entry w.heap (if name = "overrides" then none else kw.get? name) n))) ∧
      (w'.heap.at_ p.kwargs).get? "formatter" = some (.ref w.heap.length) ∧ ∀ n, (w'.heap.at_ w.heap.length).get? n =
        combine (entry w.heap ((w.heap.at_ fac.base).get? "formatter") n) (combine (entry w.heap ((w.heap.at_ (fac.slot slot)).get? "formatter") n)
          ((entry w.heap (kw.get? "formatter") n).or (converterOf (k :: ks) n))) := by
  have i := InvB.reachable hw
  have hin := i.good f fac hf
  simp only [stepB, hf] at he
  cases hb : keysBase kw w.heap with
  | error e0 => simp only [applyKey, hb] at he; cases he
  | ok base =>
    simp only [applyKey, hb, DHeap.alloc, Option.map_eq_some_iff] at he
    obtain ⟨r, e1, rfl⟩ := he
    generalize hC : addConverters base (k :: ks) = C at e1
    have x0 := Ext.append w.heap [C]
    have hold : ∀ a, a < w.heap.length → (w.heap ++ [C] : DHeap).at_ a = w.heap.at_ a := fun a ha => x0.at ha
    have hnew : (w.heap ++ [C] : DHeap).at_ w.heap.length = C := by rw [DHeap.at_eq]; simp
    have hCget : ∀ n, C.get? n = (entry w.heap (kw.get? "formatter") n).or (converterOf (k :: ks) n) := by
      intro n; rw [← hC, addConverters_get, keysBase_get hb]
    have hCflat : FlatDict C := by
      rw [← hC]
      refine addConverters_flat _ hclear _ ?_
      unfold keysBase at hb
      split at hb
      · cases hb; exact ⟨by simp [Dict.keys], by simp [Dict.keys], fun n x h => by cases h⟩
      · cases hb; exact ⟨by simp [Dict.keys], by simp [Dict.keys], fun n x h => by cases h⟩
      · next a ha => cases hb; exact hform a ha
      · cases hb
    have hbase : (w.heap ++ [C] : DHeap).at_ fac.base = w.heap.at_ fac.base := hold _ (hin .base).1
    have hslot : (w.heap ++ [C] : DHeap).at_ (fac.slot slot) = w.heap.at_ (fac.slot slot) := hold _ (hin slot).1
    have r0 := RefSep.of hsep hargs
    -- the dicts of the call
    have hV : ∀ key y, RefAt (HDict.pop (kw.set "formatter" (.ref w.heap.length)) "overrides") key y →
        (key = "formatter" ∧ y = w.heap.length) ∨ (key ≠ "formatter" ∧ RefAt (HDict.pop kw "formatter") key y) := by
      intro key y hy
      have hy := refAt_pop hy
      unfold RefAt at hy ⊢
      rw [Dict.get?_set] at hy
      by_cases hk : key = "formatter"
      · subst hk
        rw [if_pos rfl] at hy
        cases hy
        exact Or.inl ⟨rfl, rfl⟩
      · rw [if_neg (fun h => hk h.symm)] at hy
        right
        rw [get?_pop_iff, if_neg hk]
        exact ⟨hk, hy⟩
    have grow : ∀ {y : Nat}, (y < w.heap.length ∧ y ≠ fac.slot slot ∧ y ≠ fac.base ∧ FlatDict (w.heap.at_ y)) →
        y < (w.heap ++ [C] : DHeap).length ∧ y ≠ fac.slot slot ∧ y ≠ fac.base ∧ FlatDict ((w.heap ++ [C] : DHeap).at_ y) := by
      intro y hy
      exact ⟨by simp; omega, hy.2.1, hy.2.2.1, by rw [hold y hy.1]; exact hy.2.2.2⟩
    have rs : RefSep (w.heap ++ [C]) (HDict.pop (kw.set "formatter" (.ref w.heap.length)) "overrides") fac slot args := {
      uv := by
        intro key key' y hy hy'
        rcases hV _ _ hy with ⟨a1, a2⟩ | ⟨a1, a2⟩
        · rcases hV _ _ hy' with ⟨b1, b2⟩ | ⟨b1, b2⟩
          · rw [a1, b1]
          · have := (r0.pV _ _ b2).1; omega
        · rcases hV _ _ hy' with ⟨b1, b2⟩ | ⟨b1, b2⟩
          · have := (r0.pV _ _ a2).1; omega
          · exact r0.uv a2 b2
      uk := by rw [hslot]; exact r0.uk
      ug := by rw [hbase]; exact r0.ug
      vk := by
        intro n m x y hx hy
        rw [hslot] at hx
        rcases hV _ _ hy with ⟨_, b2⟩ | ⟨_, b2⟩
        · have := (r0.pK _ _ hx).1; omega
        · exact r0.vk hx b2
      vg := by
        intro n m x y hx hy
        rw [hbase] at hx
        rcases hV _ _ hy with ⟨_, b2⟩ | ⟨_, b2⟩
        · have := (r0.pG _ _ hx).1; omega
        · exact r0.vg hx b2
      kg := by rw [hbase, hslot]; exact r0.kg
      pV := by
        intro key y hy
        rcases hV _ _ hy with ⟨_, b2⟩ | ⟨_, b2⟩
        · subst b2
          have h1 := (hin slot).1
          have h2 : fac.base < w.heap.length := (hin .base).1
          exact ⟨by simp, by omega, by omega, by rw [hnew]; exact hCflat⟩
        · exact grow (r0.pV _ _ b2)
      pK := by intro key y hy; rw [hslot] at hy; exact grow (r0.pK _ _ hy)
      pG := by intro key y hy; rw [hbase] at hy; exact grow (r0.pG _ _ hy)
      args := by
        intro a ha
        obtain ⟨q1, q2⟩ := r0.args a ha
        refine ⟨by simp; omega, fun key => ?_⟩
        rw [hslot, hbase]
        refine ⟨fun hy => ?_, (q2 key).2⟩
        rcases hV _ _ hy with ⟨_, b2⟩ | ⟨_, b2⟩
        · omega
        · exact (q2 key).1 b2 }
    obtain ⟨g1, g2, g3, g4, _⟩ := buildPattern_dicts e1 (fun s => ⟨by have := (hin s).1; simp; omega, by rw [hold _ (hin s).1]; exact (hin s).2⟩) rs
    simp only [hslot, hbase] at g3 g4
    have hent : ∀ key (d : HDict), (∀ y, RefAt d key y → y < w.heap.length) → ∀ n, entry (w.heap ++ [C]) (d.get? key) n = entry w.heap (d.get? key) n := by
      intro key d hd n
      cases hq : d.get? key with
      | none => rfl
      | some v =>
        cases v with
        | ref y => show ((w.heap ++ [C] : DHeap).at_ y).get? n = _; rw [hold y (hd y hq)]; rfl
        | _ => rfl
    have entK : ∀ key n, entry (w.heap ++ [C]) ((w.heap.at_ (fac.slot slot)).get? key) n = entry w.heap ((w.heap.at_ (fac.slot slot)).get? key) n := fun key =>
      hent key _ (fun y hy => (r0.pK _ _ hy).1)
    have entG : ∀ key n, entry (w.heap ++ [C]) ((w.heap.at_ fac.base).get? key) n = entry w.heap ((w.heap.at_ fac.base).get? key) n := fun key =>
      hent key _ (fun y hy => (r0.pG _ _ hy).1)
    have hset : ∀ name, name ≠ "formatter" → (kw.set "formatter" (.ref w.heap.length)).get? name = kw.get? name := by
      intro name hne
      rw [Dict.get?_set, if_neg (fun h => hne h.symm)]
    have hov : ∀ name, Overridden (kw.set "formatter" (.ref w.heap.length)) name ↔ Overridden kw name := by
      intro name
      unfold Overridden
      rw [hset "overrides" (by decide)]
    have hform' : (kw.set "formatter" (.ref w.heap.length)).get? "formatter" = some (.ref w.heap.length) := by
      rw [Dict.get?_set, if_pos rfl]
    have hres : (r.1.at_ r.2.kwargs).get? "formatter" = some (.ref w.heap.length) := by
      have h3 := g3 "formatter"
      by_cases ho : Overridden (kw.set "formatter" (.ref w.heap.length)) "formatter"
      · rw [h3.1 ho]; exact hform'
      · rw [h3.2 ho, if_neg (by decide)]
        show combine _ (combine _ ((kw.set "formatter" (.ref w.heap.length)).get? "formatter")) = _
        rw [hform']
        have : ∀ u : Option HV, combine u (some (.ref w.heap.length)) = some (.ref w.heap.length) := by
          intro u
          cases u with
          | none => rfl
          | some u => cases u <;> rfl
        rw [this, this]
    refine ⟨r.2, rfl, by simp at g1; omega, ?_, ?_, ?_⟩
    · intro name hne
      have h3 := g3 name
      simp only [hset name hne, hov] at h3
      refine ⟨h3.1, h3.2, fun a ha n => ?_⟩
      rw [g4 name a ha n, entK, entG]
      simp only [hset name hne]
      by_cases ho : name = "overrides"
      · rw [if_pos ho]; rfl
      · rw [if_neg ho]
        have := hent name (HDict.pop kw "formatter") (fun y hy => (r0.pV _ _ hy).1) n
        rw [get?_pop_iff, if_neg hne] at this
        rw [this]
    · exact hres
    · intro n
      have := g4 "formatter" _ hres n
      rw [this, entK, entG, if_neg (by decide)]
      show combine _ (combine _ (entry _ ((kw.set "formatter" (.ref w.heap.length)).get? "formatter") n)) = _
      rw [hform']
      show combine _ (combine _ (((w.heap ++ [C] : DHeap).at_ w.heap.length).get? n)) = _
      rw [hnew, hCget]

/-- **C101**, `chain(**kw)`, dicts meeting dicts included: the options of the chain are made like those of any pattern. -/
theorem C101_chain_dicts {expand : List Val → HV → HV} {fuel : Nat} {w w' : World} {f : Nat} {fac : Factory} {kw : HDict}
    (hw : ReachableB expand w) (hf : w.factories[f]? = some fac) (hsep : SeparateDicts w.heap kw fac .chain)
    (he : stepB expand fuel w (.chain f kw) = some w') :
    ∃ p, w'.patterns = w.patterns ++ [p] ∧ w.heap.length ≤ p.kwargs ∧
      BuiltWith (fun n => kw.get? n) (w.heap.at_ fac.chain) (w.heap.at_ fac.base) (Overridden kw) (w'.heap.at_ p.kwargs) ∧
      MergedDicts w.heap w'.heap (fun n => kw.get? n) (w.heap.at_ fac.chain) (w.heap.at_ fac.base) (w'.heap.at_ p.kwargs) := by
  have i := InvB.reachable hw
  have hin := i.good f fac hf
  simp only [stepB, hf] at he
  cases eb : buildPattern expand fuel fac .chain [] kw w.heap with
  | none => rw [eb] at he; cases he
  | some q =>
    obtain ⟨h, p⟩ := q
    rw [eb] at he
    simp only [Option.map_eq_some_iff] at he
    obtain ⟨r, e1, rfl⟩ := he
    have x := buildPattern_grow eb
    obtain ⟨b1, b2, b3, b4, b5⟩ := buildPattern_dicts eb hin
      ((RefSep.of (args := []) hsep (by intro a ha; cases ha)).mono (fun n y hy => refAt_pop hy))
    have hin' : ∀ s, fac.slot s < h.length ∧ Good (h.at_ (fac.slot s)) := fun s =>
      ⟨Nat.lt_of_lt_of_le (hin s).1 x.1, x.2 _ (hin s).1 (hin s).2⟩
    have y := (inheritDefaults_spec e1 hin').1
    simp only at b1 b2 b3 b4 b5
    refine ⟨p, rfl, by omega, ?_, ?_⟩
    · show BuiltWith _ _ _ _ (r.1.at_ p.kwargs)
      rw [y.at b2]
      exact b3
    · show MergedDicts _ r.1 _ _ _ (r.1.at_ p.kwargs)
      rw [y.at b2]
      intro name a ha n
      have hlt : a < h.length := Nat.lt_of_lt_of_le (b5 name a ha) x.1
      rw [y.at hlt]
      exact b4 name a ha n

/-! ## `defaults()` -/

/-- **C101**, `defaults(**kw)`, `regex_defaults(**kw)`…, dicts given where the default is a dict too included: each given option replaces the default of that
name, the other defaults stay, unless a true `clear=` was given, which drops them all. A dict among the new defaults has the entries it had before. The dict
objects given and those among the defaults are separate objects without dicts in them. -/
theorem C101_defaults_dicts {expand : List Val → HV → HV} {fuel : Nat} {w w' : World} {f : Nat} {fac : Factory} {slot : Slot} {kw : HDict}
    (hw : ReachableB expand w) (hv : BOp.Valid (.defaults f slot kw)) (hc : ¬ DictOption kw "clear") (hf : w.factories[f]? = some fac)
    (hdiff : (dictsIn kw ++ dictsIn (w.heap.at_ (fac.slot slot))).Nodup)
    (hplain : ∀ a ∈ dictsIn kw ++ dictsIn (w.heap.at_ (fac.slot slot)), a < w.heap.length ∧ a ≠ fac.slot slot ∧ FlatDict (w.heap.at_ a))
    (he : stepB expand fuel w (.defaults f slot kw) = some w') (name : String) :
    ((w'.heap.at_ (fac.slot slot)).get? name =
      if name = "clear" then none
      else (kw.get? name).or
        (if (∃ v, kw.get? "clear" = some v ∧ IsTrueHV w.heap v) then none else (w.heap.at_ (fac.slot slot)).get? name)) ∧
    ∀ a, (w'.heap.at_ (fac.slot slot)).get? name = some (.ref a) → w'.heap.at_ a = w.heap.at_ a := by
  simp only [← isTrueHV_iff]
  have i := InvB.reachable hw
  have hg := i.good f fac hf slot
  simp only [stepB, hf, DHeap.alloc, Option.map_eq_some_iff] at he
  obtain ⟨h', e, rfl⟩ := he
  show ((h'.at_ (fac.slot slot)).get? name = _) ∧ ∀ a, (h'.at_ (fac.slot slot)).get? name = some (.ref a) → h'.at_ a = _
  generalize hk : fac.slot slot = k at *
  have x0 := Ext.append w.heap [kw]
  have hnew : (w.heap ++ [kw] : DHeap).at_ w.heap.length = kw := by rw [DHeap.at_eq]; simp
  have hold : ∀ a, a < w.heap.length → (w.heap ++ [kw] : DHeap).at_ a = w.heap.at_ a := fun a ha => x0.at ha
  obtain ⟨dv, dk, dvk⟩ := List.nodup_append.1 hdiff
  have hdk : w.heap.length ≠ k := by have := hg.1; omega
  cases fuel with
  | zero => simp [setDefaultsH] at e
  | succ fuel =>
    unfold setDefaultsH at e
    simp only at e
    -- after `clear`
    generalize hd : w.heap.length = d at *
    generalize hh : (w.heap ++ [kw] : DHeap) = h at *
    have hlen : h.length = w.heap.length + 1 := by rw [← hh]; simp
    have hp : (popClear h d).1.at_ d = HDict.pop kw "clear" ∧ (popClear h d).1.length = h.length ∧
        (∀ a, a ≠ d → (popClear h d).1[a]? = h[a]?) ∧ ((popClear h d).2 = true ↔ ∃ v, kw.get? "clear" = some v ∧ v.truthy w.heap = true) := by
      unfold popClear
      rw [hnew]
      cases hcl : kw.get? "clear" with
      | none =>
        refine ⟨?_, rfl, fun _ _ => rfl, by simp⟩
        have hni : "clear" ∉ kw.keys := (Dict.get?_eq_none_iff _ _).1 hcl
        show h.at_ d = _
        rw [hnew]
        unfold HDict.pop
        symm
        rw [List.filter_eq_self]
        intro kv hkv
        have : kv.1 ≠ "clear" := by
          intro e
          exact hni (List.mem_map.2 ⟨kv, hkv, e⟩)
        simpa using this
      | some v =>
        refine ⟨at_put_self (by omega) _, DHeap.length_put _ _ _, fun a ha => (Frame.put h d _).2 a ha, ?_⟩
        have : v.truthy h = v.truthy w.heap := by
          cases v with
          | ref a => exact absurd ⟨a, hcl⟩ hc
          | atom v => rfl
          | list l => rfl
        simp [this]
    generalize hc1 : (if (popClear h d).2 = true then ((popClear h d).1).put k [] else (popClear h d).1) = h1 at e
    have l1 : h1.length = h.length := by
      rw [← hc1]
      split
      · rw [DHeap.length_put]; exact hp.2.1
      · exact hp.2.1
    have o1 : ∀ a, a < w.heap.length → a ≠ k → h1.at_ a = w.heap.at_ a := by
      intro a ha hak
      rw [← hold a (by omega)]
      apply DHeap.at_congr
      rw [← hc1]
      split
      · rw [(Frame.put _ k _).2 a hak, hp.2.2.1 a (by omega)]
      · exact hp.2.2.1 a (by omega)
    have d1 : h1.at_ d = HDict.pop kw "clear" := by
      rw [← hp.1, ← hc1]
      split
      · rw [DHeap.at_put, if_neg (fun h => hdk h.1.symm)]
      · rfl
    have k1 : ∀ x, (h1.at_ k).get? x = if (∃ v, kw.get? "clear" = some v ∧ v.truthy w.heap = true) then none else (w.heap.at_ k).get? x := by
      intro x
      rw [← hc1]
      by_cases hb : (popClear h d).2 = true
      · rw [if_pos hb, if_pos (hp.2.2.2.1 hb), at_put_self (by rw [hp.2.1]; omega)]; rfl
      · rw [if_neg hb, if_neg (fun h => hb (hp.2.2.2.2 h)), DHeap.at_congr (hp.2.2.1 k (fun e => hdk e.symm)), hold k (by omega)]
    have rk : ∀ key y, RefAt (h1.at_ k) key y → RefAt (w.heap.at_ k) key y := by
      intro key y hy
      unfold RefAt at hy ⊢
      rw [k1] at hy
      split at hy
      · cases hy
      · exact hy
    have rd : ∀ key y, RefAt (h1.at_ d) key y → RefAt kw key y := by
      intro key y hy
      rw [d1] at hy
      exact refAt_pop hy
    have hks : (h1.at_ d).keys.Nodup := by rw [d1, pop_keys]; exact hv.filter _
    obtain ⟨_, c2, f2, m2⟩ := defaultLoop_merge (o := true) hdk _ hks (by omega)
      (by
        intro key _ x hx
        have := hplain x (List.mem_append_left _ (mem_dictsIn (rd _ _ hx)))
        exact ⟨by omega, this.2.1, by rw [o1 x (by omega) this.2.1]; exact this.2.2⟩)
      (by
        intro key _ y hy
        have := hplain y (List.mem_append_right _ (mem_dictsIn (rk _ _ hy)))
        exact ⟨by omega, by omega, this.2.1, by rw [o1 y (by omega) this.2.1]; exact this.2.2⟩)
      (by
        intro key _ key' x y hx hy
        exact dvk _ (mem_dictsIn (rd _ _ hx)) _ (mem_dictsIn (rk _ _ hy)))
      (by intro key _ key' y hy hy'; exact refAt_unique dk (rk _ _ hy) (rk _ _ hy'))
      (by intro key key' y hy hy'; exact refAt_unique dv (rd _ _ hy) (rd _ _ hy')) e
    have hget : ∀ x, (h'.at_ k).get? x = ((h1.at_ d).get? x).or ((h1.at_ k).get? x) := by
      intro x
      rw [c2 x]
      by_cases hx : x ∈ (h1.at_ d).keys
      · rw [if_pos hx]; rfl
      · rw [if_neg hx, (Dict.get?_eq_none_iff _ _).2 hx]; simp
    refine ⟨?_, ?_⟩
    · rw [hget, d1, get?_pop_iff, k1]
      by_cases hn : name = "clear"
      · rw [if_pos hn, if_pos hn]
        have : (w.heap.at_ k).get? name = none := by rw [hn]; exact (Dict.get?_eq_none_iff _ _).2 hg.2.2
        rw [this]; simp
      · rw [if_neg hn, if_neg hn]
    · intro a ha
      rw [hget] at ha
      cases hq : (h1.at_ d).get? name with
      | some v =>
        rw [hq] at ha
        have hq' : RefAt (h1.at_ d) name a := hq.trans ha
        have hm := mem_dictsIn (rd _ _ hq')
        have := hplain a (List.mem_append_left _ hm)
        rw [DHeap.at_congr (f2 a this.2.1 (fun key _ hc => ?_)), o1 a (by omega) this.2.1]
        exact dvk _ hm _ (mem_dictsIn (rk _ _ hc.1)) rfl
      | none =>
        rw [hq] at ha
        have ha' : RefAt (h1.at_ k) name a := by unfold RefAt; simpa using ha
        have := hplain a (List.mem_append_right _ (mem_dictsIn (rk _ _ ha')))
        rw [DHeap.at_congr (f2 a this.2.1 (fun key _ hc => ?_)), o1 a (by omega) this.2.1]
        obtain ⟨h2, x, hx⟩ := hc
        have : key = name := refAt_unique dk (rk _ _ h2) (rk _ _ ha')
        subst this
        unfold RefAt at hx
        rw [hq] at hx
        cases hx

/-! ## `overrides` -/

/-- Two dicts of formatters, and a builder with the second one in its general defaults. -/
def dictOps : List BOp :=
  [.dict [("x", .atom (.int 1)), ("y", .list [.int 2])], .dict [("x", .atom (.int 3)), ("y", .list [.int 4]), ("z", .atom (.int 5))], .builder,
   .defaults 0 .base [("formatter", .ref 1), ("tags", .list [.int 6])]]

/-- **C101, false for dicts.** An option listed in `overrides=[...]` is not the given one when it is a dict and so is the default: it is the same dict object,
into which the defaults have been merged. -/
theorem C101_overrides_refuted : ∃ (w w' : World) (fac : Factory) (p : PatCfg), ReachableB noExpand w ∧
    stepB noExpand 9 w (.build 0 .string .absent [] [("formatter", .ref 0), ("overrides", .list [.str "formatter".toList])]) = some w' ∧
    w.factories[0]? = some fac ∧ SeparateDicts w.heap [("formatter", .ref 0), ("overrides", .list [.str "formatter".toList])] fac .string ∧
    w'.patterns = [p] ∧ (w'.heap.at_ p.kwargs).get? "formatter" = some (.ref 0) ∧
    w.heap.at_ 0 = [("x", .atom (.int 1)), ("y", .list [.int 2])] ∧
    w'.heap.at_ 0 = [("x", .atom (.int 1)), ("y", .list [.int 4, .int 2]), ("z", .atom (.int 5))] := by
  refine ⟨_, _, _, _, ReachableB.step (fuel := 9) (op := dictOps[3]) (ReachableB.step (fuel := 9) (op := dictOps[2])
    (ReachableB.step (fuel := 9) (op := dictOps[1]) (ReachableB.step (fuel := 9) (op := dictOps[0]) .init ?_ rfl) ?_ rfl) ?_ rfl) ?_ rfl,
    rfl, rfl, ⟨?_, ?_⟩, rfl, ?_, ?_, ?_⟩
  · show List.Nodup _; decide
  · show List.Nodup _; decide
  · trivial
  · show List.Nodup _; decide
  · decide +kernel
  · have : dictsIn ([("formatter", .ref 0), ("overrides", .list [.str "formatter".toList])] : HDict) ++
        (dictsIn ([] : HDict) ++ dictsIn ([("formatter", .ref 1), ("tags", .list [.int 6])] : HDict)) = [0, 1] := by decide +kernel
    intro a ha
    have ha : a ∈ [0, 1] := this ▸ ha
    have flat : ∀ d : HDict, d.keys.Nodup → "clear" ∉ d.keys → (∀ kv ∈ d, ∀ x, kv.2 ≠ .ref x) → FlatDict d := by
      intro d h1 h2 h3
      exact ⟨h1, h2, fun n x h => h3 _ (refAt_mem h) x rfl⟩
    simp only [List.mem_cons, List.not_mem_nil, or_false] at ha
    rcases ha with rfl | rfl
    · refine ⟨by decide +kernel, by decide +kernel, by decide +kernel, flat _ (by decide +kernel) (by decide +kernel) ?_⟩
      intro kv hkv x
      have : kv ∈ [("x", HV.atom (.int 1)), ("y", .list [.int 2])] := hkv
      simp only [List.mem_cons, List.not_mem_nil, or_false] at this
      rcases this with rfl | rfl <;> simp
    · refine ⟨by decide +kernel, by decide +kernel, by decide +kernel, flat _ (by decide +kernel) (by decide +kernel) ?_⟩
      intro kv hkv x
      have : kv ∈ [("x", HV.atom (.int 3)), ("y", .list [.int 4]), ("z", .atom (.int 5))] := hkv
      simp only [List.mem_cons, List.not_mem_nil, or_false] at this
      rcases this with rfl | rfl | rfl <;> simp
  · decide +kernel
  · decide +kernel
  · decide +kernel

/-- `string(key=[a, b, a], formatter=…)` and `defaults(formatter=…)` on it: what the theorems say. -/
example : ∃ w w1 w2, runB noExpand 9 World.init dictOps = some w ∧
    stepB noExpand 9 w (.build 0 .string (.many [⟨"a", 7⟩, ⟨"x", 8⟩, ⟨"a", 9⟩]) [] [("formatter", .ref 0)]) = some w1 ∧
    w1.patterns.map (fun p => (w1.heap.at_ p.kwargs).get? "formatter") = [some (.ref 8)] ∧
    w1.heap.at_ 8 = [("x", .atom (.int 1)), ("y", .list [.int 4, .int 2]), ("a", .atom (.obj 7)), ("z", .atom (.int 5))] ∧
    w1.heap.at_ 0 = [("x", .atom (.int 1)), ("y", .list [.int 2])] ∧
    stepB noExpand 9 w (.defaults 0 .base [("formatter", .ref 0)]) = some w2 ∧
    w2.factories.map (fun f => (w2.heap.at_ f.base).get? "formatter") = [some (.ref 0)] ∧
    w2.heap.at_ 0 = [("x", .atom (.int 1)), ("y", .list [.int 2])] := by
  refine ⟨_, _, _, rfl, rfl, ?_, ?_, ?_, rfl, ?_, ?_⟩ <;> decide +kernel

end Rebulk
