import Verif.Lemmas.Queries
import Verif.Spec.History
import Verif.Lemmas.Container
import Verif.Lemmas.Steps
/-!
# Keys of the indexes over a history
-/
namespace Rebulk
open Spec Matches

/-! ## Keys of the built dictionaries -/

section
variable {κ : Type} [DecidableEq κ]

theorem keys_extendAll (k : κ) : ∀ (g : List (κ × List Match)) (d : Index κ),
    k ∈ Dict.keys (g.foldl (fun d kv => d.extend kv.1 kv.2) d) ↔ k ∈ d.keys ∨ k ∈ g.map Prod.fst := by
  intro g
  induction g with
  | nil => simp
  | cons kv g ih =>
    intro d
    rw [List.foldl_cons, ih, Dict.mem_keys_extend, List.map_cons, List.mem_cons]
    constructor
    · rintro ((h | h) | h)
      · exact Or.inr (Or.inl h)
      · exact Or.inl h
      · exact Or.inr (Or.inr h)
    · rintro (h | h | h)
      · exact Or.inl (Or.inr h)
      · exact Or.inl (Or.inl h)
      · exact Or.inr h

theorem keys_groupBy (key : Match → κ) (k : κ) : ∀ (l : List Match), k ∈ (groupBy key l).map Prod.fst ↔ ∃ m ∈ l, key m = k := by
  intro l
  induction l with
  | nil => simp [groupBy]
  | cons x xs ih =>
    simp only [List.mem_cons, exists_eq_or_imp]
    rw [groupBy, ← ih]
    cases groupBy key xs with
    | nil => simp [groupCons, eq_comm]
    | cons kg r =>
      obtain ⟨k0, g⟩ := kg
      simp only [groupCons, beq_iff_eq]
      by_cases hx : key x = k0
      · subst hx; simp [eq_comm]
      · simp [hx, eq_comm]

theorem keys_buildGroups (key : Match → κ) (l : List Match) (k : κ) : k ∈ (buildGroups key l).keys ↔ ∃ m ∈ l, key m = k := by
  unfold buildGroups
  rw [keys_extendAll, keys_groupBy]
  simp [Dict.keys]

theorem keys_addKeys (m : Match) (k : κ) : ∀ (ks : List κ) (d : Index κ),
    k ∈ Dict.keys (ks.foldl (fun d k => d.append k m) d) ↔ k ∈ d.keys ∨ k ∈ ks := by
  intro ks
  induction ks with
  | nil => simp
  | cons x xs ih =>
    intro d
    rw [List.foldl_cons, ih, Dict.mem_keys_append, List.mem_cons]
    constructor
    · rintro ((h | h) | h)
      · exact Or.inr (Or.inl h)
      · exact Or.inl h
      · exact Or.inr (Or.inr h)
    · rintro (h | h | h)
      · exact Or.inl (Or.inr h)
      · exact Or.inl (Or.inl h)
      · exact Or.inr h

theorem keys_buildEach (keysOf : Match → List κ) (l : List Match) (k : κ) : k ∈ (buildEach keysOf l).keys ↔ ∃ m ∈ l, k ∈ keysOf m := by
  have aux : ∀ (l : List Match) (d : Index κ), k ∈ Dict.keys (l.foldl (fun d m => (keysOf m).foldl (fun d k => d.append k m) d) d) ↔
      k ∈ d.keys ∨ ∃ m ∈ l, k ∈ keysOf m := by
    intro l
    induction l with
    | nil => simp
    | cons x xs ih =>
      intro d
      rw [List.foldl_cons, ih, keys_addKeys]
      simp [or_assoc]
  unfold buildEach
  rw [aux]
  simp [Dict.keys]

theorem keys_buildName (l : List Match) (k : String) : k ∈ (buildName l).keys ↔ ∃ m ∈ l, k ∈ nameKeys m := by
  rw [mem_names_build]
  constructor
  · rintro ⟨h0, m, hm, hn⟩
    exact ⟨m, hm, by simp [nameKeys, Match.nameKey, hn, h0]⟩
  · rintro ⟨m, hm, hk⟩
    rw [nameKeys_eq] at hk
    split at hk
    · rename_i hs
      rw [List.mem_singleton] at hk
      unfold Match.nameKey at hs
      cases hn : m.name with
      | none => rw [hn] at hs; cases hs
      | some n =>
        rw [hn] at hs hk
        simp only [Option.getD_some] at hk
        subst hk
        refine ⟨?_, m, hm, hn⟩
        rintro rfl
        simp at hs
    · cases hk

theorem keys_removeKeys (m : Match) (x : κ) : ∀ (ks : List κ) (d : Index κ), (∀ k ∈ ks, k ∈ d.keys) →
    (x ∈ (removeKeys m ks d).1.keys ↔ x ∈ d.keys) := by
  intro ks
  induction ks with
  | nil => intro d _; rfl
  | cons k ks ih =>
    intro d h
    have hk := h k List.mem_cons_self
    have hset : ∀ v, ∀ y, y ∈ (d.set k v).keys ↔ y ∈ d.keys := by
      intro v y
      rw [Dict.keys_set]
      split
      · rfl
      · rename_i hc
        exact absurd hk (by simpa using hc)
    rw [removeKeys]
    cases hr : removeFirst (fun x => x.eqv m) (d.getList k) with
    | some l =>
      simp only
      rw [ih _ (fun y hy => (hset l y).2 (h y (List.mem_cons_of_mem _ hy))), hset]
    | none =>
      simp only
      rw [Dict.mem_keys_touch_iff]
      exact ⟨fun h => h.elim (fun e => e ▸ hk) id, Or.inr⟩

theorem keys_removeKeys_sub (m : Match) (x : κ) : ∀ (ks : List κ) (d : Index κ),
    x ∈ (removeKeys m ks d).1.keys → x ∈ d.keys ∨ x ∈ ks := by
  intro ks
  induction ks with
  | nil => intro d h; exact Or.inl h
  | cons k ks ih =>
    intro d
    rw [removeKeys]
    cases hr : removeFirst (fun x => x.eqv m) (d.getList k) with
    | some l =>
      simp only
      intro h
      rcases ih _ h with h | h
      · rw [Dict.keys_set] at h
        split at h
        · exact Or.inl h
        · rcases List.mem_append.1 h with h | h
          · exact Or.inl h
          · rw [List.mem_singleton.1 h]; exact Or.inr List.mem_cons_self
      · exact Or.inr (List.mem_cons_of_mem _ h)
    | none =>
      simp only
      rw [Dict.mem_keys_touch_iff]
      rintro (h | h)
      · rw [h]; exact Or.inr List.mem_cons_self
      · exact Or.inl h

end
end Rebulk

namespace Rebulk
open Spec Matches

/-! ## Calls that change the sequence -/

section
variable {κ : Type} [DecidableEq κ]

/-- A dictionary that is not built stays so; one that is built gets the keys of the matches that are there afterwards. -/
def Grows (keysOf : Match → List κ) (d d' : Option (Index κ)) (l l' : List Match) : Prop :=
  (d = none → d' = none) ∧ ∀ e, d = some e → (∀ m ∈ l, ∀ k ∈ keysOf m, k ∈ e.keys) →
    ∃ e', d' = some e' ∧ ∀ k, k ∈ e'.keys ↔ k ∈ e.keys ∨ ∃ m ∈ l', k ∈ keysOf m

theorem Grows.refl (keysOf : Match → List κ) (d : Option (Index κ)) {l l' : List Match} (h : ∀ m ∈ l', m ∈ l) : Grows keysOf d d l l' :=
  ⟨id, fun e he hc => ⟨e, he, fun k => ⟨Or.inl, fun h' => h'.elim id (fun ⟨m, hm, hk⟩ => hc m (h m hm) k hk)⟩⟩⟩

theorem Grows.trans {keysOf : Match → List κ} {d d' d'' : Option (Index κ)} {l l' l'' : List Match} (h : Grows keysOf d d' l l')
    (h' : Grows keysOf d' d'' l' l'') (hl : ∀ m ∈ l', m ∈ l ∨ m ∈ l'') : Grows keysOf d d'' l l'' := by
  refine ⟨fun hd => h'.1 (h.1 hd), fun e he hc => ?_⟩
  obtain ⟨e', he', hk'⟩ := h.2 e he hc
  obtain ⟨e'', he'', hk''⟩ := h'.2 e' he' (fun m hm k hk => (hk' k).2 (Or.inr ⟨m, hm, hk⟩))
  refine ⟨e'', he'', fun k => ?_⟩
  rw [hk'', hk']
  constructor
  · rintro ((h | ⟨m, hm, hk⟩) | h)
    · exact Or.inl h
    · rcases hl m hm with hm | hm
      · exact Or.inl (hc m hm k hk)
      · exact Or.inr ⟨m, hm, hk⟩
    · exact Or.inr h
  · rintro (h | h)
    · exact Or.inl (Or.inl h)
    · exact Or.inr h

theorem Grows.add {keysOf : Match → List κ} (d : Option (Index κ)) {l l' : List Match} {m : Match} (hm : m ∈ l') (hl : ∀ x ∈ l', x ∈ l ∨ x = m) :
    Grows keysOf d (addTo d (keysOf m) m) l l' := by
  refine ⟨fun hd => by rw [hd]; rfl, fun e he hc => ⟨_, by rw [he]; rfl, fun k => ?_⟩⟩
  rw [keys_addKeys]
  constructor
  · rintro (h | h)
    · exact Or.inl h
    · exact Or.inr ⟨m, hm, h⟩
  · rintro (h | ⟨x, hx, h⟩)
    · exact Or.inl h
    · rcases hl x hx with hx | rfl
      · exact Or.inl (hc x hx k h)
      · exact Or.inr h

theorem Grows.remove {keysOf : Match → List κ} (d : Option (Index κ)) {l l' : List Match} {m : Match} (hm : m ∈ l) (hl : ∀ x ∈ l', x ∈ l) :
    Grows keysOf d (removeFrom d (keysOf m) m).1 l l' := by
  refine ⟨fun hd => by rw [hd]; rfl, fun e he hc => ⟨_, by rw [he]; rfl, fun k => ?_⟩⟩
  rw [keys_removeKeys _ _ _ _ (hc m hm)]
  exact ⟨Or.inl, fun h => h.elim id (fun ⟨x, hx, hk⟩ => hc x (hl x hx) k hk)⟩

end

namespace Matches

/-- Names and tags over a call that changes the sequence. -/
def GrowsNT (s s' : Matches) : Prop :=
  Grows nameKeys s.nameD s'.nameD s.delegate s'.delegate ∧ Grows tagKeys s.tagD s'.tagD s.delegate s'.delegate ∧ s'.isMarkers = s.isMarkers

theorem GrowsNT.refl (s : Matches) : GrowsNT s s := ⟨.refl _ _ (fun _ h => h), .refl _ _ (fun _ h => h), rfl⟩

theorem GrowsNT.trans {a b c : Matches} (h : GrowsNT a b) (h' : GrowsNT b c) (hl : ∀ m ∈ b.delegate, m ∈ a.delegate ∨ m ∈ c.delegate) :
    GrowsNT a c := ⟨h.1.trans h'.1 hl, h.2.1.trans h'.2.1 hl, h'.2.2.trans h.2.2⟩

theorem growsNT_addMatch {s : Matches} {l' : List Match} {m : Match} (hk : m.marker = s.isMarkers) (hm : m ∈ l')
    (hl : ∀ x ∈ l', x ∈ s.delegate ∨ x = m) : GrowsNT s (addMatch { s with delegate := l' } m).1 ∧
      (addMatch { s with delegate := l' } m).1.delegate = l' ∧ (addMatch { s with delegate := l' } m).2 = none := by
  unfold addMatch
  rw [if_pos (by simp [hk])]
  exact ⟨⟨.add _ hm hl, .add _ hm hl, rfl⟩, rfl, rfl⟩

theorem removeMatch_shape (s : Matches) (m : Match) :
    (s.removeMatch m).1.delegate = s.delegate ∧ (s.removeMatch m).1.isMarkers = s.isMarkers ∧
    (s.removeMatch m).1.nameD = (removeFrom s.nameD (nameKeys m) m).1 ∧
    ((s.removeMatch m).1.tagD = s.tagD ∨ (s.removeMatch m).1.tagD = (removeFrom s.tagD (tagKeys m) m).1) := by
  have hsh : ∀ t : Matches, (t.shrinkMaxEnd m).delegate = t.delegate ∧ (t.shrinkMaxEnd m).isMarkers = t.isMarkers ∧
      (t.shrinkMaxEnd m).nameD = t.nameD ∧ (t.shrinkMaxEnd m).tagD = t.tagD := by
    intro t
    unfold shrinkMaxEnd
    simp only
    split
    · split <;> exact ⟨rfl, rfl, rfl, rfl⟩
    · exact ⟨rfl, rfl, rfl, rfl⟩
  simp only [removeMatch]
  split
  · exact ⟨rfl, rfl, rfl, Or.inl rfl⟩
  · split
    · exact ⟨rfl, rfl, rfl, Or.inr rfl⟩
    · split
      · exact ⟨rfl, rfl, rfl, Or.inr rfl⟩
      · split
        · exact ⟨rfl, rfl, rfl, Or.inr rfl⟩
        · split
          · exact ⟨rfl, rfl, rfl, Or.inr rfl⟩
          · obtain ⟨h1, h2, h3, h4⟩ := hsh _
            rw [h1, h2, h3, h4]
            exact ⟨rfl, rfl, rfl, Or.inr rfl⟩

theorem growsNT_removeMatch {s t : Matches} {m : Match} (hm : m ∈ s.delegate) (hl : ∀ x ∈ t.delegate, x ∈ s.delegate) (hn : t.nameD = s.nameD)
    (ht : t.tagD = s.tagD) (hk : t.isMarkers = s.isMarkers) : GrowsNT s (t.removeMatch m).1 := by
  obtain ⟨h1, h2, h3, h4⟩ := removeMatch_shape t m
  refine ⟨?_, ?_, h2.trans hk⟩
  · rw [h3, h1, hn]; exact .remove _ hm hl
  · rw [h1]
    rcases h4 with h4 | h4
    · rw [h4, ht]; exact .refl _ _ hl
    · rw [h4, ht]; exact .remove _ hm hl

theorem growsNT_removeAll {s : Matches} : ∀ (ms : List Match) {t : Matches}, (∀ m ∈ ms, m ∈ s.delegate) →
    (∀ x ∈ t.delegate, x ∈ s.delegate) → GrowsNT s t → GrowsNT s (t.removeAll ms).1 := by
  intro ms
  induction ms with
  | nil => intro t _ _ h; exact h
  | cons m ms ih =>
    intro t hm hl h
    have hstep : GrowsNT s (t.removeMatch m).1 := by
      obtain ⟨h1, h2, h3, h4⟩ := removeMatch_shape t m
      refine ⟨?_, ?_, h2.trans h.2.2⟩
      · rw [h3, h1]
        refine ⟨fun hd => by rw [h.1.1 hd]; rfl, fun e he hc => ?_⟩
        obtain ⟨e', he', hk'⟩ := h.1.2 e he hc
        refine ⟨_, by rw [he']; rfl, fun k => ?_⟩
        rw [keys_removeKeys _ _ _ _ (fun k hk => (hk' k).2 (Or.inl (hc m (hm m List.mem_cons_self) k hk))), hk']
      · rw [h1]
        rcases h4 with h4 | h4
        · rw [h4]; exact h.2.1
        · rw [h4]
          refine ⟨fun hd => by rw [h.2.1.1 hd]; rfl, fun e he hc => ?_⟩
          obtain ⟨e', he', hk'⟩ := h.2.1.2 e he hc
          refine ⟨_, by rw [he']; rfl, fun k => ?_⟩
          rw [keys_removeKeys _ _ _ _ (fun k hk => (hk' k).2 (Or.inl (hc m (hm m List.mem_cons_self) k hk))), hk']
    rw [removeAll]
    cases hr : t.removeMatch m with
    | mk t' o =>
      rw [hr] at hstep
      cases o with
      | none =>
        exact ih (fun x hx => hm x (List.mem_cons_of_mem _ hx))
          (by
            have := (removeMatch_shape t m).1
            rw [hr] at this
            rw [this]; exact hl) hstep
      | some e => exact hstep

theorem growsNT_insert {s : Matches} (i : Int) {m : Match} (hk : m.marker = s.isMarkers) :
    GrowsNT s (s.insert i m).1 ∧ (∀ x ∈ s.delegate, x ∈ (s.insert i m).1.delegate) ∧ (s.insert i m).2 = none := by
  have hb : clampIdx s.delegate.length i ≤ s.delegate.length := by
    unfold clampIdx; split <;> omega
  have hmem : ∀ x, x ∈ s.delegate.insertIdx (clampIdx s.delegate.length i) m ↔ x = m ∨ x ∈ s.delegate := fun x => List.mem_insertIdx hb
  obtain ⟨h1, h2, h3⟩ := growsNT_addMatch (s := s) (l' := s.delegate.insertIdx (clampIdx s.delegate.length i) m) hk
    ((hmem m).2 (Or.inl rfl)) (fun x hx => ((hmem x).1 hx).symm)
  unfold Matches.insert
  refine ⟨h1, ?_, h3⟩
  rw [h2]
  exact fun x hx => (hmem x).2 (Or.inr hx)

theorem growsNT_extend : ∀ (ms : List Match) {s : Matches}, (∀ m ∈ ms, m.marker = s.isMarkers) →
    GrowsNT s (s.extend ms).1 ∧ ∀ x ∈ s.delegate, x ∈ (s.extend ms).1.delegate := by
  intro ms
  induction ms with
  | nil => intro s _; exact ⟨.refl s, fun _ h => h⟩
  | cons m ms ih =>
    intro s hk
    obtain ⟨h1, h2, h3⟩ := growsNT_insert (s := s) s.length (hk m List.mem_cons_self)
    rw [extend, append]
    cases hr : s.insert s.length m with
    | mk t o =>
      rw [hr] at h1 h2 h3
      simp only at h3
      subst h3
      obtain ⟨k1, k2⟩ := ih (s := t) (fun x hx => (hk x (List.mem_cons_of_mem _ hx)).trans h1.2.2.symm)
      exact ⟨h1.trans k1 (fun x hx => Or.inr (k2 x hx)), fun x hx => k2 x (h2 x hx)⟩

theorem growsNT_delItem (s : Matches) (i : Int) : GrowsNT s (s.delItem i).1 ∧ ∀ x ∈ (s.delItem i).1.delegate, x ∈ s.delegate := by
  unfold delItem
  cases normIdx s.delegate.length i with
  | none => exact ⟨.refl s, fun _ h => h⟩
  | some k =>
    simp only
    cases hg : s.delegate[k]? with
    | none => exact ⟨.refl s, fun _ h => h⟩
    | some m =>
      have hsub : ∀ x ∈ s.delegate.eraseIdx k, x ∈ s.delegate := fun x hx => List.mem_of_mem_eraseIdx hx
      refine ⟨growsNT_removeMatch (t := { s with delegate := s.delegate.eraseIdx k }) (List.mem_of_getElem? hg) hsub rfl rfl rfl, ?_⟩
      rw [(removeMatch_shape _ _).1]
      exact hsub

theorem growsNT_pop (s : Matches) (i : Int) : GrowsNT s (s.pop i).1 ∧ ∀ x ∈ (s.pop i).1.delegate, x ∈ s.delegate := by
  unfold pop
  cases s.getItem i with
  | error e => exact ⟨.refl s, fun _ h => h⟩
  | ok m =>
    have h := growsNT_delItem s i
    simp only
    cases hr : s.delItem i with
    | mk t o => rw [hr] at h; cases o <;> exact h

theorem growsNT_remove (s : Matches) (m : Match) : GrowsNT s (s.remove m).1 := by
  unfold remove
  cases s.delegate.findIdx? (fun x => x.eqv m) with
  | none => exact .refl s
  | some k => exact (growsNT_delItem s k).1

theorem growsNT_clearLoop : ∀ (n : Nat) (s : Matches), GrowsNT s (clearLoop n s).1 := by
  intro n
  induction n with
  | zero => intro s; exact .refl s
  | succ n ih =>
    intro s
    have h := growsNT_pop s (-1)
    rw [clearLoop]
    cases hr : s.pop with
    | mk t o =>
      rw [hr] at h
      cases o with
      | ok m => exact h.1.trans (ih t) (fun x hx => Or.inl (h.2 x hx))
      | error e => cases e <;> exact h.1

theorem growsNT_delSlice (s : Matches) (a b : Option Int) : GrowsNT s (s.delSlice a b).1 := by
  unfold delSlice
  simp only
  have hsub : ∀ x ∈ (if (sliceBounds s.delegate.length a b).1 < (sliceBounds s.delegate.length a b).2 then
      s.delegate.take (sliceBounds s.delegate.length a b).1 ++ s.delegate.drop (sliceBounds s.delegate.length a b).2 else s.delegate),
      x ∈ s.delegate := by
    intro x hx
    split at hx
    · rcases List.mem_append.1 hx with h | h
      · exact List.mem_of_mem_take h
      · exact List.mem_of_mem_drop h
    · exact hx
  exact growsNT_removeAll _ (fun m hm => by unfold pySlice at hm; exact List.mem_of_mem_take (List.mem_of_mem_drop hm)) hsub
    ⟨.refl _ _ hsub, .refl _ _ hsub, rfl⟩

theorem growsNT_setItem {s : Matches} (i : Int) {m : Match} (hk : m.marker = s.isMarkers) :
    GrowsNT s (s.setItem i m).1 ∧ (∀ x ∈ (s.setItem i m).1.delegate, x ∈ s.delegate ∨ x = m) := by
  unfold setItem
  cases hn : normIdx s.delegate.length i with
  | none => exact ⟨.refl s, fun _ h => Or.inl h⟩
  | some k =>
    have hb := normIdx_lt hn
    have hmem : ∀ x ∈ s.delegate.set k m, x ∈ s.delegate ∨ x = m := fun x hx => List.mem_or_eq_of_mem_set hx
    obtain ⟨h1, h2, _⟩ := growsNT_addMatch (s := s) (l' := s.delegate.set k m) hk (List.mem_set hb _) hmem
    exact ⟨h1, by rw [h2]; exact hmem⟩

theorem growsNT_swap {s : Matches} (h : ∀ x ∈ s.delegate, x.marker = s.isMarkers) (i j : Int) :
    GrowsNT s (s.swapItems i j).1 ∧ ∀ x ∈ (s.swapItems i j).1.delegate, x ∈ s.delegate := by
  unfold swapItems getItem
  cases hj : pyGet s.delegate j with
  | none => exact ⟨.refl s, fun _ h => h⟩
  | some mj =>
    cases hi : pyGet s.delegate i with
    | none => exact ⟨.refl s, fun _ h => h⟩
    | some mi =>
      simp only
      obtain ⟨h1, h2⟩ := growsNT_setItem (s := s) i (h mj (mem_of_pyGet hj))
      cases hr : s.setItem i mj with
      | mk t o =>
        rw [hr] at h1 h2
        have h2' : ∀ x ∈ t.delegate, x ∈ s.delegate := fun x hx => (h2 x hx).elim id (fun e => e ▸ mem_of_pyGet hj)
        cases o with
        | some e => exact ⟨h1, h2'⟩
        | none =>
          obtain ⟨k1, k2⟩ := growsNT_setItem (s := t) j ((h mi (mem_of_pyGet hi)).trans h1.2.2.symm)
          exact ⟨h1.trans k1 (fun x hx => Or.inl (h2' x hx)), fun x hx => (k2 x hx).elim (h2' x) (fun e => e ▸ mem_of_pyGet hi)⟩

theorem growsNT_reverseLoop (n : Nat) : ∀ (is : List Nat) {s : Matches}, (∀ x ∈ s.delegate, x.marker = s.isMarkers) →
    GrowsNT s (reverseLoop n is s).1 ∧ ∀ x ∈ (reverseLoop n is s).1.delegate, x ∈ s.delegate := by
  intro is
  induction is with
  | nil => intro s _; exact ⟨.refl s, fun _ h => h⟩
  | cons i is ih =>
    intro s h
    obtain ⟨h1, h2⟩ := growsNT_swap h (i : Int) ((n : Int) - i - 1)
    rw [reverseLoop]
    cases hr : s.swapItems (i : Int) ((n : Int) - i - 1) with
    | mk t o =>
      rw [hr] at h1 h2
      cases o with
      | some e => exact ⟨h1, h2⟩
      | none =>
        obtain ⟨k1, k2⟩ := ih (s := t) (fun x hx => (h x (h2 x hx)).trans h1.2.2.symm)
        exact ⟨h1.trans k1 (fun x hx => Or.inl (h2 x hx)), fun x hx => h2 x (k2 x hx)⟩

/-! ## Lookups -/

/-- Nothing changes but the dictionaries of starts, ends and indexes. -/
def KeepsNT (s s' : Matches) : Prop :=
  s'.delegate = s.delegate ∧ s'.nameD = s.nameD ∧ s'.tagD = s.tagD ∧ s'.isMarkers = s.isMarkers ∧ s'.maxEnd = s.maxEnd ∧
    s'.inputString = s.inputString

theorem KeepsNT.refl (s : Matches) : KeepsNT s s := ⟨rfl, rfl, rfl, rfl, rfl, rfl⟩
theorem KeepsNT.trans {a b c : Matches} (h : KeepsNT a b) (h' : KeepsNT b c) : KeepsNT a c :=
  ⟨h'.1.trans h.1, h'.2.1.trans h.2.1, h'.2.2.1.trans h.2.2.1, h'.2.2.2.1.trans h.2.2.2.1, h'.2.2.2.2.1.trans h.2.2.2.2.1,
    h'.2.2.2.2.2.trans h.2.2.2.2.2⟩

theorem keepsNT_start (s : Matches) (k : Int) : KeepsNT s (s.lookStart k).1 := ⟨rfl, rfl, rfl, rfl, rfl, rfl⟩
theorem keepsNT_end (s : Matches) (k : Int) : KeepsNT s (s.lookEnd k).1 := ⟨rfl, rfl, rfl, rfl, rfl, rfl⟩
theorem keepsNT_index (s : Matches) (k : Int) : KeepsNT s (s.lookIndex k).1 := ⟨rfl, rfl, rfl, rfl, rfl, rfl⟩

theorem keepsNT_previousLoop : ∀ (cs : List Int) (s : Matches), KeepsNT s (previousLoop cs s).1 := by
  intro cs
  induction cs with
  | nil => intro s; exact .refl s
  | cons c cs ih =>
    intro s
    rw [previousLoop]
    simp only
    split
    · exact (keepsNT_end s c).trans (ih _)
    · exact keepsNT_end s c

theorem keepsNT_nextLoop : ∀ (cs : List Int) (s : Matches), KeepsNT s (nextLoop cs s).1 := by
  intro cs
  induction cs with
  | nil => intro s; exact .refl s
  | cons c cs ih =>
    intro s
    rw [nextLoop]
    simp only
    split
    · exact (keepsNT_start s c).trans (ih _)
    · exact keepsNT_start s c

theorem keepsNT_conflictLoop : ∀ (cs : List Int) (s : Matches) (acc : List Match), KeepsNT s (conflictLoop cs s acc).1 := by
  intro cs
  induction cs with
  | nil => intro s acc; exact .refl s
  | cons c cs ih =>
    intro s acc
    rw [conflictLoop]
    exact (keepsNT_index s c).trans (ih _ _)

theorem keepsNT_conflicting (s : Matches) (m : Match) : KeepsNT s (s.conflicting m).1 := by
  unfold conflicting
  have := keepsNT_conflictLoop (pyRange m.start m.stop) s []
  simp only
  split <;> exact this

theorem keepsNT_chainLoop (seps : Str) (pred : Match → Bool) : ∀ (cs : List Int) (s : Matches) (acc : List Match),
    KeepsNT s (chainLoop seps pred cs s acc).1 := by
  intro cs
  induction cs with
  | nil => intro s acc; exact .refl s
  | cons c cs ih =>
    intro s acc
    rw [chainLoop]
    simp only
    split
    · split
      · exact keepsNT_index s c
      · exact keepsNT_index s c
      · exact (keepsNT_index s c).trans (ih _ _)
    · exact (keepsNT_index s c).trans (ih _ _)

theorem keepsNT_holeScan (ignore : Match → Bool) : ∀ (cs : List Int) (s : Matches), KeepsNT s (holeScan ignore cs s).1 := by
  intro cs
  induction cs with
  | nil => intro s; exact .refl s
  | cons c cs ih =>
    intro s
    rw [holeScan]
    simp only
    split
    · exact keepsNT_start s c
    · exact (keepsNT_start s c).trans (ih _)

theorem keepsNT_holesLoop (start : Int) (seps : Option Str) (ignore : Match → Bool) : ∀ (cs : List Int) (s : Matches) (h : HoleSt),
    KeepsNT s (holesLoop start seps ignore cs s h).1 := by
  intro cs
  induction cs with
  | nil => intro s h; exact .refl s
  | cons c cs ih =>
    intro s h
    rw [holesLoop]
    simp only
    split
    · split
      · exact (keepsNT_index s c).trans (ih _ _)
      · split
        · exact keepsNT_index s c
        · exact (keepsNT_index s c).trans (ih _ _)
    · exact (keepsNT_index s c).trans (ih _ _)

theorem keepsNT_holes (s : Matches) (a : Int) (b : Option Int) (ig : Match → Bool) (sp : Option Str) : KeepsNT s (s.holes a b ig sp).1 := by
  unfold holes
  split
  · exact .refl s
  · have h1 : KeepsNT s (s.holeStart a ig).1 := keepsNT_holeScan _ _ _
    simp only
    have h2 := h1.trans (keepsNT_holesLoop a sp ig (pyRange (s.holeStart a ig).2 (s.clampEnd b)) (s.holeStart a ig).1 { rindex := a })
    cases hr : holesLoop a sp ig (pyRange (s.holeStart a ig).2 (s.clampEnd b)) (s.holeStart a ig).1 { rindex := a } with
    | mk t o =>
      rw [hr] at h2
      cases o with
      | error e => exact h2
      | ok h =>
        simp only
        cases h.openAt with
        | none => exact h2
        | some x => exact h2.trans (keepsNT_holeScan _ _ _)

/-- The lookups that do not look at names or tags. -/
theorem keepsNT_step (s : Matches) (op : Op) (hl : isLookup op = true) (hn : ¬ LooksAtNames op) (ht : ¬ LooksAtTags op) : KeepsNT s (s.step op).1 := by
  cases op with
  | append | insert | extend | remove | pop | delItem | clear | delSlice | setItem | reverse => cases hl
  | named ns =>
    cases ns with
    | nil => exact .refl s
    | cons => exact absurd (List.cons_ne_nil _ _) hn
  | tagged | tags => exact absurd trivial ht
  | names => exact absurd trivial hn
  | starting => exact keepsNT_start s _
  | ending => exact keepsNT_end s _
  | atIndex => exact keepsNT_index s _
  | previous => exact keepsNT_previousLoop _ _
  | next => exact keepsNT_nextLoop _ _
  | conflicting => exact keepsNT_conflicting s _
  | atSpan a b => exact (keepsNT_index s a).trans (keepsNT_index _ (b - 1))
  | chainBefore => exact keepsNT_chainLoop _ _ _ _ _
  | chainAfter => exact keepsNT_chainLoop _ _ _ _ _
  | holes => exact keepsNT_holes s _ _ _ _

/-- The calls that change the sequence. -/
theorem growsNT_step {s : Matches} (op : Op) (hl : isLookup op = false) (hf : Fits s.isMarkers op) (hs : ∀ x ∈ s.delegate, x.marker = s.isMarkers) :
    GrowsNT s (s.step op).1 := by
  cases op with
  | append m => exact (growsNT_insert _ (hf m (List.mem_singleton_self _))).1
  | insert i m => exact (growsNT_insert _ (hf m (List.mem_singleton_self _))).1
  | extend ms => exact (growsNT_extend ms hf).1
  | remove m => exact growsNT_remove s m
  | pop i => exact (growsNT_pop s i).1
  | delItem i => exact (growsNT_delItem s i).1
  | clear => exact growsNT_clearLoop _ _
  | delSlice a b => exact growsNT_delSlice s a b
  | setItem i m => exact (growsNT_setItem i (hf m (List.mem_singleton_self _))).1
  | reverse => exact (growsNT_reverseLoop _ _ hs).1
  | _ => cases hl

/-! ## What the sequence may hold after a call -/

theorem insert_mem (s : Matches) (i : Int) (m : Match) : ∀ x ∈ (s.insert i m).1.delegate, x ∈ s.delegate ∨ x = m := by
  have hb : clampIdx s.delegate.length i ≤ s.delegate.length := by
    unfold clampIdx; split <;> omega
  have h : (s.insert i m).1.delegate = s.delegate.insertIdx (clampIdx s.delegate.length i) m := by
    unfold Matches.insert addMatch
    split <;> rfl
  rw [h]
  exact fun x hx => ((List.mem_insertIdx hb).1 hx).symm

theorem extend_mem : ∀ (ms : List Match) (s : Matches), ∀ x ∈ (s.extend ms).1.delegate, x ∈ s.delegate ∨ x ∈ ms := by
  intro ms
  induction ms with
  | nil => intro s x hx; exact Or.inl hx
  | cons m ms ih =>
    intro s x hx
    have h := insert_mem s s.length m
    rw [extend, append] at hx
    cases hr : s.insert s.length m with
    | mk t o =>
      rw [hr] at hx h
      cases o with
      | some e => exact (h x hx).imp id (fun e => by rw [e]; exact List.mem_cons_self)
      | none =>
        rcases ih t x hx with h' | h'
        · exact (h x h').imp id (fun e => by rw [e]; exact List.mem_cons_self)
        · exact Or.inr (List.mem_cons_of_mem _ h')

theorem clearLoop_mem : ∀ (n : Nat) (s : Matches), ∀ x ∈ (clearLoop n s).1.delegate, x ∈ s.delegate := by
  intro n
  induction n with
  | zero => intro s x hx; exact hx
  | succ n ih =>
    intro s x hx
    have h := (growsNT_pop s (-1)).2
    rw [clearLoop] at hx
    cases hr : s.pop with
    | mk t o =>
      rw [hr] at h hx
      cases o with
      | ok m => exact h x (ih t x hx)
      | error e => cases e <;> exact h x hx

theorem removeAll_delegate : ∀ (ms : List Match) (s : Matches), (s.removeAll ms).1.delegate = s.delegate := by
  intro ms
  induction ms with
  | nil => intro s; rfl
  | cons m ms ih =>
    intro s
    have h := (removeMatch_shape s m).1
    rw [removeAll]
    cases hr : s.removeMatch m with
    | mk t o =>
      rw [hr] at h
      cases o with
      | none => exact (ih t).trans h
      | some e => exact h

theorem step_mem {s : Matches} (op : Op) (hs : ∀ x ∈ s.delegate, x.marker = s.isMarkers) :
    ∀ x ∈ (s.step op).1.delegate, x ∈ s.delegate ∨ x ∈ added op := by
  cases op with
  | append m => exact fun x hx => (insert_mem s _ m x hx).imp id (fun e => by rw [e]; exact List.mem_singleton_self _)
  | insert i m => exact fun x hx => (insert_mem s _ m x hx).imp id (fun e => by rw [e]; exact List.mem_singleton_self _)
  | extend ms => exact extend_mem ms s
  | remove m =>
    intro x hx
    refine Or.inl ?_
    simp only [step, remove] at hx
    cases hf : s.delegate.findIdx? (fun x => x.eqv m) with
    | none => rw [hf] at hx; exact hx
    | some k => rw [hf] at hx; exact (growsNT_delItem s k).2 x hx
  | pop i => exact fun x hx => Or.inl ((growsNT_pop s i).2 x hx)
  | delItem i => exact fun x hx => Or.inl ((growsNT_delItem s i).2 x hx)
  | clear => exact fun x hx => Or.inl (clearLoop_mem _ _ x hx)
  | delSlice a b =>
    intro x hx
    refine Or.inl ?_
    simp only [step, delSlice, removeAll_delegate] at hx
    split at hx
    · rcases List.mem_append.1 hx with h | h
      · exact List.mem_of_mem_take h
      · exact List.mem_of_mem_drop h
    · exact hx
  | setItem i m =>
    intro x hx
    simp only [step, setItem] at hx
    cases hn : normIdx s.delegate.length i with
    | none => rw [hn] at hx; exact Or.inl hx
    | some k =>
      rw [hn] at hx
      have : ∀ t : Matches, (t.addMatch m).1.delegate = t.delegate := by intro t; unfold addMatch; split <;> rfl
      simp only [this] at hx
      exact (List.mem_or_eq_of_mem_set hx).imp id (fun e => by rw [e]; exact List.mem_singleton_self _)
  | reverse => exact fun x hx => Or.inl ((growsNT_reverseLoop _ _ hs).2 x hx)
  | named ns =>
    intro x hx
    have : (s.named ns).1.delegate = s.delegate := (named_spec s ns).1.delegate
    simp only [step, this] at hx
    exact Or.inl hx
  | tagged | tags | names | starting | ending | atIndex => exact fun x hx => Or.inl hx
  | previous m => intro x hx; rw [(keepsNT_step s (.previous m) rfl (fun h => h) (fun h => h)).1] at hx; exact Or.inl hx
  | next m => intro x hx; rw [(keepsNT_step s (.next m) rfl (fun h => h) (fun h => h)).1] at hx; exact Or.inl hx
  | conflicting m => intro x hx; rw [(keepsNT_step s (.conflicting m) rfl (fun h => h) (fun h => h)).1] at hx; exact Or.inl hx
  | atSpan a b => intro x hx; rw [(keepsNT_step s (.atSpan a b) rfl (fun h => h) (fun h => h)).1] at hx; exact Or.inl hx
  | chainBefore a b c d => intro x hx; rw [(keepsNT_step s (.chainBefore a b c d) rfl (fun h => h) (fun h => h)).1] at hx; exact Or.inl hx
  | chainAfter a b c d => intro x hx; rw [(keepsNT_step s (.chainAfter a b c d) rfl (fun h => h) (fun h => h)).1] at hx; exact Or.inl hx
  | holes a b c d => intro x hx; rw [(keepsNT_step s (.holes a b c d) rfl (fun h => h) (fun h => h)).1] at hx; exact Or.inl hx

/-! ## One call -/

section
variable {κ : Type} [DecidableEq κ]

/-- What one call does to a dictionary: `looks` tells whether the call looks at it, `asks` which keys it asks for. -/
def KeyStep (keysOf : Match → List κ) (looks : Prop) (asks : κ → Prop) (d d' : Option (Index κ)) (l l' : List Match) : Prop :=
  (d = none → ¬ looks → d' = none) ∧
  (d = none → looks → ∃ e', d' = some e' ∧ ∀ k, k ∈ e'.keys ↔ asks k ∨ ∃ m ∈ l', k ∈ keysOf m) ∧
  (∀ e, d = some e → (∀ m ∈ l, ∀ k ∈ keysOf m, k ∈ e.keys) →
    ∃ e', d' = some e' ∧ ∀ k, k ∈ e'.keys ↔ k ∈ e.keys ∨ asks k ∨ ∃ m ∈ l', k ∈ keysOf m)

theorem Grows.keyStep {keysOf : Match → List κ} {looks : Prop} {asks : κ → Prop} {d d' : Option (Index κ)} {l l' : List Match}
    (h : Grows keysOf d d' l l') (hl : ¬ looks) (ha : ∀ k, ¬ asks k) : KeyStep keysOf looks asks d d' l l' := by
  refine ⟨fun hd _ => h.1 hd, fun _ h => absurd h hl, fun e he hc => ?_⟩
  obtain ⟨e', he', hk⟩ := h.2 e he hc
  exact ⟨e', he', fun k => by rw [hk]; simp [ha]⟩

end

/-- Where no call of the name dictionary is concerned. -/
theorem not_asks_of_not_looks {op : Op} (h : ¬ LooksAtNames op) (n : String) : ¬ AsksName op n := by
  rintro ⟨ns, rfl, hn⟩
  exact h (fun e => by rw [e] at hn; cases hn)

theorem not_asksTag_of_not_looks {op : Op} (h : ¬ LooksAtTags op) (t : String) : ¬ AsksTag op t := by
  rintro rfl
  exact h trivial

theorem namedLoop_keys : ∀ (ns : List String) (s : Matches) (acc : List Match), ns ≠ [] →
    ∃ e, (namedLoop ns s acc).1.nameD = some e ∧ ∀ k, k ∈ e.keys ↔ k ∈ s.nameDict.keys ∨ k ∈ ns := by
  intro ns
  induction ns with
  | nil => intro s acc h; exact absurd rfl h
  | cons n ns ih =>
    intro s acc _
    rw [namedLoop]
    simp only
    by_cases h : ns = []
    · subst h
      refine ⟨s.nameDict.touch n, rfl, fun k => ?_⟩
      rw [Dict.mem_keys_touch_iff, List.mem_singleton]
      exact or_comm
    · obtain ⟨e, he, hk⟩ := ih (s.lookName n).1 (acc ++ (s.lookName n).2) h
      refine ⟨e, he, fun k => ?_⟩
      rw [hk, show (s.lookName n).1.nameDict = s.nameDict.touch n from rfl, Dict.mem_keys_touch_iff, List.mem_cons]
      constructor
      · rintro ((h | h) | h)
        · exact Or.inr (Or.inl h)
        · exact Or.inl h
        · exact Or.inr (Or.inr h)
      · rintro (h | h | h)
        · exact Or.inl (Or.inr h)
        · exact Or.inl (Or.inl h)
        · exact Or.inr h

theorem named_tagD : ∀ (ns : List String) (s : Matches) (acc : List Match), (namedLoop ns s acc).1.tagD = s.tagD ∧
    (namedLoop ns s acc).1.delegate = s.delegate ∧ (namedLoop ns s acc).1.isMarkers = s.isMarkers ∧ (namedLoop ns s acc).1.endD = s.endD ∧
    (namedLoop ns s acc).1.maxEnd = s.maxEnd := by
  intro ns
  induction ns with
  | nil => intro s acc; exact ⟨rfl, rfl, rfl, rfl, rfl⟩
  | cons n ns ih => intro s acc; rw [namedLoop]; exact ih _ _

theorem mem_fromKeys (l : List String) (k : String) : k ∈ fromKeys l ↔ k ∈ l := by
  have aux : ∀ (l acc : List String), k ∈ l.foldl (fun acc a => if acc.contains a then acc else acc ++ [a]) acc ↔ k ∈ acc ∨ k ∈ l := by
    intro l
    induction l with
    | nil => simp
    | cons x xs ih =>
      intro acc
      rw [List.foldl_cons, ih]
      by_cases h : acc.contains x = true
      · rw [if_pos h, List.mem_cons]
        have : x ∈ acc := by simpa using h
        constructor
        · exact fun h => h.imp id Or.inr
        · rintro (h | rfl | h)
          · exact Or.inl h
          · exact Or.inl this
          · exact Or.inr h
      · rw [if_neg h, List.mem_cons, List.mem_append, List.mem_singleton]
        exact or_assoc
  unfold fromKeys
  rw [aux]
  simp

theorem nameDict_keys {s : Matches} (k : String) :
    (s.nameD = none → (k ∈ s.nameDict.keys ↔ ∃ m ∈ s.delegate, k ∈ nameKeys m)) ∧ ∀ e, s.nameD = some e → s.nameDict = e := by
  refine ⟨fun h => ?_, fun e h => by unfold nameDict; rw [h]; rfl⟩
  unfold nameDict
  rw [h]
  exact keys_buildName _ _

theorem tagDict_keys {s : Matches} (k : String) :
    (s.tagD = none → (k ∈ s.tagDict.keys ↔ ∃ m ∈ s.delegate, k ∈ tagKeys m)) ∧ ∀ e, s.tagD = some e → s.tagDict = e := by
  refine ⟨fun h => ?_, fun e h => by unfold tagDict; rw [h]; rfl⟩
  unfold tagDict
  rw [h]
  exact keys_buildEach _ _ _

theorem keyStep_names {s : Matches} (op : Op) (hf : Fits s.isMarkers op) (hs : ∀ x ∈ s.delegate, x.marker = s.isMarkers) :
    KeyStep nameKeys (LooksAtNames op) (AsksName op) s.nameD (s.step op).1.nameD s.delegate (s.step op).1.delegate ∧
      (s.step op).1.isMarkers = s.isMarkers := by
  by_cases hn : LooksAtNames op
  · have key : ∀ (t : Matches) (e' : Index String), t.nameD = some e' → t.delegate = s.delegate → (∀ k, k ∈ e'.keys ↔ k ∈ s.nameDict.keys ∨ AsksName op k) →
        KeyStep nameKeys (LooksAtNames op) (AsksName op) s.nameD t.nameD s.delegate t.delegate := by
      intro t e' ht hd hk
      refine ⟨fun _ h => absurd hn h, fun h _ => ⟨e', ht, fun k => ?_⟩, fun e he hc => ⟨e', ht, fun k => ?_⟩⟩
      · rw [hk, (nameDict_keys k).1 h, hd]; exact or_comm
      · rw [hk, (nameDict_keys k).2 e he, hd]
        constructor
        · rintro (h | h)
          · exact Or.inl h
          · exact Or.inr (Or.inl h)
        · rintro (h | h | ⟨m, hm, hk⟩)
          · exact Or.inl h
          · exact Or.inr h
          · exact Or.inl (hc m hm k hk)
    cases op with
    | named ns =>
      have hne : fromKeys ns ≠ [] := by
        cases ns with
        | nil => exact absurd rfl hn
        | cons n ns => exact List.ne_nil_of_mem ((mem_fromKeys (n :: ns) n).2 List.mem_cons_self)
      obtain ⟨e, he, hk⟩ := namedLoop_keys (fromKeys ns) s [] hne
      obtain ⟨_, h2, h3, _⟩ := named_tagD (fromKeys ns) s []
      refine ⟨key _ e he h2 (fun k => ?_), h3⟩
      rw [hk, mem_fromKeys]
      refine or_congr Iff.rfl ⟨fun h => ⟨ns, rfl, h⟩, ?_⟩
      rintro ⟨ns', he, h⟩
      cases he
      exact h
    | names =>
      refine ⟨key _ s.nameDict rfl rfl (fun k => ⟨Or.inl, fun h => h.elim id ?_⟩), rfl⟩
      rintro ⟨ns', he, _⟩
      cases he
    | _ => exact absurd hn (fun h => h)
  · have ha := fun k => not_asks_of_not_looks hn k
    by_cases hl : isLookup op = true
    · by_cases ht : LooksAtTags op
      · cases op with
        | tagged | tags => exact ⟨Grows.keyStep (.refl _ _ (fun _ h => h)) hn ha, rfl⟩
        | _ => exact absurd ht (fun h => h)
      · obtain ⟨h1, h2, _, h4, _⟩ := keepsNT_step s op hl hn ht
        rw [h1, h2]
        exact ⟨Grows.keyStep (.refl _ _ (fun _ h => h)) hn ha, h4⟩
    · obtain ⟨h1, _, h3⟩ := growsNT_step op (by simpa using hl) hf hs
      exact ⟨Grows.keyStep h1 hn ha, h3⟩

theorem keyStep_tags {s : Matches} (op : Op) (hf : Fits s.isMarkers op) (hs : ∀ x ∈ s.delegate, x.marker = s.isMarkers) :
    KeyStep tagKeys (LooksAtTags op) (AsksTag op) s.tagD (s.step op).1.tagD s.delegate (s.step op).1.delegate := by
  by_cases hn : LooksAtTags op
  · have key : ∀ (t : Matches) (e' : Index String), t.tagD = some e' → t.delegate = s.delegate → (∀ k, k ∈ e'.keys ↔ k ∈ s.tagDict.keys ∨ AsksTag op k) →
        KeyStep tagKeys (LooksAtTags op) (AsksTag op) s.tagD t.tagD s.delegate t.delegate := by
      intro t e' ht hd hk
      refine ⟨fun _ h => absurd hn h, fun h _ => ⟨e', ht, fun k => ?_⟩, fun e he hc => ⟨e', ht, fun k => ?_⟩⟩
      · rw [hk, (tagDict_keys k).1 h, hd]; exact or_comm
      · rw [hk, (tagDict_keys k).2 e he, hd]
        constructor
        · rintro (h | h)
          · exact Or.inl h
          · exact Or.inr (Or.inl h)
        · rintro (h | h | ⟨m, hm, hk⟩)
          · exact Or.inl h
          · exact Or.inr h
          · exact Or.inl (hc m hm k hk)
    cases op with
    | tagged t =>
      refine key _ (s.tagDict.touch t) rfl rfl (fun k => ?_)
      rw [Dict.mem_keys_touch_iff]
      refine or_comm.trans (or_congr Iff.rfl ⟨fun h => by rw [h]; rfl, ?_⟩)
      intro he
      cases he
      rfl
    | tags =>
      refine key _ s.tagDict rfl rfl (fun k => ⟨Or.inl, fun h => h.elim id ?_⟩)
      intro he
      cases he
    | _ => exact absurd hn (fun h => h)
  · have ha := fun k => not_asksTag_of_not_looks hn k
    by_cases hl : isLookup op = true
    · by_cases ht : LooksAtNames op
      · cases op with
        | named ns =>
          obtain ⟨h1, h2, _⟩ := named_tagD (fromKeys ns) s []
          have h1' : (s.step (.named ns)).1.tagD = s.tagD := h1
          have h2' : (s.step (.named ns)).1.delegate = s.delegate := h2
          rw [h1', h2']
          exact Grows.keyStep (.refl _ _ (fun _ h => h)) hn ha
        | names => exact Grows.keyStep (.refl _ _ (fun _ h => h)) hn ha
        | _ => exact absurd ht (fun h => h)
      · obtain ⟨h1, _, h3, _⟩ := keepsNT_step s op hl ht hn
        rw [h1, h3]
        exact Grows.keyStep (.refl _ _ (fun _ h => h)) hn ha
    · exact Grows.keyStep (growsNT_step op (by simpa using hl) hf hs).2.1 hn ha

/-! ## Histories -/

theorem after_snoc (s : Matches) (ops : List Op) (op : Op) {k : Nat} (h : k ≤ ops.length) : after s (ops ++ [op]) k = after s ops k := by
  unfold after
  rw [List.take_append_of_le_length h]

theorem runOps_snoc (s : Matches) (ops : List Op) (op : Op) : s.runOps (ops ++ [op]) = ((s.runOps ops).step op).1 := by
  unfold runOps
  rw [List.foldl_append]
  rfl

theorem after_length (s : Matches) (ops : List Op) : after s ops ops.length = s.runOps ops := by unfold after; rw [List.take_length]

theorem heldSince_snoc (s : Matches) (ops : List Op) (op : Op) {j : Nat} (h : j ≤ ops.length) (P : Match → Prop) :
    HeldSince s (ops ++ [op]) j P ↔ HeldSince s ops j P ∨ ∃ m ∈ (s.runOps (ops ++ [op])).delegate, P m := by
  constructor
  · rintro ⟨k, hk1, hk2, m, hm, hp⟩
    rw [List.length_append, List.length_singleton] at hk2
    by_cases hk : k ≤ ops.length
    · rw [after_snoc s ops op hk] at hm
      exact Or.inl ⟨k, hk1, hk, m, hm, hp⟩
    · have : k = (ops ++ [op]).length := by rw [List.length_append, List.length_singleton]; omega
      rw [this, after_length] at hm
      exact Or.inr ⟨m, hm, hp⟩
  · rintro (⟨k, hk1, hk2, m, hm, hp⟩ | ⟨m, hm, hp⟩)
    · exact ⟨k, hk1, by rw [List.length_append]; omega, m, by rw [after_snoc s ops op hk2]; exact hm, hp⟩
    · exact ⟨(ops ++ [op]).length, by rw [List.length_append]; omega, Nat.le_refl _, m, by rw [after_length]; exact hm, hp⟩

theorem askedSince_snoc (ops : List Op) (op : Op) {j : Nat} (h : j ≤ ops.length) (P : Op → Prop) :
    AskedSince (ops ++ [op]) j P ↔ AskedSince ops j P ∨ P op := by
  constructor
  · rintro ⟨k, o, hk1, hk2, hp⟩
    rcases Nat.lt_trichotomy k ops.length with hk | hk | hk
    · rw [List.getElem?_append_left hk] at hk2
      exact Or.inl ⟨k, o, hk1, hk2, hp⟩
    · subst hk
      rw [List.getElem?_concat_length] at hk2
      cases hk2
      exact Or.inr hp
    · rw [List.getElem?_eq_none (by rw [List.length_append, List.length_singleton]; omega)] at hk2
      cases hk2
  · rintro (⟨k, o, hk1, hk2, hp⟩ | hp)
    · have hk := (List.getElem?_eq_some_iff.1 hk2).1
      exact ⟨k, o, hk1, by rw [List.getElem?_append_left hk]; exact hk2, hp⟩
    · exact ⟨ops.length, op, h, List.getElem?_concat_length, hp⟩

theorem snoc_induction {α : Type} {P : List α → Prop} (h0 : P []) (h1 : ∀ l a, P l → P (l ++ [a])) : ∀ l, P l := by
  have : ∀ n l, List.length l = n → P l := by
    intro n
    induction n with
    | zero => intro l hl; rw [List.eq_nil_of_length_eq_zero hl]; exact h0
    | succ n ih =>
      intro l hl
      rcases List.eq_nil_or_concat l with rfl | ⟨l', a, rfl⟩
      · exact h0
      · rw [List.concat_eq_append]
        rw [List.concat_eq_append, List.length_append, List.length_singleton] at hl
        exact h1 _ _ (ih l' (by omega))
  exact fun l => this _ l rfl

theorem firstCall_snoc {ops : List Op} {op : Op} {P : Op → Prop} {j : Nat} (h : FirstCall (ops ++ [op]) P j) :
    (j < ops.length ∧ FirstCall ops P j) ∨ (FirstCall ops P ops.length ∧ ((j = ops.length ∧ P op) ∨ (j = ops.length + 1 ∧ ¬ P op))) := by
  obtain ⟨h1, h2, h3⟩ := h
  rw [List.length_append, List.length_singleton] at h1
  by_cases hj : j < ops.length
  · refine Or.inl ⟨hj, Nat.le_of_lt hj, fun k o hk ho => h2 k o hk ?_, fun o ho => h3 o ?_⟩
    · rw [List.getElem?_append_left (by omega)]; exact ho
    · rw [List.getElem?_append_left hj]; exact ho
  · refine Or.inr ⟨⟨Nat.le_refl _, fun k o hk ho => h2 k o (by omega) (by rw [List.getElem?_append_left hk]; exact ho),
      fun o ho => by rw [List.getElem?_eq_none (Nat.le_refl _)] at ho; cases ho⟩, ?_⟩
    rcases Nat.lt_or_ge ops.length j with h' | h'
    · exact Or.inr ⟨by omega, h2 ops.length op h' List.getElem?_concat_length⟩
    · have : j = ops.length := by omega
      subst this
      exact Or.inl ⟨rfl, h3 op List.getElem?_concat_length⟩

section
variable {κ : Type} [DecidableEq κ]

theorem keys_history {proj : Matches → Option (Index κ)} {keysOf : Match → List κ} {looks : Op → Prop} {asks : Op → κ → Prop}
    (hstep : ∀ (s : Matches) op, Fits s.isMarkers op → (∀ x ∈ s.delegate, x.marker = s.isMarkers) →
      KeyStep keysOf (looks op) (asks op) (proj s) (proj (s.step op).1) s.delegate (s.step op).1.delegate)
    (hlook : ∀ (s : Matches) op, looks op → (s.step op).1.delegate = s.delegate)
    {s : Matches} (h0 : proj s = none) (hs : ∀ x ∈ s.delegate, x.marker = s.isMarkers) : ∀ (ops : List Op), (∀ op ∈ ops, Fits s.isMarkers op) →
    (∀ x ∈ (s.runOps ops).delegate, x.marker = s.isMarkers) ∧ (s.runOps ops).isMarkers = s.isMarkers ∧
    ∀ j, FirstCall ops looks j → (j = ops.length → proj (s.runOps ops) = none) ∧
      (j < ops.length → ∃ e, proj (s.runOps ops) = some e ∧
        ∀ k, k ∈ e.keys ↔ HeldSince s ops j (fun m => k ∈ keysOf m) ∨ AskedSince ops j (fun op => asks op k)) := by
  refine snoc_induction ?_ ?_
  · intro _
    exact ⟨hs, rfl, fun j _ => ⟨fun _ => h0, fun hj => absurd hj (Nat.not_lt_zero _)⟩⟩
  · intro ops op ih hf
    obtain ⟨i1, i2, i3⟩ := ih (fun o ho => hf o (List.mem_append_left _ ho))
    have hfo : Fits (s.runOps ops).isMarkers op := by rw [i2]; exact hf op (List.mem_append_right _ (List.mem_singleton_self _))
    have hso : ∀ x ∈ (s.runOps ops).delegate, x.marker = (s.runOps ops).isMarkers := by rw [i2]; exact i1
    have hst := hstep (s.runOps ops) op hfo hso
    have hmk := (keyStep_names op hfo hso).2
    have hmem := step_mem op hso
    rw [← runOps_snoc] at hst hmk hmem
    refine ⟨fun x hx => ?_, hmk.trans i2, fun j hj => ?_⟩
    · rcases hmem x hx with h | h
      · exact i1 x h
      · exact (hfo x h).trans i2
    · rcases firstCall_snoc hj with ⟨hlt, hj'⟩ | ⟨hnone, hj'⟩
      · refine ⟨fun h => by rw [List.length_append, List.length_singleton] at h; omega, fun _ => ?_⟩
        obtain ⟨e, he, hk⟩ := (i3 j hj').2 hlt
        obtain ⟨e', he', hk'⟩ := hst.2.2 e he (fun m hm k hkm => (hk k).2 (Or.inl
          ⟨ops.length, Nat.le_of_lt hlt, Nat.le_refl _, m, by rw [after_length]; exact hm, hkm⟩))
        refine ⟨e', he', fun k => ?_⟩
        rw [hk', hk, heldSince_snoc _ _ _ (Nat.le_of_lt hlt), askedSince_snoc _ _ (Nat.le_of_lt hlt)]
        constructor
        · rintro ((h | h) | h | h)
          · exact Or.inl (Or.inl h)
          · exact Or.inr (Or.inl h)
          · exact Or.inr (Or.inr h)
          · exact Or.inl (Or.inr h)
        · rintro ((h | h) | h | h)
          · exact Or.inl (Or.inl h)
          · exact Or.inr (Or.inr h)
          · exact Or.inl (Or.inr h)
          · exact Or.inr (Or.inl h)
      · have hn := (i3 _ hnone).1 rfl
        rcases hj' with ⟨rfl, hl⟩ | ⟨rfl, hl⟩
        · refine ⟨fun h => by rw [List.length_append, List.length_singleton] at h; omega, fun _ => ?_⟩
          obtain ⟨e', he', hk'⟩ := hst.2.1 hn hl
          refine ⟨e', he', fun k => ?_⟩
          have hheld : HeldSince s ops ops.length (fun m => k ∈ keysOf m) ↔ ∃ m ∈ (s.runOps (ops ++ [op])).delegate, k ∈ keysOf m := by
            rw [runOps_snoc, hlook _ _ hl]
            constructor
            · rintro ⟨i, hi1, hi2, m, hm, hp⟩
              have : i = ops.length := by omega
              subst this
              rw [after_length] at hm
              exact ⟨m, hm, hp⟩
            · rintro ⟨m, hm, hp⟩
              exact ⟨ops.length, Nat.le_refl _, Nat.le_refl _, m, by rw [after_length]; exact hm, hp⟩
          have hask : ¬ AskedSince ops ops.length (fun op => asks op k) := by
            rintro ⟨i, o, hi, ho, _⟩
            rw [List.getElem?_eq_none hi] at ho
            cases ho
          rw [hk', heldSince_snoc _ _ _ (Nat.le_refl _), askedSince_snoc _ _ (Nat.le_refl _), hheld]
          constructor
          · rintro (h | h)
            · exact Or.inr (Or.inr h)
            · exact Or.inl (Or.inl h)
          · rintro ((h | h) | h | h)
            · exact Or.inr h
            · exact Or.inr h
            · exact absurd h hask
            · exact Or.inl h
        · exact ⟨fun _ => hst.1 hn hl, fun h => by rw [List.length_append, List.length_singleton] at h; omega⟩

end
/-! ## The greatest end -/

/-- The keys of the dictionary of ends, when it is built. -/
def endKeysNow (s : Matches) : List Int := match s.endD with | some d => d.keys | none => []

/-- `_max_end` only grows and takes its values among the keys of the dictionary of ends and the numbers `A`; the keys grow by numbers `A`. -/
structure EndStep (A : Int → Prop) (s s' : Matches) : Prop where
  grows : s.maxEnd ≤ s'.maxEnd
  keys : ∀ k ∈ endKeysNow s', k ∈ endKeysNow s ∨ A k
  value : s'.maxEnd = s.maxEnd ∨ s'.maxEnd ∈ endKeysNow s ∨ A s'.maxEnd
  bounded : (∀ m ∈ s.delegate, m.stop ≤ s.maxEnd) → ∀ m ∈ s'.delegate, m.stop ≤ s'.maxEnd

theorem EndStep.of_same {A : Int → Prop} {s s' : Matches} (h1 : s'.maxEnd = s.maxEnd) (h2 : s'.endD = s.endD)
    (h3 : ∀ m ∈ s'.delegate, m ∈ s.delegate) : EndStep A s s' :=
  ⟨by rw [h1]; exact Int.le_refl _, fun k hk => Or.inl (by unfold endKeysNow at hk ⊢; rw [← h2]; exact hk), Or.inl h1,
    fun hb m hm => by rw [h1]; exact hb m (h3 m hm)⟩

theorem EndStep.refl (A : Int → Prop) (s : Matches) : EndStep A s s := .of_same rfl rfl (fun _ h => h)

theorem EndStep.trans {A : Int → Prop} {a b c : Matches} (h : EndStep A a b) (h' : EndStep A b c) : EndStep A a c := by
  have hv : b.maxEnd = a.maxEnd ∨ b.maxEnd ∈ endKeysNow a ∨ A b.maxEnd := h.value
  refine ⟨Int.le_trans h.grows h'.grows, fun k hk => ?_, ?_, fun hb => h'.bounded (h.bounded hb)⟩
  · rcases h'.keys k hk with h' | h'
    · exact h.keys k h'
    · exact Or.inr h'
  · rcases h'.value with h' | h' | h'
    · rw [h']; exact hv
    · exact Or.inr (h.keys _ h')
    · exact Or.inr (Or.inr h')

theorem endStep_addMatch {A : Int → Prop} {s : Matches} {l' : List Match} {m : Match} (hk : m.marker = s.isMarkers) (ha : A m.stop)
    (hl : ∀ x ∈ l', x ∈ s.delegate ∨ x = m) : EndStep A s (addMatch { s with delegate := l' } m).1 := by
  have he : (addMatch { s with delegate := l' } m).1 = addMatchBase { s with delegate := l' } m := by
    unfold addMatch
    rw [if_pos (by simp [hk])]
  rw [he]
  refine ⟨?_, ?_, ?_, ?_⟩
  · show s.maxEnd ≤ max s.maxEnd m.stop
    omega
  · intro k hk'
    unfold endKeysNow at hk' ⊢
    cases hd : s.endD with
    | none => simp only [addMatchBase, addTo, hd, Option.map_none] at hk'; cases hk'
    | some d =>
      simp only [addMatchBase, addTo, hd, Option.map_some] at hk'
      rw [keys_addKeys] at hk'
      rcases hk' with h | h
      · exact Or.inl h
      · rw [List.mem_singleton.1 h]; exact Or.inr ha
  · show max s.maxEnd m.stop = s.maxEnd ∨ max s.maxEnd m.stop ∈ endKeysNow s ∨ A (max s.maxEnd m.stop)
    rcases Int.le_total s.maxEnd m.stop with h | h
    · right; right
      rw [show max s.maxEnd m.stop = m.stop by omega]
      exact ha
    · left; omega
  · intro hb x hx
    show x.stop ≤ max s.maxEnd m.stop
    rcases hl x hx with h | h
    · have := hb x h
      omega
    · subst h
      omega

theorem maxKey_mem {ks : List Int} (h : ks ≠ []) : maxKey ks ∈ ks := by
  cases ks with
  | nil => exact absurd rfl h
  | cons a ks =>
    have : ∀ (ks : List Int) (a : Int), ks.foldl max a = a ∨ ks.foldl max a ∈ ks := by
      intro ks
      induction ks with
      | nil => intro a; exact Or.inl rfl
      | cons b ks ih =>
        intro a
        rw [List.foldl_cons]
        rcases ih (max a b) with h | h
        · rw [h]
          rcases Int.le_total a b with hab | hab
          · exact Or.inr (by rw [show max a b = b by omega]; exact List.mem_cons_self)
          · exact Or.inl (by omega)
        · exact Or.inr (List.mem_cons_of_mem _ h)
    show ks.foldl max a ∈ a :: ks
    rcases this ks a with h | h
    · rw [h]; exact List.mem_cons_self
    · exact List.mem_cons_of_mem _ h

theorem endStep_shrink {A : Int → Prop} {s : Matches} {m : Match} (ha : A m.stop) (hd : ∀ x ∈ s.delegate, A x.stop) :
    EndStep A s (s.shrinkMaxEnd m) := by
  unfold shrinkMaxEnd
  by_cases hle : s.maxEnd ≤ m.stop
  · rw [if_pos hle]
    simp only
    have hkeys : ∀ k ∈ (s.endDict.touch m.stop).keys, k ∈ endKeysNow s ∨ A k := by
      intro k hk
      rw [Dict.mem_keys_touch_iff] at hk
      rcases hk with h | h
      · rw [h]; exact Or.inr ha
      · unfold endDict at h
        unfold endKeysNow
        cases he : s.endD with
        | some d => rw [he] at h; exact Or.inl h
        | none =>
          rw [he] at h
          simp only [Option.getD_none] at h
          unfold buildEnd at h
          rw [keys_buildGroups] at h
          obtain ⟨x, hx, hs⟩ := h
          exact Or.inr (hs ▸ hd x hx)
    have hmem : m.stop ∈ (s.endDict.touch m.stop).keys := Dict.mem_keys_touch _ _
    split
    · have hge : m.stop ≤ maxKey (s.endDict.touch m.stop).keys := le_maxKey hmem
      refine ⟨Int.le_trans hle hge, hkeys, Or.inr (hkeys _ (maxKey_mem (List.ne_nil_of_mem hmem))), fun hb x hx => ?_⟩
      exact Int.le_trans (hb x hx) (Int.le_trans hle hge)
    · exact ⟨Int.le_refl _, hkeys, Or.inl rfl, fun hb => hb⟩
  · rw [if_neg hle]; exact .refl A s

theorem endStep_removeMatch {A : Int → Prop} {s : Matches} {m : Match} (ha : A m.stop) (hd : ∀ x ∈ s.delegate, A x.stop) :
    EndStep A s (s.removeMatch m).1 := by
  have hends : ∀ k ∈ (match (removeFrom s.endD (endKeys m) m).1 with | some d => Dict.keys d | none => []), k ∈ endKeysNow s ∨ A k := by
    intro k hk
    unfold endKeysNow
    cases he : s.endD with
    | none => rw [he] at hk; cases hk
    | some d =>
      rw [he] at hk
      rcases keys_removeKeys_sub m k (endKeys m) d hk with h | h
      · exact Or.inl h
      · rw [List.mem_singleton.1 h]; exact Or.inr ha
  simp only [removeMatch]
  split
  · exact .of_same rfl rfl (fun _ h => h)
  · split
    · exact .of_same rfl rfl (fun _ h => h)
    · split
      · exact .of_same rfl rfl (fun _ h => h)
      · split
        · exact ⟨Int.le_refl _, hends, Or.inl rfl, fun hb => hb⟩
        · split
          · exact ⟨Int.le_refl _, hends, Or.inl rfl, fun hb => hb⟩
          · have hsh := fun (t : Matches) (ht : ∀ x ∈ t.delegate, A x.stop) => endStep_shrink (s := t) ha ht
            have h1 : ∀ t : Matches, t.maxEnd = s.maxEnd → t.endD = (removeFrom s.endD (endKeys m) m).1 → t.delegate = s.delegate →
                EndStep A s (t.shrinkMaxEnd m) := fun t h1 h2 h3 =>
              EndStep.trans (b := t) ⟨by rw [h1]; exact Int.le_refl _, fun k hk => hends k (by unfold endKeysNow at hk; rw [h2] at hk; exact hk),
                Or.inl h1, fun hb x hx => by rw [h1]; exact hb x (h3 ▸ hx)⟩ (hsh t (by rw [h3]; exact hd))
            exact h1 _ rfl rfl rfl

theorem endStep_removeAll {A : Int → Prop} : ∀ (ms : List Match) {t : Matches}, (∀ m ∈ ms, A m.stop) →
    (∀ x ∈ t.delegate, A x.stop) → EndStep A t (t.removeAll ms).1 := by
  intro ms
  induction ms with
  | nil => intro t _ _; exact .refl A t
  | cons m ms ih =>
    intro t hm hd
    have h := endStep_removeMatch (hm m List.mem_cons_self) hd
    rw [removeAll]
    have hdel := (removeMatch_shape t m).1
    cases hr : t.removeMatch m with
    | mk t' o =>
      rw [hr] at h hdel
      cases o with
      | none => exact h.trans (ih (fun x hx => hm x (List.mem_cons_of_mem _ hx)) (fun x hx => hd x (hdel ▸ hx)))
      | some e => exact h

theorem endStep_insert {A : Int → Prop} {s : Matches} (i : Int) {m : Match} (hk : m.marker = s.isMarkers) (ha : A m.stop) :
    EndStep A s (s.insert i m).1 := by
  have hb : clampIdx s.delegate.length i ≤ s.delegate.length := by
    unfold clampIdx; split <;> omega
  exact endStep_addMatch hk ha (fun x hx => ((List.mem_insertIdx hb).1 hx).symm)

theorem endStep_extend {A : Int → Prop} : ∀ (ms : List Match) {s : Matches}, (∀ m ∈ ms, m.marker = s.isMarkers) → (∀ m ∈ ms, A m.stop) →
    EndStep A s (s.extend ms).1 := by
  intro ms
  induction ms with
  | nil => intro s _ _; exact .refl A s
  | cons m ms ih =>
    intro s hk ha
    have h := endStep_insert (s := s) s.length (hk m List.mem_cons_self) (ha m List.mem_cons_self)
    have hm := (growsNT_insert (s := s) s.length (hk m List.mem_cons_self)).1.2.2
    rw [extend, append]
    cases hr : s.insert s.length m with
    | mk t o =>
      rw [hr] at h hm
      cases o with
      | none => exact h.trans (ih (fun x hx => (hk x (List.mem_cons_of_mem _ hx)).trans hm.symm) (fun x hx => ha x (List.mem_cons_of_mem _ hx)))
      | some e => exact h

theorem endStep_delItem {A : Int → Prop} {s : Matches} (i : Int) (hd : ∀ x ∈ s.delegate, A x.stop) : EndStep A s (s.delItem i).1 := by
  unfold delItem
  cases normIdx s.delegate.length i with
  | none => exact .refl A s
  | some k =>
    simp only
    cases hg : s.delegate[k]? with
    | none => exact .refl A s
    | some m =>
      have hsub : ∀ x ∈ s.delegate.eraseIdx k, x ∈ s.delegate := fun x hx => List.mem_of_mem_eraseIdx hx
      exact EndStep.trans (b := { s with delegate := s.delegate.eraseIdx k }) (.of_same rfl rfl hsub)
        (endStep_removeMatch (hd m (List.mem_of_getElem? hg)) (fun x hx => hd x (hsub x hx)))

theorem endStep_pop {A : Int → Prop} {s : Matches} (i : Int) (hd : ∀ x ∈ s.delegate, A x.stop) : EndStep A s (s.pop i).1 := by
  unfold pop
  cases s.getItem i with
  | error e => exact .refl A s
  | ok m =>
    have h := endStep_delItem i hd
    simp only
    cases hr : s.delItem i with
    | mk t o => rw [hr] at h; cases o <;> exact h

theorem endStep_clearLoop {A : Int → Prop} : ∀ (n : Nat) {s : Matches}, (∀ x ∈ s.delegate, A x.stop) → EndStep A s (clearLoop n s).1 := by
  intro n
  induction n with
  | zero => intro s _; exact .refl A s
  | succ n ih =>
    intro s hd
    have h := endStep_pop (-1) hd
    have hm := (growsNT_pop s (-1)).2
    rw [clearLoop]
    cases hr : s.pop with
    | mk t o =>
      rw [hr] at h hm
      cases o with
      | ok m => exact h.trans (ih (fun x hx => hd x (hm x hx)))
      | error e => cases e <;> exact h

theorem endStep_setItem {A : Int → Prop} {s : Matches} (i : Int) {m : Match} (hk : m.marker = s.isMarkers)
    (ha : ∀ k, normIdx s.delegate.length i = some k → A m.stop) : EndStep A s (s.setItem i m).1 := by
  unfold setItem
  cases hn : normIdx s.delegate.length i with
  | none => exact .refl A s
  | some k => exact endStep_addMatch hk (ha k hn) (fun x hx => List.mem_or_eq_of_mem_set hx)

theorem endStep_swap {A : Int → Prop} {s : Matches} (h : ∀ x ∈ s.delegate, x.marker = s.isMarkers) (hd : ∀ x ∈ s.delegate, A x.stop) (i j : Int) :
    EndStep A s (s.swapItems i j).1 := by
  unfold swapItems getItem
  cases hj : pyGet s.delegate j with
  | none => exact .refl A s
  | some mj =>
    cases hi : pyGet s.delegate i with
    | none => exact .refl A s
    | some mi =>
      simp only
      have h1 := endStep_setItem (s := s) (A := A) i (h mj (mem_of_pyGet hj)) (fun _ _ => hd _ (mem_of_pyGet hj))
      have h2 := (growsNT_setItem (s := s) i (h mj (mem_of_pyGet hj))).1.2.2
      cases hr : s.setItem i mj with
      | mk t o =>
        rw [hr] at h1 h2
        cases o with
        | some e => exact h1
        | none => exact h1.trans (endStep_setItem (s := t) j ((h mi (mem_of_pyGet hi)).trans h2.symm) (fun _ _ => hd _ (mem_of_pyGet hi)))

theorem endStep_reverseLoop {A : Int → Prop} (n : Nat) : ∀ (is : List Nat) {s : Matches}, (∀ x ∈ s.delegate, x.marker = s.isMarkers) →
    (∀ x ∈ s.delegate, A x.stop) → EndStep A s (reverseLoop n is s).1 := by
  intro is
  induction is with
  | nil => intro s _ _; exact .refl A s
  | cons i is ih =>
    intro s h hd
    have h1 := endStep_swap h hd (i : Int) ((n : Int) - i - 1)
    obtain ⟨k1, k2⟩ := growsNT_swap h (i : Int) ((n : Int) - i - 1)
    rw [reverseLoop]
    cases hr : s.swapItems (i : Int) ((n : Int) - i - 1) with
    | mk t o =>
      rw [hr] at h1 k1 k2
      cases o with
      | some e => exact h1
      | none => exact h1.trans (ih (fun x hx => (h x (k2 x hx)).trans k1.2.2.symm) (fun x hx => hd x (k2 x hx)))

theorem endStep_lookEnd {A : Int → Prop} {s : Matches} (k : Int) (ha : A k) (hd : ∀ x ∈ s.delegate, A x.stop) : EndStep A s (s.lookEnd k).1 := by
  refine ⟨Int.le_refl _, fun x hx => ?_, Or.inl rfl, fun hb => hb⟩
  have hx' : x ∈ (s.endDict.touch k).keys := hx
  rw [Dict.mem_keys_touch_iff] at hx'
  rcases hx' with h | h
  · rw [h]; exact Or.inr ha
  · unfold endDict at h
    unfold endKeysNow
    cases he : s.endD with
    | some d => rw [he] at h; exact Or.inl h
    | none =>
      rw [he] at h
      simp only [Option.getD_none] at h
      unfold buildEnd at h
      rw [keys_buildGroups] at h
      obtain ⟨y, hy, hs⟩ := h
      exact Or.inr (hs ▸ hd y hy)

theorem endStep_previousLoop {A : Int → Prop} : ∀ (cs : List Int) {s : Matches}, (∀ c ∈ cs, A c) → (∀ x ∈ s.delegate, A x.stop) →
    EndStep A s (previousLoop cs s).1 := by
  intro cs
  induction cs with
  | nil => intro s _ _; exact .refl A s
  | cons c cs ih =>
    intro s hc hd
    have h := endStep_lookEnd (s := s) c (hc c List.mem_cons_self) hd
    rw [previousLoop]
    simp only
    split
    · exact h.trans (ih (fun x hx => hc x (List.mem_cons_of_mem _ hx)) hd)
    · exact h

/-- The dictionary of ends is left alone. -/
def KeepsEnd (s s' : Matches) : Prop := s'.endD = s.endD ∧ s'.maxEnd = s.maxEnd ∧ s'.delegate = s.delegate

theorem KeepsEnd.refl (s : Matches) : KeepsEnd s s := ⟨rfl, rfl, rfl⟩
theorem KeepsEnd.trans {a b c : Matches} (h : KeepsEnd a b) (h' : KeepsEnd b c) : KeepsEnd a c :=
  ⟨h'.1.trans h.1, h'.2.1.trans h.2.1, h'.2.2.trans h.2.2⟩
theorem KeepsEnd.endStep {A : Int → Prop} {s s' : Matches} (h : KeepsEnd s s') : EndStep A s s' :=
  .of_same h.2.1 h.1 (fun m hm => h.2.2 ▸ hm)

theorem keepsEnd_start (s : Matches) (k : Int) : KeepsEnd s (s.lookStart k).1 := ⟨rfl, rfl, rfl⟩
theorem keepsEnd_index (s : Matches) (k : Int) : KeepsEnd s (s.lookIndex k).1 := ⟨rfl, rfl, rfl⟩

theorem keepsEnd_nextLoop : ∀ (cs : List Int) (s : Matches), KeepsEnd s (nextLoop cs s).1 := by
  intro cs
  induction cs with
  | nil => intro s; exact .refl s
  | cons c cs ih =>
    intro s
    rw [nextLoop]
    simp only
    split
    · exact (keepsEnd_start s c).trans (ih _)
    · exact keepsEnd_start s c

theorem keepsEnd_conflictLoop : ∀ (cs : List Int) (s : Matches) (acc : List Match), KeepsEnd s (conflictLoop cs s acc).1 := by
  intro cs
  induction cs with
  | nil => intro s acc; exact .refl s
  | cons c cs ih =>
    intro s acc
    rw [conflictLoop]
    exact (keepsEnd_index s c).trans (ih _ _)

theorem keepsEnd_conflicting (s : Matches) (m : Match) : KeepsEnd s (s.conflicting m).1 := by
  unfold conflicting
  have := keepsEnd_conflictLoop (pyRange m.start m.stop) s []
  simp only
  split <;> exact this

theorem keepsEnd_chainLoop (seps : Str) (pred : Match → Bool) : ∀ (cs : List Int) (s : Matches) (acc : List Match),
    KeepsEnd s (chainLoop seps pred cs s acc).1 := by
  intro cs
  induction cs with
  | nil => intro s acc; exact .refl s
  | cons c cs ih =>
    intro s acc
    rw [chainLoop]
    simp only
    split
    · split
      · exact keepsEnd_index s c
      · exact keepsEnd_index s c
      · exact (keepsEnd_index s c).trans (ih _ _)
    · exact (keepsEnd_index s c).trans (ih _ _)

theorem keepsEnd_holeScan (ignore : Match → Bool) : ∀ (cs : List Int) (s : Matches), KeepsEnd s (holeScan ignore cs s).1 := by
  intro cs
  induction cs with
  | nil => intro s; exact .refl s
  | cons c cs ih =>
    intro s
    rw [holeScan]
    simp only
    split
    · exact keepsEnd_start s c
    · exact (keepsEnd_start s c).trans (ih _)

theorem keepsEnd_holesLoop (start : Int) (seps : Option Str) (ignore : Match → Bool) : ∀ (cs : List Int) (s : Matches) (h : HoleSt),
    KeepsEnd s (holesLoop start seps ignore cs s h).1 := by
  intro cs
  induction cs with
  | nil => intro s h; exact .refl s
  | cons c cs ih =>
    intro s h
    rw [holesLoop]
    simp only
    split
    · split
      · exact (keepsEnd_index s c).trans (ih _ _)
      · split
        · exact keepsEnd_index s c
        · exact (keepsEnd_index s c).trans (ih _ _)
    · exact (keepsEnd_index s c).trans (ih _ _)

theorem keepsEnd_holes (s : Matches) (a : Int) (b : Option Int) (ig : Match → Bool) (sp : Option Str) : KeepsEnd s (s.holes a b ig sp).1 := by
  unfold holes
  split
  · exact .refl s
  · have h1 : KeepsEnd s (s.holeStart a ig).1 := keepsEnd_holeScan _ _ _
    simp only
    have h2 := h1.trans (keepsEnd_holesLoop a sp ig (pyRange (s.holeStart a ig).2 (s.clampEnd b)) (s.holeStart a ig).1 { rindex := a })
    cases hr : holesLoop a sp ig (pyRange (s.holeStart a ig).2 (s.clampEnd b)) (s.holeStart a ig).1 { rindex := a } with
    | mk t o =>
      rw [hr] at h2
      cases o with
      | error e => exact h2
      | ok h =>
        simp only
        cases h.openAt with
        | none => exact h2
        | some x => exact h2.trans (keepsEnd_holeScan _ _ _)

/-- The numbers a call may add to the ends: the ends of the matches before and after it, and the ends it asks for. -/
def newEnds (s s' : Matches) (op : Op) (k : Int) : Prop := (∃ m, (m ∈ s.delegate ∨ m ∈ s'.delegate) ∧ m.stop = k) ∨ AsksEnd op k

theorem endStep_step {s : Matches} (op : Op) (hf : Fits s.isMarkers op) (hs : ∀ x ∈ s.delegate, x.marker = s.isMarkers) :
    EndStep (newEnds s (s.step op).1 op) s (s.step op).1 := by
  have hd : ∀ x ∈ s.delegate, newEnds s (s.step op).1 op x.stop := fun x hx => Or.inl ⟨x, Or.inl hx, rfl⟩
  cases op with
  | append m =>
    refine endStep_insert _ (hf m (List.mem_singleton_self _)) (Or.inl ⟨m, Or.inr ?_, rfl⟩)
    have : (s.step (.append m)).1.delegate = s.delegate.insertIdx (clampIdx s.delegate.length s.length) m := by
      simp only [step, append, Matches.insert, addMatch]
      split <;> rfl
    rw [this]
    exact (List.mem_insertIdx (by unfold clampIdx; split <;> omega)).2 (Or.inl rfl)
  | insert i m =>
    refine endStep_insert _ (hf m (List.mem_singleton_self _)) (Or.inl ⟨m, Or.inr ?_, rfl⟩)
    have : (s.step (.insert i m)).1.delegate = s.delegate.insertIdx (clampIdx s.delegate.length i) m := by
      simp only [step, Matches.insert, addMatch]
      split <;> rfl
    rw [this]
    exact (List.mem_insertIdx (by unfold clampIdx; split <;> omega)).2 (Or.inl rfl)
  | extend ms =>
    refine endStep_extend ms hf (fun m hm => Or.inl ⟨m, Or.inr ?_, rfl⟩)
    have aux : ∀ (ms : List Match) (s : Matches), (∀ m ∈ ms, m.marker = s.isMarkers) → ∀ m ∈ ms, m ∈ (s.extend ms).1.delegate := by
      intro ms
      induction ms with
      | nil => intro s _ m hm; cases hm
      | cons x ms ih =>
        intro s hk m hm
        obtain ⟨h1, h2, h3⟩ := growsNT_insert (s := s) s.length (hk x List.mem_cons_self)
        rw [extend, append]
        have hx : x ∈ (s.insert s.length x).1.delegate := by
          have : (s.insert s.length x).1.delegate = s.delegate.insertIdx (clampIdx s.delegate.length s.length) x := by
            simp only [Matches.insert, addMatch]
            split <;> rfl
          rw [this]
          exact (List.mem_insertIdx (by unfold clampIdx; split <;> omega)).2 (Or.inl rfl)
        cases hr : s.insert s.length x with
        | mk t o =>
          rw [hr] at h1 h3 hx
          simp only at h3
          subst h3
          have hk' : ∀ y ∈ ms, y.marker = t.isMarkers := fun y hy => (hk y (List.mem_cons_of_mem _ hy)).trans h1.2.2.symm
          rcases List.mem_cons.1 hm with rfl | hm
          · exact (growsNT_extend ms hk').2 _ hx
          · exact ih t hk' m hm
    exact aux ms s hf m hm
  | remove m =>
    simp only [step, remove]
    cases hr : s.delegate.findIdx? (fun x => x.eqv m) with
    | none => exact .refl _ s
    | some k =>
      refine endStep_delItem _ (fun x hx => ?_)
      exact Or.inl ⟨x, Or.inl hx, rfl⟩
  | pop i => exact endStep_pop i hd
  | delItem i => exact endStep_delItem i hd
  | clear => exact endStep_clearLoop _ hd
  | delSlice a b =>
    have hsub : ∀ x ∈ (if (sliceBounds s.delegate.length a b).1 < (sliceBounds s.delegate.length a b).2 then
        s.delegate.take (sliceBounds s.delegate.length a b).1 ++ s.delegate.drop (sliceBounds s.delegate.length a b).2 else s.delegate),
        x ∈ s.delegate := by
      intro x hx
      split at hx
      · rcases List.mem_append.1 hx with h | h
        · exact List.mem_of_mem_take h
        · exact List.mem_of_mem_drop h
      · exact hx
    generalize newEnds s (s.step (.delSlice a b)).1 (.delSlice a b) = A at hd ⊢
    simp only [step, delSlice]
    refine EndStep.trans (b := { s with delegate := (if (sliceBounds s.delegate.length a b).1 < (sliceBounds s.delegate.length a b).2 then
      (s.delegate.take (sliceBounds s.delegate.length a b).1 ++ s.delegate.drop (sliceBounds s.delegate.length a b).2) else s.delegate) }) (.of_same rfl rfl hsub) (endStep_removeAll _ ?_ (fun x hx => hd x (hsub x hx)))
    intro m hm
    unfold pySlice at hm
    exact hd m (List.mem_of_mem_take (List.mem_of_mem_drop hm))
  | setItem i m =>
    refine endStep_setItem i (hf m (List.mem_singleton_self _)) (fun k hk => Or.inl ⟨m, Or.inr ?_, rfl⟩)
    have : (s.step (.setItem i m)).1.delegate = s.delegate.set k m := by
      simp only [step, setItem, hk, addMatch]
      split <;> rfl
    rw [this]
    exact List.mem_set (normIdx_lt hk) _
  | reverse => exact endStep_reverseLoop _ _ hs hd
  | named ns =>
    obtain ⟨_, h2, _, h4, h5⟩ := named_tagD (fromKeys ns) s []
    exact KeepsEnd.endStep ⟨h4, h5, h2⟩
  | tagged | tags | names | starting | atIndex => exact KeepsEnd.endStep ⟨rfl, rfl, rfl⟩
  | ending i => exact endStep_lookEnd i (Or.inr (Or.inl rfl)) hd
  | previous m =>
    refine endStep_previousLoop _ (fun c hc => Or.inr (Or.inr ⟨m, rfl, ?_⟩)) hd
    rw [List.mem_reverse, mem_pyRange] at hc
    omega
  | next m => exact (keepsEnd_nextLoop _ _).endStep
  | conflicting m => exact (keepsEnd_conflicting _ _).endStep
  | atSpan a b => exact ((keepsEnd_index s a).trans (keepsEnd_index _ (b - 1))).endStep
  | chainBefore => exact (keepsEnd_chainLoop _ _ _ _ _).endStep
  | chainAfter => exact (keepsEnd_chainLoop _ _ _ _ _).endStep
  | holes => exact (keepsEnd_holes _ _ _ _ _).endStep

/-! ## The text and the kind never change -/

theorem same_removeAll : ∀ (ms : List Match) (s : Matches), Same s (s.removeAll ms).1 := by
  intro ms
  induction ms with
  | nil => intro s; exact ⟨rfl, rfl⟩
  | cons m ms ih =>
    intro s
    have h : Same s (s.removeMatch m).1 := removeMatch_input _ _
    rw [removeAll]
    cases hr : s.removeMatch m with
    | mk t o =>
      rw [hr] at h
      cases o with
      | none => exact h.trans (ih t)
      | some e => exact h

theorem same_setItem (s : Matches) (i : Int) (m : Match) : Same s (s.setItem i m).1 := by
  unfold setItem
  cases normIdx s.delegate.length i with
  | none => exact ⟨rfl, rfl⟩
  | some k => exact ⟨(addMatch_static _ _).2, (addMatch_static _ _).1⟩

theorem same_swap (s : Matches) (i j : Int) : Same s (s.swapItems i j).1 := by
  unfold swapItems getItem
  cases pyGet s.delegate j with
  | none => exact ⟨rfl, rfl⟩
  | some mj =>
    cases pyGet s.delegate i with
    | none => exact ⟨rfl, rfl⟩
    | some mi =>
      simp only
      have h1 := same_setItem s i mj
      cases hr : s.setItem i mj with
      | mk t o =>
        rw [hr] at h1
        cases o with
        | some e => exact h1
        | none => exact h1.trans (same_setItem t j mi)

theorem same_reverseLoop (n : Nat) : ∀ (is : List Nat) (s : Matches), Same s (reverseLoop n is s).1 := by
  intro is
  induction is with
  | nil => intro s; exact ⟨rfl, rfl⟩
  | cons i is ih =>
    intro s
    have h := same_swap s (i : Int) ((n : Int) - i - 1)
    rw [reverseLoop]
    cases hr : s.swapItems (i : Int) ((n : Int) - i - 1) with
    | mk t o =>
      rw [hr] at h
      cases o with
      | some e => exact h
      | none => exact h.trans (ih t)

theorem same_step_all (s : Matches) (op : Op) : Same s (s.step op).1 := by
  cases op with
  | delSlice a b => exact same_removeAll _ _
  | setItem i m => exact same_setItem s i m
  | reverse => exact same_reverseLoop _ _ _
  | _ => exact same_step s _ rfl

theorem same_run_all (s : Matches) (ops : List Op) : Same s (s.runOps ops) := by
  induction ops generalizing s with
  | nil => exact ⟨rfl, rfl⟩
  | cons op ops ih => exact (same_step_all s op).trans (ih _)

theorem firstCall_exists (P : Op → Prop) : ∀ ops : List Op, ∃ j, FirstCall ops P j := by
  intro ops
  induction ops with
  | nil => exact ⟨0, Nat.le_refl _, fun k _ hk => absurd hk (Nat.not_lt_zero _), fun op ho => by cases ho⟩
  | cons op ops ih =>
    by_cases hp : P op
    · exact ⟨0, Nat.zero_le _, fun k _ hk => absurd hk (Nat.not_lt_zero _), fun o ho => by
        have : op = o := Option.some.inj ho
        exact this ▸ hp⟩
    · obtain ⟨j, h1, h2, h3⟩ := ih
      refine ⟨j + 1, Nat.succ_le_succ h1, fun k o hk ho => ?_, fun o ho => h3 o ho⟩
      cases k with
      | zero => have : op = o := Option.some.inj ho; exact this ▸ hp
      | succ k => exact h2 k o (Nat.lt_of_succ_lt_succ hk) ho

/-- What the ends are, after any history from a container without any index. -/
theorem ends_history {s : Matches} (h0 : s.endD = none) (hs : ∀ x ∈ s.delegate, x.marker = s.isMarkers) (hb : ∀ x ∈ s.delegate, x.stop ≤ s.maxEnd) :
    ∀ (ops : List Op), (∀ op ∈ ops, Fits s.isMarkers op) →
    (∀ x ∈ (s.runOps ops).delegate, x.marker = s.isMarkers) ∧
    (∀ x ∈ (s.runOps ops).delegate, x.stop ≤ (s.runOps ops).maxEnd) ∧
    (∀ k ∈ endKeysNow (s.runOps ops), HeldSince s ops 0 (fun m => m.stop = k) ∨ AskedSince ops 0 (fun op => AsksEnd op k)) ∧
    ((s.runOps ops).maxEnd = s.maxEnd ∨ HeldSince s ops 0 (fun m => m.stop = (s.runOps ops).maxEnd) ∨
      AskedSince ops 0 (fun op => AsksEnd op (s.runOps ops).maxEnd)) := by
  refine snoc_induction ?_ ?_
  · intro _
    refine ⟨hs, hb, fun k hk => ?_, Or.inl rfl⟩
    have : endKeysNow s = [] := by unfold endKeysNow; rw [h0]
    rw [show s.runOps [] = s from rfl, this] at hk
    cases hk
  · intro ops op ih hf
    obtain ⟨i1, i2, i3, i4⟩ := ih (fun o ho => hf o (List.mem_append_left _ ho))
    have hmk : (s.runOps ops).isMarkers = s.isMarkers := (same_run_all s ops).2
    have hfo : Fits (s.runOps ops).isMarkers op := by rw [hmk]; exact hf op (List.mem_append_right _ (List.mem_singleton_self _))
    have hso : ∀ x ∈ (s.runOps ops).delegate, x.marker = (s.runOps ops).isMarkers := by rw [hmk]; exact i1
    have hst := endStep_step op hfo hso
    have hmem := step_mem op hso
    have hA : ∀ k, newEnds (s.runOps ops) ((s.runOps ops).step op).1 op k →
        HeldSince s (ops ++ [op]) 0 (fun m => m.stop = k) ∨ AskedSince (ops ++ [op]) 0 (fun op => AsksEnd op k) := by
      intro k hk
      rw [heldSince_snoc _ _ _ (Nat.zero_le _), askedSince_snoc _ _ (Nat.zero_le _), runOps_snoc]
      rcases hk with ⟨m, h | h, hk⟩ | hk
      · exact Or.inl (Or.inl ⟨ops.length, Nat.zero_le _, Nat.le_refl _, m, by rw [after_length]; exact h, hk⟩)
      · exact Or.inl (Or.inr ⟨m, h, hk⟩)
      · exact Or.inr (Or.inr hk)
    have hold : ∀ k, (HeldSince s ops 0 (fun m => m.stop = k) ∨ AskedSince ops 0 (fun op => AsksEnd op k)) →
        HeldSince s (ops ++ [op]) 0 (fun m => m.stop = k) ∨ AskedSince (ops ++ [op]) 0 (fun op => AsksEnd op k) := by
      intro k hk
      rw [heldSince_snoc _ _ _ (Nat.zero_le _), askedSince_snoc _ _ (Nat.zero_le _)]
      exact hk.imp Or.inl Or.inl
    rw [runOps_snoc]
    refine ⟨fun x hx => ?_, hst.bounded i2, fun k hk => ?_, ?_⟩
    · rcases hmem x hx with h | h
      · exact i1 x h
      · exact (hfo x h).trans hmk
    · rcases hst.keys k hk with h | h
      · exact hold k (i3 k h)
      · exact hA k h
    · rcases hst.value with h | h | h
      · rw [h]
        rcases i4 with h' | h'
        · exact Or.inl h'
        · exact Or.inr (hold _ h')
      · exact Or.inr (hold _ (i3 _ h))
      · exact Or.inr (hA _ h)

end Matches
end Rebulk
