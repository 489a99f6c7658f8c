import Verif.Spec.Builder
import Verif.Lemmas.Py
/-! # Lemmas about the builder heap -/
namespace Rebulk
open Spec

/-- Invariant rule for `foldlM` in `Option`. -/
theorem foldlM_inv {α β : Type} {f : β → α → Option β} (P : β → Prop) {l : List α} {b r : β}
    (h : l.foldlM f b = some r) (h0 : P b) (hs : ∀ s x s', x ∈ l → P s → f s x = some s' → P s') : P r := by
  induction l generalizing b with
  | nil => simp only [List.foldlM_nil, pure, Option.some.injEq] at h; exact h ▸ h0
  | cons x l ih =>
    simp only [List.foldlM_cons, bind, Option.bind_eq_some_iff] at h
    obtain ⟨b', h1, h2⟩ := h
    exact ih h2 (hs _ _ _ List.mem_cons_self h0 h1) (fun s y s' hy => hs s y s' (List.mem_cons_of_mem _ hy))

namespace DHeap

theorem at_eq (h : DHeap) (a : Addr) : h.at_ a = (h[a]?).getD [] := by
  unfold at_; rw [List.getD_eq_getElem?_getD]

theorem at_congr {h h' : DHeap} {a : Addr} (e : h'[a]? = h[a]?) : h'.at_ a = h.at_ a := by rw [at_eq, at_eq, e]

theorem getElem?_put (h : DHeap) (k a : Addr) (d : HDict) :
    (h.put k d)[a]? = if k = a ∧ k < h.length then some d else h[a]? := by
  unfold put
  rw [List.getElem?_set]
  by_cases hk : k = a
  · subst hk
    by_cases hl : k < h.length
    · simp [hl]
    · simp [hl, List.getElem?_eq_none (Nat.not_lt.1 hl)]
  · simp [hk]

theorem at_put (h : DHeap) (k a : Addr) (d : HDict) :
    (h.put k d).at_ a = if k = a ∧ k < h.length then d else h.at_ a := by
  rw [at_eq, getElem?_put, at_eq]; split <;> rfl

theorem length_put (h : DHeap) (k : Addr) (d : HDict) : (h.put k d).length = h.length := by simp [put]

end DHeap

/-- No repeated key, no `clear`. -/
def Good (d : HDict) : Prop := d.keys.Nodup ∧ "clear" ∉ d.keys

theorem nodup_snoc {α : Type} {l : List α} {x : α} (h : l.Nodup) (hx : x ∉ l) : (l ++ [x]).Nodup := by
  rw [List.nodup_append]
  refine ⟨h, by simp, ?_⟩
  intro a ha b hb e
  simp only [List.mem_singleton] at hb
  subst hb; subst e
  exact hx ha

theorem Good.nil : Good [] := by simp [Good, Dict.keys]

theorem keys_set_nodup {ν : Type} {d : Dict String ν} {k : String} {v : ν} (h : d.keys.Nodup) : (d.set k v).keys.Nodup := by
  rw [Dict.keys_set]
  split
  · exact h
  · next hk => exact nodup_snoc h (by simpa using hk)

theorem Good.set {d : HDict} (h : Good d) {k : String} (hk : k ≠ "clear") (v : HV) : Good (Dict.set d k v) := by
  refine ⟨keys_set_nodup h.1, ?_⟩
  rw [Dict.keys_set]
  split
  · exact h.2
  · simp only [List.mem_append, List.mem_singleton, not_or]; exact ⟨h.2, fun e => hk e.symm⟩

theorem pop_keys (d : HDict) (k : String) : (HDict.pop d k).keys = d.keys.filter (fun x => !(x == k)) := by
  unfold HDict.pop Dict.keys
  rw [List.filter_map]; rfl

theorem clear_notin_pop (d : HDict) : "clear" ∉ (HDict.pop d "clear").keys := by rw [pop_keys]; simp

theorem Good.pop {d : HDict} (h : Good d) (k : String) : Good (HDict.pop d k) := by
  refine ⟨?_, ?_⟩
  · rw [pop_keys]; exact h.1.filter _
  · rw [pop_keys]; intro hc; exact h.2 (List.mem_filter.1 hc).1

/-- Every dict that is good stays so; no dict appears or disappears. -/
def KeepsGood (h h' : DHeap) : Prop := h'.length = h.length ∧ ∀ a, Good (h.at_ a) → Good (h'.at_ a)

theorem KeepsGood.refl (h : DHeap) : KeepsGood h h := ⟨rfl, fun _ g => g⟩
theorem KeepsGood.trans {h h' h'' : DHeap} (a : KeepsGood h h') (b : KeepsGood h' h'') : KeepsGood h h'' :=
  ⟨b.1.trans a.1, fun x g => b.2 x (a.2 x g)⟩

theorem KeepsGood.put {h : DHeap} {k : Addr} {d : HDict} (g : Good (h.at_ k) → Good d) : KeepsGood h (h.put k d) := by
  refine ⟨DHeap.length_put _ _ _, fun a ha => ?_⟩
  rw [DHeap.at_put]
  split
  · next e => rw [← e.1] at ha; exact g ha
  · exact ha

theorem popClear_keeps (h : DHeap) (d : Addr) : KeepsGood h (popClear h d).1 := by
  unfold popClear
  split
  · exact .refl h
  · exact .put (fun g => g.pop _)

theorem get?_pop_clear (h : DHeap) (d : Addr) : (((popClear h d).1).at_ d).get? "clear" = none := by
  rw [Dict.get?_eq_none_iff]
  unfold popClear
  split
  · next e => exact (Dict.get?_eq_none_iff _ _).1 e
  · next v e =>
    rw [DHeap.at_put]
    split
    · exact clear_notin_pop _
    · next hn =>
      -- out of range: the dict is empty
      have : h.at_ d = [] := by
        rw [DHeap.at_eq]
        have : h.length ≤ d := Nat.not_lt.1 (fun hl => hn ⟨rfl, hl⟩)
        rw [List.getElem?_eq_none this]; rfl
      rw [this]; simp [Dict.keys]

theorem defaultKeyH_keeps {rec_ : Addr → Addr → DHeap → Option DHeap} (hr : ∀ d e h h', rec_ d e h = some h' → KeepsGood h h')
    {d k : Addr} {o : Bool} {h h' : DHeap} {key : String} (hk : key ≠ "clear")
    (he : defaultKeyH rec_ d k o h key = some h') : KeepsGood h h' := by
  unfold defaultKeyH at he
  split at he
  · simp only [Option.some.injEq] at he; exact he ▸ .refl h
  · next value _ =>
    split at he
    · simp only [Option.some.injEq] at he; subst he; exact .put (fun g => g.set hk _)
    · next cur _ =>
      simp only [Option.map_eq_some_iff] at he
      obtain ⟨h1, e1, e2⟩ := he
      have k1 : KeepsGood h h1 := by
        split at e1
        · simp only [Option.some.injEq] at e1; subst e1; exact .put (fun g => g.set hk _)
        · exact hr _ _ _ _ e1
        · simp only [Option.some.injEq] at e1; exact e1 ▸ .refl h
      subst e2
      split
      · exact k1.trans (.put (fun g => g.set hk _))
      · exact k1

theorem setDefaultsH_keeps (fuel : Nat) (d k : Addr) (o : Bool) (h h' : DHeap) (he : setDefaultsH fuel d k o h = some h') :
    KeepsGood h h' := by
  induction fuel generalizing d k o h h' with
  | zero => simp [setDefaultsH] at he
  | succ fuel ih =>
    unfold setDefaultsH at he
    simp only at he
    have h1 : KeepsGood h (if (popClear h d).2 = true then ((popClear h d).1).put k [] else (popClear h d).1) := by
      split
      · exact (popClear_keeps h d).trans (.put (fun _ => .nil))
      · exact popClear_keeps h d
    refine foldlM_inv (P := fun s => KeepsGood h s) he h1 ?_
    intro s x s' hx hs hf
    refine hs.trans (defaultKeyH_keeps (fun d e h h' he => ih d e false h h' he) ?_ hf)
    rintro rfl
    have hc := get?_pop_clear h d
    have : "clear" ∉ ((if (popClear h d).2 = true then ((popClear h d).1).put k [] else (popClear h d).1).at_ d).keys := by
      split
      · rw [DHeap.at_put]
        split
        · simp [Dict.keys]
        · exact (Dict.get?_eq_none_iff _ _).1 hc
      · exact (Dict.get?_eq_none_iff _ _).1 hc
    exact this hx

/-- Only the dict `k` changes. -/
def Frame (h h' : DHeap) (k : Addr) : Prop := h'.length = h.length ∧ ∀ a, a ≠ k → h'[a]? = h[a]?

theorem Frame.put (h : DHeap) (k : Addr) (d : HDict) : Frame h (h.put k d) k := by
  refine ⟨DHeap.length_put _ _ _, fun a ha => ?_⟩
  rw [DHeap.getElem?_put, if_neg (fun e => ha e.1.symm)]
theorem Frame.refl (h : DHeap) (k : Addr) : Frame h h k := ⟨rfl, fun _ _ => rfl⟩
theorem Frame.trans {h h' h'' : DHeap} {k : Addr} (a : Frame h h' k) (b : Frame h' h'' k) : Frame h h'' k :=
  ⟨b.1.trans a.1, fun x hx => (b.2 x hx).trans (a.2 x hx)⟩

/-- Merging without two dict-valued options under one key. -/
theorem defaultLoop_frame {rec_ : Addr → Addr → DHeap → Option DHeap} {d k : Addr} {o : Bool} (hdk : d ≠ k) (h0 : DHeap)
    (hsh : ∀ key, ¬ (DictOption (h0.at_ d) key ∧ DictOption (h0.at_ k) key))
    (ks : List String) (hn : ks.Nodup) (h h' : DHeap) (hf : Frame h0 h k)
    (hrem : ∀ key ∈ ks, (h.at_ k).get? key = (h0.at_ k).get? key)
    (hdo : ∀ key, DictOption (h.at_ k) key → DictOption (h0.at_ k) key ∨ DictOption (h0.at_ d) key)
    (he : ks.foldlM (defaultKeyH rec_ d k o) h = some h') :
    Frame h0 h' k ∧ (∀ key, DictOption (h'.at_ k) key → DictOption (h0.at_ k) key ∨ DictOption (h0.at_ d) key) := by
  induction ks generalizing h with
  | nil => simp only [List.foldlM_nil, pure, Option.some.injEq] at he; subst he; exact ⟨hf, hdo⟩
  | cons key ks ih =>
    simp only [List.foldlM_cons, bind, Option.bind_eq_some_iff] at he
    obtain ⟨h1, e1, e2⟩ := he
    simp only [List.nodup_cons] at hn
    have hd0 : h.at_ d = h0.at_ d := DHeap.at_congr (hf.2 d hdk)
    -- the dict `k` after a `put` of the key
    have stepOk : ∀ (g : DHeap) (v : HV), Frame h0 g k → (∀ x ∈ ks, (g.at_ k).get? x = (h0.at_ k).get? x) →
        (∀ x, DictOption (g.at_ k) x → DictOption (h0.at_ k) x ∨ DictOption (h0.at_ d) x) →
        ((∃ b, v = .ref b) → DictOption (h0.at_ d) key) →
        Frame h0 (g.put k ((g.at_ k).set key v)) k ∧
        (∀ x ∈ ks, ((g.put k ((g.at_ k).set key v)).at_ k).get? x = (h0.at_ k).get? x) ∧
        (∀ x, DictOption ((g.put k ((g.at_ k).set key v)).at_ k) x → DictOption (h0.at_ k) x ∨ DictOption (h0.at_ d) x) := by
      intro g v gf gr gd hv
      refine ⟨gf.trans (.put _ _ _), ?_, ?_⟩
      · intro x hx
        have hne : x ≠ key := fun e => hn.1 (e ▸ hx)
        rw [DHeap.at_put]
        split
        · rw [Dict.get?_set, if_neg (fun e => hne e.symm)]; exact gr x hx
        · exact gr x hx
      · intro x hx
        rw [DHeap.at_put] at hx
        split at hx
        · obtain ⟨b, hb⟩ := hx
          rw [Dict.get?_set] at hb
          split at hb
          · next e => subst e; right; exact hv ⟨b, by simpa using hb⟩
          · exact gd x ⟨b, hb⟩
        · exact gd x hx
    have base : Frame h0 h k ∧ (∀ x ∈ ks, (h.at_ k).get? x = (h0.at_ k).get? x) ∧
        (∀ x, DictOption (h.at_ k) x → DictOption (h0.at_ k) x ∨ DictOption (h0.at_ d) x) :=
      ⟨hf, fun x hx => hrem x (List.mem_cons_of_mem _ hx), hdo⟩
    have inv : Frame h0 h1 k ∧ (∀ x ∈ ks, (h1.at_ k).get? x = (h0.at_ k).get? x) ∧
        (∀ x, DictOption (h1.at_ k) x → DictOption (h0.at_ k) x ∨ DictOption (h0.at_ d) x) := by
      unfold defaultKeyH at e1
      rw [hd0] at e1
      split at e1
      · simp only [Option.some.injEq] at e1; exact e1 ▸ base
      · next value hval =>
        have hv : (∃ b, value = .ref b) → DictOption (h0.at_ d) key := by rintro ⟨b, rfl⟩; exact ⟨b, hval⟩
        split at e1
        · simp only [Option.some.injEq] at e1; subst e1
          exact stepOk h value base.1 base.2.1 base.2.2 hv
        · next cur hcur =>
          simp only [Option.map_eq_some_iff] at e1
          obtain ⟨g, e3, e4⟩ := e1
          have hg : Frame h0 g k ∧ (∀ x ∈ ks, (g.at_ k).get? x = (h0.at_ k).get? x) ∧
              (∀ x, DictOption (g.at_ k) x → DictOption (h0.at_ k) x ∨ DictOption (h0.at_ d) x) := by
            split at e3
            · simp only [Option.some.injEq] at e3; subst e3
              exact stepOk h _ base.1 base.2.1 base.2.2 (by rintro ⟨b, hb⟩; simp at hb)
            · next b e =>
              rw [hrem key List.mem_cons_self] at hcur
              exact absurd ⟨⟨b, hval⟩, ⟨e, hcur⟩⟩ (hsh key)
            · simp only [Option.some.injEq] at e3; exact e3 ▸ base
          subst e4
          split
          · exact stepOk g value hg.1 hg.2.1 hg.2.2 hv
          · exact hg
    exact ih hn.2 h1 inv.1 inv.2.1 inv.2.2 e2

theorem popClear_good {h : DHeap} {d : Addr} (hg : "clear" ∉ (h.at_ d).keys) : popClear h d = (h, false) := by
  unfold popClear; rw [(Dict.get?_eq_none_iff _ _).2 hg]

theorem setDefaultsH_frame {fuel : Nat} {d k : Addr} {o : Bool} {h h' : DHeap} (hdk : d ≠ k) (hg : Good (h.at_ d))
    (hsh : ∀ key, ¬ (DictOption (h.at_ d) key ∧ DictOption (h.at_ k) key))
    (he : setDefaultsH fuel d k o h = some h') :
    Frame h h' k ∧ (∀ key, DictOption (h'.at_ k) key → DictOption (h.at_ k) key ∨ DictOption (h.at_ d) key) := by
  cases fuel with
  | zero => simp [setDefaultsH] at he
  | succ fuel =>
    unfold setDefaultsH at he
    rw [popClear_good hg.2] at he
    simp only [Bool.false_eq_true, if_false] at he
    exact defaultLoop_frame hdk h hsh _ hg.1 h h' (.refl _ _) (fun _ _ => rfl) (fun _ hx => Or.inl hx) he

theorem get?_pop {d : HDict} {k key : String} {v : HV} (h : (HDict.pop d k).get? key = some v) : d.get? key = some v := by
  induction d with
  | nil => simp [HDict.pop, Dict.get?] at h
  | cons kv d ih =>
    obtain ⟨k', v'⟩ := kv
    unfold HDict.pop at h ih
    simp only [List.filter_cons] at h
    by_cases hk : k' = k
    · subst hk
      simp only [beq_self_eq_true, Bool.not_true, Bool.false_eq_true, if_false] at h
      have hne : k' ≠ key := by
        rintro rfl
        have : k' ∈ (HDict.pop d k').keys := by
          rw [← Dict.get?_isSome_iff]; unfold HDict.pop; rw [h]; rfl
        rw [pop_keys] at this
        simp at this
      have := ih h
      simp only [Dict.get?, beq_iff_eq, hne, if_false]; exact this
    · have hb : (!(k' == k)) = true := by simpa using hk
      rw [if_pos hb] at h
      simp only [Dict.get?] at h ⊢
      split
      · next e => rw [if_pos e] at h; exact h
      · next e => rw [if_neg e] at h; exact ih h

/-- The merge of fresh keyword arguments `d`, which may say `clear`. -/
theorem setDefaultsH_frame2 {fuel : Nat} {d k : Addr} {o : Bool} {h h' : DHeap} (hdk : d ≠ k) (hnd : (h.at_ d).keys.Nodup)
    (hsh : ∀ key, ¬ (DictOption (h.at_ d) key ∧ DictOption (h.at_ k) key))
    (he : setDefaultsH fuel d k o h = some h') :
    h'.length = h.length ∧ ∀ a, a ≠ k → a ≠ d → h'[a]? = h[a]? := by
  cases fuel with
  | zero => simp [setDefaultsH] at he
  | succ fuel =>
    unfold setDefaultsH at he
    simp only at he
    have hp : Frame h (popClear h d).1 d ∧ (((popClear h d).1).at_ d).keys.Nodup ∧
        ∀ key, DictOption (((popClear h d).1).at_ d) key → DictOption (h.at_ d) key := by
      unfold popClear
      split
      · exact ⟨.refl _ _, hnd, fun _ hx => hx⟩
      · refine ⟨.put _ _ _, ?_, ?_⟩
        · rw [DHeap.at_put]
          split
          · rw [pop_keys]; exact hnd.filter _
          · exact hnd
        · intro key
          rw [DHeap.at_put]
          split
          · rintro ⟨b, hb⟩; exact ⟨b, get?_pop hb⟩
          · exact id
    generalize hc : (if (popClear h d).2 = true then ((popClear h d).1).put k [] else (popClear h d).1) = h1 at he
    have h1p : Frame (popClear h d).1 h1 k ∧ (∀ key, DictOption (h1.at_ k) key → DictOption (h.at_ k) key) := by
      have hk0 : (popClear h d).1.at_ k = h.at_ k := DHeap.at_congr (hp.1.2 k hdk.symm)
      subst hc
      split
      · refine ⟨.put _ _ _, ?_⟩
        intro key
        rw [DHeap.at_put]
        split
        · rintro ⟨b, hb⟩; simp [Dict.get?] at hb
        · rw [hk0]; exact id
      · exact ⟨.refl _ _, by rw [hk0]; exact fun _ hx => hx⟩
    have hd1 : h1.at_ d = ((popClear h d).1).at_ d := DHeap.at_congr (h1p.1.2 d hdk)
    have := defaultLoop_frame hdk h1 (by
      intro key hx
      rw [hd1] at hx
      exact hsh key ⟨hp.2.2 key hx.1, h1p.2 key hx.2⟩) _ (by rw [hd1]; exact hp.2.1) h1 h' (.refl _ _) (fun _ _ => rfl)
      (fun _ hx => Or.inl hx) he
    refine ⟨this.1.1.trans (h1p.1.1.trans hp.1.1), fun a hak had => ?_⟩
    rw [this.1.2 a hak, h1p.1.2 a hak, hp.1.2 a had]

/-! ## Building -/

/-- Existing dicts keep their contents. -/
def Ext (h h' : DHeap) : Prop := h.length ≤ h'.length ∧ ∀ a, a < h.length → h'[a]? = h[a]?

theorem Ext.refl (h : DHeap) : Ext h h := ⟨Nat.le_refl _, fun _ _ => rfl⟩
theorem Ext.trans {h h' h'' : DHeap} (a : Ext h h') (b : Ext h' h'') : Ext h h'' :=
  ⟨Nat.le_trans a.1 b.1, fun x hx => (b.2 x (Nat.lt_of_lt_of_le hx a.1)).trans (a.2 x hx)⟩
theorem Ext.append (h t : DHeap) : Ext h (h ++ t) :=
  ⟨by simp, fun a ha => List.getElem?_append_left ha⟩
theorem Ext.alloc (h : DHeap) (d : HDict) : Ext h (h.alloc d).1 := .append h [d]
theorem Ext.at {h h' : DHeap} (e : Ext h h') {a : Addr} (ha : a < h.length) : h'.at_ a = h.at_ a := DHeap.at_congr (e.2 a ha)

theorem newPattern_ext (h : DHeap) (kw : HDict) : Ext h (newPattern h kw).1 := by
  unfold newPattern
  simp only
  split
  · split
    · exact (Ext.alloc _ _).trans (.alloc _ _)
    · exact .alloc _ _
  · exact (Ext.alloc _ _).trans (.alloc _ _)
  · exact (Ext.alloc _ _).trans (.alloc _ _)

theorem inheritKeys_ext (keys : Dict String Nat) (b : Bool) (h : DHeap) (p : PatCfg) : Ext h (inheritKeys keys b h p).1 := by
  unfold inheritKeys
  split
  · exact .refl h
  · simp only
    split
    · exact .refl h
    · exact .alloc _ _

theorem applyKey_ext {key : KeyArg} {kw kw' : HDict} {h h' : DHeap} (e : applyKey key kw h = .ok (kw', h')) : Ext h h' := by
  unfold applyKey at e
  split at e
  · simp only [Except.ok.injEq, Prod.mk.injEq] at e; exact e.2 ▸ .refl h
  · simp only [Except.ok.injEq, Prod.mk.injEq] at e; exact e.2 ▸ .refl h
  · simp only [Except.ok.injEq, Prod.mk.injEq] at e; exact e.2 ▸ .refl h
  · split at e
    · simp at e
    · simp only [Except.ok.injEq, Prod.mk.injEq] at e; exact e.2 ▸ .alloc _ _

theorem deepCopyH_ext (fuel : Nat) (a : Addr) (h : DHeap) (r : DHeap × Addr) (e : deepCopyH fuel a h = some r) :
    Ext h r.1 ∧ h.length ≤ r.2 ∧ r.2 < r.1.length ∧ (r.1.at_ r.2).keys = (h.at_ a).keys := by
  induction fuel generalizing a h r with
  | zero => simp [deepCopyH] at e
  | succ fuel ih =>
    unfold deepCopyH at e
    split at e
    · simp at e
    · next q hq =>
      simp only [Option.some.injEq] at e
      subst e
      have gen : ∀ (l : HDict) (s q : DHeap × HDict), l.foldlM (deepCopyEntry (fun b h => deepCopyH fuel b h)) s = some q →
          Ext s.1 q.1 ∧ Dict.keys q.2 = Dict.keys s.2 ++ Dict.keys l := by
        intro l
        induction l with
        | nil =>
          intro s q hq
          simp only [List.foldlM_nil, pure, Option.some.injEq] at hq; subst hq
          exact ⟨.refl _, by simp [Dict.keys]⟩
        | cons kv l ihl =>
          intro s q hq
          simp only [List.foldlM_cons, bind, Option.bind_eq_some_iff] at hq
          obtain ⟨s', h1, h2⟩ := hq
          have := ihl s' q h2
          have hs : Ext s.1 s'.1 ∧ Dict.keys s'.2 = Dict.keys s.2 ++ [kv.1] := by
            unfold deepCopyEntry at h1
            split at h1
            · split at h1
              · simp at h1
              · next r hr =>
                simp only [Option.some.injEq] at h1; subst h1
                exact ⟨(ih _ _ _ hr).1, by simp [Dict.keys]⟩
            · simp only [Option.some.injEq] at h1; subst h1
              exact ⟨.refl _, by simp [Dict.keys]⟩
          exact ⟨hs.1.trans this.1, by rw [this.2, hs.2]; simp [Dict.keys]⟩
      have := gen _ _ _ hq
      refine ⟨this.1.trans (.alloc _ _), this.1.1, by simp [DHeap.alloc], ?_⟩
      have : ((q.1.alloc q.2).1).at_ (q.1.alloc q.2).2 = q.2 := by
        rw [DHeap.at_eq]; simp [DHeap.alloc]
      rw [this]
      next g => simpa [Dict.keys] using g.2

/-- Dicts may be added and existing good dicts stay good. -/
def Grow (h h' : DHeap) : Prop := h.length ≤ h'.length ∧ ∀ a, a < h.length → Good (h.at_ a) → Good (h'.at_ a)

theorem Grow.refl (h : DHeap) : Grow h h := ⟨Nat.le_refl _, fun _ _ g => g⟩
theorem Grow.trans {h h' h'' : DHeap} (a : Grow h h') (b : Grow h' h'') : Grow h h'' :=
  ⟨Nat.le_trans a.1 b.1, fun x hx g => b.2 x (Nat.lt_of_lt_of_le hx a.1) (a.2 x hx g)⟩
theorem Ext.grow {h h' : DHeap} (e : Ext h h') : Grow h h' := ⟨e.1, fun a ha g => by rw [e.at ha]; exact g⟩
theorem KeepsGood.grow {h h' : DHeap} (e : KeepsGood h h') : Grow h h' := ⟨Nat.le_of_eq e.1.symm, fun a _ g => e.2 a g⟩

theorem expandPatternDict_keeps (expand : List Val → HV → HV) (ab : Option HV) (h : DHeap) (arg : HV) :
    KeepsGood h (expandPatternDict expand ab h arg) := by
  unfold expandPatternDict
  split
  · split
    · exact .put (fun g => g.set (by decide) _)
    · exact .refl h
  · exact .refl h

theorem expandFold_keeps (expand : List Val → HV → HV) (ab : Option HV) (args : List HV) (h : DHeap) :
    KeepsGood h (args.foldl (expandPatternDict expand ab) h) := by
  induction args generalizing h with
  | nil => exact .refl h
  | cons x xs ih => exact (expandPatternDict_keeps expand ab h x).trans (ih _)

theorem expandFold_noref (expand : List Val → HV → HV) (ab : Option HV) (args : List HV) (h : DHeap) (hr : ∀ a, HV.ref a ∉ args) :
    args.foldl (expandPatternDict expand ab) h = h := by
  induction args generalizing h with
  | nil => rfl
  | cons x xs ih =>
    rw [List.foldl_cons]
    have : expandPatternDict expand ab h x = h := by
      unfold expandPatternDict
      split
      · next a => exact absurd List.mem_cons_self (hr a)
      · rfl
    rw [this]
    exact ih h (fun a ha => hr a (List.mem_cons_of_mem _ ha))

theorem newFactory_slot (h : DHeap) (s : Slot) : h.length ≤ (newFactory h).2.slot s ∧
    (newFactory h).2.slot s < (newFactory h).1.length ∧ Good ((newFactory h).1.at_ ((newFactory h).2.slot s)) := by
  have : (newFactory h).1.at_ ((newFactory h).2.slot s) = [] := by
    rw [DHeap.at_eq]
    cases s <;> simp [newFactory, Factory.slot, List.getElem?_append]
  refine ⟨?_, ?_, by rw [this]; exact .nil⟩
  · cases s <;> simp [newFactory, Factory.slot]
  · cases s <;> simp [newFactory, Factory.slot]

theorem newFactory_inj (h : DHeap) (s t : Slot) (e : (newFactory h).2.slot s = (newFactory h).2.slot t) : s = t := by
  cases s <;> cases t <;> simp [newFactory, Factory.slot] at e ⊢ <;> omega

/-- What holds of builders in every reachable world. -/
structure InvB (w : World) : Prop where
  good : ∀ (f : Nat) fac, w.factories[f]? = some fac → ∀ s, fac.slot s < w.heap.length ∧ Good (w.heap.at_ (fac.slot s))
  inj : ∀ (f g : Nat) fac gac s t, w.factories[f]? = some fac → w.factories[g]? = some gac → fac.slot s = gac.slot t → f = g ∧ s = t

/-- The steps of a build. -/
theorem buildPattern_some {expand : List Val → HV → HV} {fuel : Nat} {f : Factory} {slot : Slot} {args : List HV} {kw : HDict}
    {h : DHeap} {r : DHeap × PatCfg} (e : buildPattern expand fuel f slot args kw h = some r) :
    ∃ kw' backup h1 h2 h4, popOverrides kw = some (kw', backup) ∧
      setDefaultsH fuel (f.slot slot) h.length false (h ++ [kw']) = some h1 ∧
      setDefaultsH fuel f.base h.length false h1 = some h2 ∧
      h4 = (if slot = .regex then args.foldl (expandPatternDict expand (((h2.put h.length (Dict.update (h2.at_ h.length) backup)).at_
        h.length).get? "abbreviations")) (h2.put h.length (Dict.update (h2.at_ h.length) backup))
        else h2.put h.length (Dict.update (h2.at_ h.length) backup)) ∧
      Ext h4 r.1 := by
  unfold buildPattern at e
  split at e
  · simp at e
  · next kw' backup hp =>
    simp only [DHeap.alloc] at e
    split at e
    · simp at e
    · next h1 e1 =>
      split at e
      · simp at e
      · next h2 e2 =>
        simp only [Option.some.injEq] at e
        refine ⟨kw', backup, h1, h2, _, hp, e1, e2, rfl, ?_⟩
        rw [← e]
        exact (newPattern_ext _ _).trans (inheritKeys_ext _ _ _ _)

theorem buildPattern_grow {expand : List Val → HV → HV} {fuel : Nat} {f : Factory} {slot : Slot} {args : List HV} {kw : HDict}
    {h : DHeap} {r : DHeap × PatCfg} (e : buildPattern expand fuel f slot args kw h = some r) : Grow h r.1 := by
  obtain ⟨kw', backup, h1, h2, h4, _, e1, e2, e4, e5⟩ := buildPattern_some e
  have g2 : Grow h h2 :=
    ((Ext.append h [kw']).grow.trans (setDefaultsH_keeps _ _ _ _ _ _ e1).grow).trans (setDefaultsH_keeps _ _ _ _ _ _ e2).grow
  have hlen : h.length < h2.length := by
    rw [(setDefaultsH_keeps _ _ _ _ _ _ e2).1, (setDefaultsH_keeps _ _ _ _ _ _ e1).1]; simp
  have g3 : Grow h (h2.put h.length (Dict.update (h2.at_ h.length) backup)) := by
    refine ⟨by rw [DHeap.length_put]; omega, fun a ha g => ?_⟩
    rw [DHeap.at_put, if_neg (by omega)]
    exact g2.2 a ha g
  have g4 : Grow h h4 := by
    subst e4
    split
    · exact g3.trans (expandFold_keeps _ _ _ _).grow
    · exact g3
  exact g4.trans e5.grow

theorem popOverrides_options {kw kw' backup : HDict} (e : popOverrides kw = some (kw', backup)) :
    kw' = HDict.pop kw "overrides" := by
  unfold popOverrides at e
  split at e
  · simp only [Option.map_eq_some_iff] at e
    obtain ⟨b, _, e⟩ := e
    simp only [Prod.mk.injEq] at e
    exact e.1.symm
  · simp only [Option.some.injEq, Prod.mk.injEq] at e; exact e.1.symm

/-- Building a pattern makes new dicts, then replaces in the dicts given as regular expressions, then makes new dicts. -/
theorem buildPattern_split {expand : List Val → HV → HV} {fuel : Nat} {f : Factory} {slot : Slot} {args : List HV} {kw : HDict}
    {h : DHeap} {r : DHeap × PatCfg} (e : buildPattern expand fuel f slot args kw h = some r)
    (hin : ∀ s, f.slot s < h.length ∧ Good (h.at_ (f.slot s)))
    (hns : NoSharedOptions h kw f slot) : ∃ h3 ab, Ext h h3 ∧ Ext (if slot = .regex then args.foldl (expandPatternDict expand ab) h3 else h3) r.1 := by
  obtain ⟨kw', backup, h1, h2, h4, ep, e1, e2, e4, e5⟩ := buildPattern_some e
  have hkw' := popOverrides_options ep
  have x0 := Ext.append h [kw']
  have hopt : ∀ key, DictOption ((h ++ [kw'] : DHeap).at_ h.length) key → DictOption kw key := by
    intro key
    rw [DHeap.at_eq]
    simp only [List.getElem?_concat_length, Option.getD_some]
    rw [hkw']
    rintro ⟨a, ha⟩
    exact ⟨a, get?_pop ha⟩
  have hs : (h ++ [kw'] : DHeap).at_ (f.slot slot) = h.at_ (f.slot slot) := x0.at (hin slot).1
  have f1 := setDefaultsH_frame (o := false) (by have := (hin slot).1; omega) (by rw [hs]; exact (hin slot).2) (by
    intro key hk
    rw [hs] at hk
    exact (hns key).1 ⟨hopt key hk.2, hk.1⟩) e1
  have hb : h1.at_ f.base = h.at_ f.base := by
    have hlt := (hin .base).1
    simp only [Factory.slot] at hlt
    rw [DHeap.at_congr (f1.1.2 f.base (by omega)), x0.at hlt]
  have f2 := setDefaultsH_frame (o := false) (by have := (hin .base).1; simp only [Factory.slot] at this; omega)
    (by rw [hb]; exact (hin .base).2) (by
    intro key hk
    rw [hb] at hk
    rcases f1.2 key hk.2 with h3 | h3
    · exact (hns key).2.1 ⟨hopt key h3, hk.1⟩
    · rw [hs] at h3; exact (hns key).2.2 ⟨h3, hk.1⟩) e2
  have fr := (f1.1.trans f2.1).trans (Frame.put h2 h.length (Dict.update (h2.at_ h.length) backup))
  have x3 : Ext h (h2.put h.length (Dict.update (h2.at_ h.length) backup)) := by
    refine ⟨by rw [fr.1]; simp, fun a ha => ?_⟩
    rw [fr.2 a (by omega), x0.2 a ha]
  subst e4
  exact ⟨_, _, x3, e5⟩

theorem buildPattern_ext {expand : List Val → HV → HV} {fuel : Nat} {f : Factory} {slot : Slot} {args : List HV} {kw : HDict}
    {h : DHeap} {r : DHeap × PatCfg} (e : buildPattern expand fuel f slot args kw h = some r)
    (hin : ∀ s, f.slot s < h.length ∧ Good (h.at_ (f.slot s)))
    (hns : NoSharedOptions h kw f slot) (hr : ∀ a, HV.ref a ∉ args) : Ext h r.1 := by
  obtain ⟨h3, ab, x3, x4⟩ := buildPattern_split e hin hns
  rw [expandFold_noref _ _ _ _ hr, ite_self] at x4
  exact x3.trans x4

/-- What is replaced in dicts given as regular expressions. -/
theorem expandFold_given (expand : List Val → HV → HV) (ab : Option HV) : ∀ (args : List HV) (h : DHeap) (a : Addr),
    (args.foldl (expandPatternDict expand ab) h)[a]? = h[a]? ∨
      (HV.ref a ∈ args ∧ ∀ key, key ≠ "pattern" → ((args.foldl (expandPatternDict expand ab) h).at_ a).get? key = (h.at_ a).get? key)
  | [], h, a => Or.inl rfl
  | x :: xs, h, a => by
    rw [List.foldl_cons]
    have ih := expandFold_given expand ab xs (expandPatternDict expand ab h x) a
    have hx : (expandPatternDict expand ab h x)[a]? = h[a]? ∨
        (x = HV.ref a ∧ ∀ key, key ≠ "pattern" → ((expandPatternDict expand ab h x).at_ a).get? key = (h.at_ a).get? key) := by
      unfold expandPatternDict
      split
      · next y ys b =>
        split
        · next p hp =>
          by_cases hb : b = a
          · subst hb
            right
            refine ⟨rfl, fun key hk => ?_⟩
            rw [DHeap.at_put]
            split
            · rw [Dict.get?_set, if_neg (fun e => hk e.symm)]
            · rfl
          · left
            exact (Frame.put h b _).2 a (fun e => hb e.symm)
        · exact Or.inl rfl
      · exact Or.inl rfl
    rcases ih with ih | ⟨ih1, ih2⟩
    · rcases hx with hx | ⟨hx1, hx2⟩
      · exact Or.inl (ih.trans hx)
      · right
        refine ⟨hx1 ▸ List.mem_cons_self, fun key hk => ?_⟩
        rw [DHeap.at_congr ih, hx2 key hk]
    · right
      refine ⟨List.mem_cons_of_mem _ ih1, fun key hk => ?_⟩
      rw [ih2 key hk]
      rcases hx with hx | ⟨_, hx2⟩
      · rw [DHeap.at_congr hx]
      · exact hx2 key hk

theorem inheritDefaults_spec {fuel : Nat} {src : Factory} {h : DHeap} {r : DHeap × Factory}
    (e : inheritDefaults fuel src h = some r) (hin : ∀ s, src.slot s < h.length ∧ Good (h.at_ (src.slot s))) :
    Ext h r.1 ∧ (∀ s, h.length ≤ r.2.slot s ∧ r.2.slot s < r.1.length ∧ Good (r.1.at_ (r.2.slot s))) ∧
      (∀ s t, r.2.slot s = r.2.slot t → s = t) := by
  unfold inheritDefaults at e
  simp only [bind, Option.bind_eq_some_iff, pure, Option.some.injEq] at e
  obtain ⟨a1, e1, a2, e2, a3, e3, a4, e4, a5, e5, e⟩ := e
  have d1 := deepCopyH_ext _ _ _ _ e1
  have d2 := deepCopyH_ext _ _ _ _ e2
  have d3 := deepCopyH_ext _ _ _ _ e3
  have d4 := deepCopyH_ext _ _ _ _ e4
  have d5 := deepCopyH_ext _ _ _ _ e5
  have x5 := d5.1
  have x4 := d4.1.trans x5
  have x3 := d3.1.trans x4
  have x2 := d2.1.trans x3
  have good : ∀ (s : Slot) (g : DHeap) (r1 : DHeap × Addr), Ext h g → Ext r1.1 a5.1 → r1.2 < r1.1.length →
      (r1.1.at_ r1.2).keys = (g.at_ (src.slot s)).keys → Good (a5.1.at_ r1.2) := by
    intro s g r1 hg hx hlt hk
    rw [hx.at hlt]
    have := (hin s).2
    unfold Good at this ⊢
    rw [hk, hg.at (hin s).1]
    exact this
  have l1 := d1.1.1; have l2 := d2.1.1; have l3 := d3.1.1; have l4 := d4.1.1; have l5 := d5.1.1
  subst e
  refine ⟨d1.1.trans x2, ?_, ?_⟩
  · intro s
    cases s with
    | base => exact ⟨by simp only [Factory.slot]; omega, by simp only [Factory.slot]; omega, good .base h a1 (.refl h) x2 d1.2.2.1 d1.2.2.2⟩
    | regex => exact ⟨by simp only [Factory.slot]; omega, by simp only [Factory.slot]; omega, good .regex _ a2 d1.1 x3 d2.2.2.1 d2.2.2.2⟩
    | functional => exact ⟨by simp only [Factory.slot]; omega, by simp only [Factory.slot]; omega,
        good .functional _ a3 (d1.1.trans d2.1) x4 d3.2.2.1 d3.2.2.2⟩
    | string => exact ⟨by simp only [Factory.slot]; omega, by simp only [Factory.slot]; omega,
        good .string _ a4 ((d1.1.trans d2.1).trans d3.1) x5 d4.2.2.1 d4.2.2.2⟩
    | chain => exact ⟨by simp only [Factory.slot]; omega, by simp only [Factory.slot]; omega,
        good .chain _ a5 (((d1.1.trans d2.1).trans d3.1).trans d4.1) (.refl _) d5.2.2.1 d5.2.2.2⟩
  · intro s t
    cases s <;> cases t <;> simp only [Factory.slot] <;> intro hh <;> first | rfl | omega

theorem InvB.grow {w : World} (i : InvB w) {h : DHeap} (g : Grow w.heap h) (ps : List PatCfg) :
    InvB { heap := h, factories := w.factories, patterns := ps } :=
  ⟨fun f fac hf s => ⟨Nat.lt_of_lt_of_le (i.good f fac hf s).1 g.1, g.2 _ (i.good f fac hf s).1 (i.good f fac hf s).2⟩, i.inj⟩

/-- Adding a builder with fresh dicts. -/
theorem InvB.add {w : World} (i : InvB w) {h : DHeap} {fac : Factory} {hlen : Nat} (ps : List PatCfg) (g : Grow w.heap h)
    (hl : w.heap.length ≤ hlen)
    (hf : ∀ s, hlen ≤ fac.slot s ∧ fac.slot s < h.length ∧ Good (h.at_ (fac.slot s))) (hj : ∀ s t, fac.slot s = fac.slot t → s = t) :
    InvB { heap := h, factories := w.factories ++ [fac], patterns := ps } := by
  have cases_ : ∀ (f : Nat) g, (w.factories ++ [fac])[f]? = some g → w.factories[f]? = some g ∨ (f = w.factories.length ∧ g = fac) := by
    intro f g hfg
    rw [List.getElem?_append] at hfg
    split at hfg
    · exact Or.inl hfg
    · right
      have := List.getElem?_eq_some_iff.1 hfg
      obtain ⟨h1, h2⟩ := this
      simp only [List.length_cons, List.length_nil] at h1
      have : f - w.factories.length = 0 := by omega
      simp only [this, List.getElem_cons_zero] at h2
      exact ⟨by omega, h2.symm⟩
  constructor
  · intro f g' hfg s
    rcases cases_ f g' hfg with h1 | ⟨_, rfl⟩
    · exact ⟨Nat.lt_of_lt_of_le (i.good f g' h1 s).1 g.1, g.2 _ (i.good f g' h1 s).1 (i.good f g' h1 s).2⟩
    · exact (hf s).2
  · intro f f2 fa fb s t h1 h2 e
    rcases cases_ f fa h1 with h3 | ⟨h3, rfl⟩ <;> rcases cases_ f2 fb h2 with h4 | ⟨h4, rfl⟩
    · exact i.inj f f2 fa fb s t h3 h4 e
    · have := (i.good f fa h3 s).1; have := (hf t).1; omega
    · have := (i.good f2 fb h4 t).1; have := (hf s).1; omega
    · exact ⟨by omega, hj s t e⟩

/-- Replacing a builder. -/
theorem InvB.replace {w : World} (i : InvB w) {h : DHeap} {fac : Factory} (n : Nat) (ps : List PatCfg) (g : Grow w.heap h)
    (hf : (∃ old, w.factories[n]? = some old ∧ ∀ s, fac.slot s = old.slot s) ∨
      ((∀ s, w.heap.length ≤ fac.slot s ∧ fac.slot s < h.length ∧ Good (h.at_ (fac.slot s))) ∧
        (∀ s t, fac.slot s = fac.slot t → s = t))) :
    InvB { heap := h, factories := w.factories.set n fac, patterns := ps } := by
  have cases_ : ∀ (f : Nat) g, (w.factories.set n fac)[f]? = some g → (f ≠ n ∧ w.factories[f]? = some g) ∨ (f = n ∧ g = fac) := by
    intro f g hfg
    rw [List.getElem?_set] at hfg
    split at hfg
    · next e =>
      split at hfg
      · simp only [Option.some.injEq] at hfg; exact Or.inr ⟨e.symm, hfg.symm⟩
      · simp at hfg
    · next e => exact Or.inl ⟨fun x => e x.symm, hfg⟩
  constructor
  · intro f g' hfg s
    rcases cases_ f g' hfg with ⟨_, h1⟩ | ⟨_, rfl⟩
    · exact ⟨Nat.lt_of_lt_of_le (i.good f g' h1 s).1 g.1, g.2 _ (i.good f g' h1 s).1 (i.good f g' h1 s).2⟩
    · rcases hf with ⟨old, ho, hs⟩ | ⟨hf, _⟩
      · rw [hs]
        exact ⟨Nat.lt_of_lt_of_le (i.good n old ho s).1 g.1, g.2 _ (i.good n old ho s).1 (i.good n old ho s).2⟩
      · exact (hf s).2
  · intro f f2 fa fb s t h1 h2 e
    rcases cases_ f fa h1 with ⟨h3n, h3⟩ | ⟨h3, rfl⟩ <;> rcases cases_ f2 fb h2 with ⟨h4n, h4⟩ | ⟨h4, rfl⟩
    · exact i.inj f f2 fa fb s t h3 h4 e
    · rcases hf with ⟨old, ho, hs⟩ | ⟨hf, _⟩
      · rw [hs] at e; have := i.inj f n fa old s t h3 ho e; exact absurd this.1 h3n
      · have := (i.good f fa h3 s).1; have := (hf t).1; omega
    · rcases hf with ⟨old, ho, hs⟩ | ⟨hf, _⟩
      · rw [hs] at e; have := i.inj n f2 old fb s t ho h4 e; exact absurd this.1.symm h4n
      · have := (i.good f2 fb h4 t).1; have := (hf s).1; omega
    · refine ⟨by omega, ?_⟩
      rcases hf with ⟨old, ho, hs⟩ | ⟨_, hj⟩
      · rw [hs, hs] at e; exact (i.inj n n old old s t ho ho e).2
      · exact hj s t e

theorem InvB.step {expand : List Val → HV → HV} {fuel : Nat} {w w' : World} {op : BOp} (i : InvB w)
    (e : stepB expand fuel w op = some w') : InvB w' := by
  cases op with
  | dict d => simp only [stepB, Option.some.injEq] at e; subst e; exact i.grow (Ext.alloc _ _).grow _
  | builder =>
    simp only [stepB, Option.some.injEq] at e; subst e
    exact i.add (hlen := w.heap.length) _ (Ext.append _ _).grow (Nat.le_refl _) (newFactory_slot w.heap) (newFactory_inj w.heap)
  | defaults f slot kw =>
    simp only [stepB] at e
    split at e
    · simp at e
    · simp only [Option.map_eq_some_iff] at e
      obtain ⟨h, e1, e2⟩ := e
      subst e2
      exact i.grow ((Ext.alloc _ _).grow.trans (setDefaultsH_keeps _ _ _ _ _ _ e1).grow) _
  | build f slot key args kw =>
    simp only [stepB] at e
    split at e
    · simp at e
    · split at e
      · simp at e
      · next kw' h ek =>
        simp only [Option.map_eq_some_iff] at e
        obtain ⟨r, e1, e2⟩ := e
        subst e2
        exact i.grow ((applyKey_ext ek).grow.trans (buildPattern_grow e1)) _
  | chain f kw =>
    simp only [stepB] at e
    split at e
    · simp at e
    · next fac hfac =>
      split at e
      · simp at e
      · next h p eb =>
        simp only [Option.map_eq_some_iff] at e
        obtain ⟨r, e1, e2⟩ := e
        subst e2
        have g1 := buildPattern_grow eb
        have hin : ∀ s, fac.slot s < h.length ∧ Good (h.at_ (fac.slot s)) := fun s =>
          ⟨Nat.lt_of_lt_of_le (i.good f fac hfac s).1 g1.1, g1.2 _ (i.good f fac hfac s).1 (i.good f fac hfac s).2⟩
        have := inheritDefaults_spec e1 hin
        exact i.add (hlen := h.length) _ (g1.trans this.1.grow) g1.1 this.2.1 this.2.2
  | declareKeys f ks =>
    simp only [stepB] at e
    split at e
    · simp at e
    · next fac hfac =>
      simp only [Option.some.injEq] at e; subst e
      exact i.replace f _ (.refl _) (Or.inl ⟨fac, hfac, fun s => by cases s <;> rfl⟩)
  | reset f =>
    simp only [stepB] at e
    split at e
    · simp at e
    · simp only [Option.some.injEq] at e; subst e
      exact i.replace f _ (Ext.append _ _).grow (Or.inr ⟨newFactory_slot w.heap, newFactory_inj w.heap⟩)

theorem InvB.reachable {expand : List Val → HV → HV} {w : World} (h : ReachableB expand w) : InvB w := by
  induction h with
  | init => exact ⟨fun f fac hf => by simp [World.init] at hf, fun f g fac gac s t hf => by simp [World.init] at hf⟩
  | step _ _ e ih => exact ih.step e

theorem applyKey_options {key : KeyArg} {kw kw' : HDict} {h h' : DHeap} (ek : applyKey key kw h = .ok (kw', h')) (o : String)
    (ho : DictOption kw' o) : DictOption (withKeys key kw) o := by
  cases key with
  | absent => simp only [applyKey, Except.ok.injEq, Prod.mk.injEq] at ek; rw [← ek.1] at ho; exact ho
  | one k =>
    simp only [applyKey, Except.ok.injEq, Prod.mk.injEq] at ek
    rw [← ek.1] at ho
    obtain ⟨a, ha⟩ := ho
    have sd : ∀ (d : HDict) (n : String) (v : Val), (Dict.setDefault d n (.atom v)).get? o = some (.ref a) → d.get? o = some (.ref a) := by
      intro d n v h
      unfold Dict.setDefault at h
      split at h
      · exact h
      · rw [Dict.get?_set] at h
        split at h
        · simp at h
        · exact h
    exact ⟨a, sd _ _ _ (sd _ _ _ ha)⟩
  | many ks =>
    cases ks with
    | nil => simp only [applyKey, Except.ok.injEq, Prod.mk.injEq] at ek; rw [← ek.1] at ho; exact ho
    | cons k0 ks =>
      simp only [applyKey] at ek
      cases hb : keysBase kw h with
      | error e => rw [hb] at ek; simp at ek
      | ok base =>
        rw [hb] at ek
        simp only [Except.ok.injEq, Prod.mk.injEq] at ek
        rw [← ek.1] at ho
        obtain ⟨a, ha⟩ := ho
        rw [Dict.get?_set] at ha
        show DictOption (kw.set "formatter" (.ref 0)) o
        unfold DictOption
        rw [Dict.get?_set]
        split
        · exact ⟨0, rfl⟩
        · next e => rw [if_neg e] at ha; exact ⟨a, ha⟩

theorem buildPattern_last {expand : List Val → HV → HV} {fuel : Nat} {f : Factory} {slot : Slot} {args : List HV} {kw : HDict}
    {h : DHeap} {r : DHeap × PatCfg} (e : buildPattern expand fuel f slot args kw h = some r) :
    ∃ h4 kw1 h5 p, h.length ≤ h4.length ∧ newPattern h4 kw1 = (h5, p) ∧ r = inheritKeys f.keys (hasBareFormatter h5 kw1) h5 p := by
  unfold buildPattern at e
  split at e
  · simp at e
  · next kw' backup hp =>
    simp only [DHeap.alloc] at e
    split at e
    · simp at e
    · next h1 e1 =>
      split at e
      · simp at e
      · next h2 e2 =>
        simp only [Option.some.injEq] at e
        refine ⟨_, _, _, _, ?_, rfl, e.symm⟩
        have l2 := (setDefaultsH_keeps _ _ _ _ _ _ e2).1
        have l1 := (setDefaultsH_keeps _ _ _ _ _ _ e1).1
        simp only [List.length_append, List.length_cons, List.length_nil] at l1
        split
        · rw [(expandFold_keeps _ _ _ _).1, DHeap.length_put]; omega
        · rw [DHeap.length_put]; omega

theorem at_alloc_new (h : DHeap) (d : HDict) : (h.alloc d).1.at_ h.length = d := by rw [DHeap.at_eq]; simp [DHeap.alloc]
theorem at_alloc_old (h : DHeap) (d : HDict) {a : Nat} (ha : a < h.length) : (h.alloc d).1.at_ a = h.at_ a := (Ext.alloc h d).at ha

theorem get?_append (d e : HDict) (n : String) :
    Dict.get? (d ++ e) n = match d.get? n with | some v => some v | none => e.get? n := by
  induction d with
  | nil => rfl
  | cons kv d ih =>
    obtain ⟨k, v⟩ := kv
    simp only [List.cons_append, Dict.get?]
    split
    · rfl
    · exact ih

theorem get?_missing (keys : Dict String Nat) (d : HDict) (n : String) (hn : d.get? n = none) :
    Dict.get? ((keys.filter (fun k => !(Dict.contains d k.1))).map (fun k => (k.1, HV.atom (.obj k.2)))) n =
      (keys.get? n).map (fun c => HV.atom (.obj c)) := by
  induction keys with
  | nil => rfl
  | cons kc keys ih =>
    obtain ⟨k, c⟩ := kc
    simp only [List.filter_cons]
    by_cases hk : k = n
    · subst hk
      have hc : Dict.contains d k = false := by rw [Dict.contains, hn]; rfl
      simp [hc, Dict.get?]
    · have hb : (k == n) = false := by simpa using hk
      split
      · simp only [List.map_cons, Dict.get?, hb, Bool.false_eq_true, if_false]; exact ih
      · simp only [Dict.get?, hb, Bool.false_eq_true, if_false]; exact ih

/-- What `inheritKeys` does to the formatters. -/
theorem inheritKeys_spec (keys : Dict String Nat) (bare : Bool) (h : DHeap) (p : PatCfg) (hk : p.kwargs < h.length) :
    ((inheritKeys keys bare h p).1).at_ (inheritKeys keys bare h p).2.kwargs = h.at_ p.kwargs ∧
    ∀ n, (((inheritKeys keys bare h p).1).at_ (inheritKeys keys bare h p).2.formatters).get? n =
      match (h.at_ p.formatters).get? n with
      | some v => some v
      | none => if bare then none else (keys.get? n).map (fun c => HV.atom (.obj c)) := by
  have base : ∀ n, (h.at_ p.formatters).get? n = match (h.at_ p.formatters).get? n with
      | some v => some v
      | none => none := fun n => by cases (h.at_ p.formatters).get? n <;> rfl
  unfold inheritKeys
  by_cases hc : (keys.isEmpty || bare) = true
  · rw [if_pos hc]
    refine ⟨rfl, fun n => ?_⟩
    cases hg : (h.at_ p.formatters).get? n with
    | some v => rfl
    | none =>
      simp only [Bool.or_eq_true] at hc
      cases bare with
      | true => rfl
      | false =>
        have : keys = [] := by simpa using hc
        subst this; rfl
  · rw [if_neg hc]
    have hb : bare = false := by cases bare <;> simp at hc ⊢
    subst hb
    simp only
    split
    · next hm =>
      refine ⟨rfl, fun n => ?_⟩
      cases hg : (h.at_ p.formatters).get? n with
      | some v => rfl
      | none =>
        have := get?_missing keys _ n hg
        have he : keys.filter (fun k => !(Dict.contains (h.at_ p.formatters) k.1)) = [] := by simpa using hm
        rw [he] at this
        simpa [Dict.get?] using this
    · refine ⟨at_alloc_old _ _ hk, fun n => ?_⟩
      show Dict.get? (DHeap.at_ _ h.length) n = _
      rw [at_alloc_new, get?_append]
      cases hg : (h.at_ p.formatters).get? n with
      | some v => rfl
      | none => exact get?_missing keys _ n hg

theorem newPattern_inherit (keys : Dict String Nat) (h : DHeap) (kw : HDict) :
    (let r := inheritKeys keys (hasBareFormatter (newPattern h kw).1 kw) (newPattern h kw).1 (newPattern h kw).2
     r.1.at_ r.2.kwargs = kw) ∧
    ((∀ a, kw.get? "formatter" = some (.ref a) → a < h.length) → ∀ n,
      let r := inheritKeys keys (hasBareFormatter (newPattern h kw).1 kw) (newPattern h kw).1 (newPattern h kw).2
      (r.1.at_ r.2.formatters).get? n = match kw.get? "formatter" with
        | some (.ref a) => (match (r.1.at_ a).get? n with | some v => some v | none => (keys.get? n).map (fun c => HV.atom (.obj c)))
        | some v => if v.truthy r.1 = true then (if n = "" then some v else none) else (keys.get? n).map (fun c => HV.atom (.obj c))
        | none => (keys.get? n).map (fun c => HV.atom (.obj c))) := by
  have np : (newPattern h kw).2.kwargs = h.length ∧ (newPattern h kw).1.at_ h.length = kw ∧ h.length < (newPattern h kw).1.length := by
    unfold newPattern
    simp only
    have l1 : h.length < (h.alloc kw).1.length := by simp [DHeap.alloc]
    split
    · split
      · exact ⟨rfl, by rw [at_alloc_old _ _ l1, at_alloc_new], by simp [DHeap.alloc]⟩
      · exact ⟨rfl, at_alloc_new _ _, l1⟩
    · exact ⟨rfl, by rw [at_alloc_old _ _ l1, at_alloc_new], by simp [DHeap.alloc]⟩
    · exact ⟨rfl, by rw [at_alloc_old _ _ l1, at_alloc_new], by simp [DHeap.alloc]⟩
  have hk : (newPattern h kw).2.kwargs < (newPattern h kw).1.length := by rw [np.1]; exact np.2.2
  have sp := fun b => inheritKeys_spec keys b (newPattern h kw).1 (newPattern h kw).2 hk
  refine ⟨?_, ?_⟩
  · simp only
    rw [(sp _).1, np.1, np.2.1]
  · intro hin n
    simp only
    rw [(sp _).2 n]
    have hx := inheritKeys_ext keys (hasBareFormatter (newPattern h kw).1 kw) (newPattern h kw).1 (newPattern h kw).2
    have truthyAtom : ∀ (v : HV) (g g' : DHeap), (∀ a, v ≠ .ref a) → v.truthy g = v.truthy g' := by
      intro v g g' hv
      cases v with
      | ref a => exact absurd rfl (hv a)
      | atom _ => rfl
      | list _ => rfl
    cases hf : kw.get? "formatter" with
    | none =>
      have hb : hasBareFormatter (newPattern h kw).1 kw = false := by unfold hasBareFormatter; rw [hf]
      have hfm : ((newPattern h kw).1).at_ (newPattern h kw).2.formatters = [] := by
        unfold newPattern; simp only [hf]; exact at_alloc_new _ _
      rw [hfm, hb]
      rfl
    | some v =>
      by_cases hv : ∃ a, v = .ref a
      · obtain ⟨a, rfl⟩ := hv
        have ha := hin a hf
        have hb : hasBareFormatter (newPattern h kw).1 kw = false := by unfold hasBareFormatter; rw [hf]
        have hat : ∀ g, Ext (newPattern h kw).1 g → g.at_ a = h.at_ a := by
          intro g hg
          rw [((newPattern_ext h kw).trans hg).at ha]
        rw [hb] at hx ⊢
        simp only [hat _ hx]
        have hfm : ((newPattern h kw).1).at_ (newPattern h kw).2.formatters = h.at_ a := by
          unfold newPattern
          simp only [hf]
          split
          · next he =>
            show DHeap.at_ _ ((h.alloc kw).1.length) = _
            rw [at_alloc_new]
            rw [at_alloc_old _ _ ha] at he
            simpa using he.symm
          · show DHeap.at_ _ a = _
            rw [at_alloc_old _ _ ha]
        rw [hfm]
        cases (h.at_ a).get? n <;> rfl
      · have hv' : ∀ a, v ≠ .ref a := fun a e => hv ⟨a, e⟩
        have hb : hasBareFormatter (newPattern h kw).1 kw = v.truthy h := by
          unfold hasBareFormatter; rw [hf]
          cases v with
          | ref a => exact absurd rfl (hv' a)
          | atom _ => rfl
          | list _ => rfl
        have hfm : ((newPattern h kw).1).at_ (newPattern h kw).2.formatters = if v.truthy h then [("", v)] else [] := by
          unfold newPattern
          simp only [hf]
          cases v with
          | ref a => exact absurd rfl (hv' a)
          | atom x => exact at_alloc_new _ _
          | list x => exact at_alloc_new _ _
        rw [hfm, hb]
        have hgoal : ∀ g : DHeap, (match (if v.truthy h then [("", v)] else [] : HDict).get? n with
            | some v => some v
            | none => if v.truthy h then none else (keys.get? n).map (fun c => HV.atom (.obj c))) =
            if v.truthy g = true then (if n = "" then some v else none) else (keys.get? n).map (fun c => HV.atom (.obj c)) := by
          intro g
          rw [truthyAtom v g h hv']
          cases v.truthy h with
          | false => rfl
          | true =>
            simp only [if_true, Dict.get?]
            by_cases hn : n = ""
            · subst hn; rfl
            · have : ("" == n) = false := by simpa using hn
              simp [hn, this]
        cases v with
        | ref a => exact absurd rfl (hv' a)
        | atom x => exact hgoal _
        | list x => exact hgoal _

end Rebulk
