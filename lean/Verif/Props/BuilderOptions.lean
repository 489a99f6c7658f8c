import Verif.Spec.BuilderOptions
import Verif.Props.Builder
/-!
# The options a pattern is built with, what `defaults()` does, and the defaults of a chain (`C101`)
-/
namespace Rebulk
open Spec

/-- What becomes of an option. -/
def optionAfter (o : Bool) (d cur : Option HV) : Option HV := if o then d.or cur else combine d cur

theorem combine_none (cur : Option HV) : combine none cur = cur := by cases cur <;> rfl

theorem at_put_self {h : DHeap} {k : Addr} (hk : k < h.length) (d : HDict) : (h.put k d).at_ k = d := by
  rw [DHeap.at_put, if_pos ⟨rfl, hk⟩]

/-- One key. -/
theorem defaultKeyH_get {rec_ : Addr → Addr → DHeap → Option DHeap} {d k : Addr} {o : Bool} {h h' : DHeap} {key : String} (hdk : d ≠ k)
    (hk : k < h.length) (hsh : ¬ (DictOption (h.at_ d) key ∧ DictOption (h.at_ k) key))
    (he : defaultKeyH rec_ d k o h key = some h') :
    h'.length = h.length ∧ h'.at_ d = h.at_ d ∧ ∀ x, (h'.at_ k).get? x =
      if x = key then optionAfter o ((h.at_ d).get? key) ((h.at_ k).get? key) else (h.at_ k).get? x := by
  have hput : ∀ (g : DHeap) (v : HV), k < g.length → ∀ x, ((g.put k ((g.at_ k).set key v)).at_ k).get? x =
      if x = key then some v else (g.at_ k).get? x := by
    intro g v hg x
    rw [at_put_self hg, Dict.get?_set]
    by_cases hx : x = key
    · rw [if_pos hx, if_pos hx.symm]
    · rw [if_neg hx, if_neg (fun h => hx h.symm)]
  have hputd : ∀ (g : DHeap) (e : HDict), (g.put k e).at_ d = g.at_ d := by
    intro g e; rw [DHeap.at_put, if_neg (fun h => hdk h.1.symm)]
  unfold defaultKeyH at he
  cases hd : (h.at_ d).get? key with
  | none =>
    rw [hd] at he; cases he
    refine ⟨rfl, rfl, fun x => ?_⟩
    unfold optionAfter
    rw [combine_none]
    by_cases hx : x = key
    · rw [if_pos hx, hx]; cases o <;> simp
    · rw [if_neg hx]
  | some v =>
    rw [hd] at he
    simp only at he
    cases hc : (h.at_ k).get? key with
    | none =>
      rw [hc] at he; cases he
      refine ⟨DHeap.length_put _ _ _, hputd _ _, fun x => ?_⟩
      rw [hput h v hk x]
      have : optionAfter o (some v) none = some v := by cases o <;> cases v <;> rfl
      rw [this]
    | some cur =>
      rw [hc] at he
      simp only [Option.map_eq_some_iff] at he
      obtain ⟨g, e3, e4⟩ := he
      have hg : g.length = h.length ∧ g.at_ d = h.at_ d ∧ ∀ x, (g.at_ k).get? x =
          if x = key then combine (some v) (some cur) else (h.at_ k).get? x := by
        have same : combine (some v) (some cur) = some cur → h = g → g.length = h.length ∧ g.at_ d = h.at_ d ∧
            ∀ x, (g.at_ k).get? x = if x = key then combine (some v) (some cur) else (h.at_ k).get? x := by
          intro hs e; subst e
          refine ⟨rfl, rfl, fun x => ?_⟩
          by_cases hx : x = key
          · rw [if_pos hx, hx, hc, hs]
          · rw [if_neg hx]
        cases v with
        | atom v => exact same rfl (by simpa using e3)
        | list a =>
          cases cur with
          | list b =>
            simp only [Option.some.injEq] at e3; subst e3
            exact ⟨DHeap.length_put _ _ _, hputd _ _, fun x => by rw [hput h _ hk x]; rfl⟩
          | atom _ => exact same rfl (by simpa using e3)
          | ref _ => exact same rfl (by simpa using e3)
        | ref a =>
          cases cur with
          | ref b => exact absurd ⟨⟨a, hd⟩, ⟨b, hc⟩⟩ hsh
          | atom _ => exact same rfl (by simpa using e3)
          | list _ => exact same rfl (by simpa using e3)
      subst e4
      cases o with
      | true =>
        rw [if_pos rfl]
        refine ⟨(DHeap.length_put _ _ _).trans hg.1, (hputd _ _).trans hg.2.1, fun x => ?_⟩
        rw [hput g v (by rw [hg.1]; exact hk) x]
        by_cases hx : x = key
        · rw [if_pos hx, if_pos hx]; rfl
        · rw [if_neg hx, if_neg hx, hg.2.2 x, if_neg hx]
      | false =>
        rw [if_neg (by simp)]
        exact hg

/-- The loop. -/
theorem defaultLoop_get {rec_ : Addr → Addr → DHeap → Option DHeap} {d k : Addr} {o : Bool} (hdk : d ≠ k) (ks : List String) (hn : ks.Nodup) :
    ∀ {h h' : DHeap}, k < h.length → (∀ key ∈ ks, ¬ (DictOption (h.at_ d) key ∧ DictOption (h.at_ k) key)) →
      ks.foldlM (defaultKeyH rec_ d k o) h = some h' →
      h'.length = h.length ∧ h'.at_ d = h.at_ d ∧ ∀ x, (h'.at_ k).get? x =
        if x ∈ ks then optionAfter o ((h.at_ d).get? x) ((h.at_ k).get? x) else (h.at_ k).get? x := by
  induction ks with
  | nil =>
    intro h h' hk _ he
    simp only [List.foldlM_nil, pure, Option.some.injEq] at he; subst he
    exact ⟨rfl, rfl, fun x => by rw [if_neg (by simp)]⟩
  | cons key ks ih =>
    intro h h' hk hsh he
    simp only [List.foldlM_cons, bind, Option.bind_eq_some_iff] at he
    obtain ⟨h1, e1, e2⟩ := he
    obtain ⟨hnk, hn⟩ := List.nodup_cons.1 hn
    obtain ⟨l1, d1, g1⟩ := defaultKeyH_get hdk hk (hsh key (by simp)) e1
    have hne : ∀ x ∈ ks, x ≠ key := fun x hx e => hnk (e ▸ hx)
    obtain ⟨l2, d2, g2⟩ := ih hn (h := h1) (h' := h') (by rw [l1]; exact hk) (by
      intro x hx hc
      refine hsh x (List.mem_cons_of_mem _ hx) ⟨d1 ▸ hc.1, ?_⟩
      obtain ⟨b, hb⟩ := hc.2
      rw [g1 x, if_neg (hne x hx)] at hb
      exact ⟨b, hb⟩) e2
    refine ⟨l2.trans l1, d2.trans d1, fun x => ?_⟩
    rw [g2 x, g1 x, d1]
    by_cases hx : x = key
    · subst hx
      rw [if_neg hnk, if_pos rfl, if_pos (by simp)]
    · rw [if_neg hx]
      by_cases hm : x ∈ ks
      · rw [if_pos hm, if_pos (List.mem_cons_of_mem _ hm)]
      · rw [if_neg hm, if_neg (by simp [hx, hm])]

theorem get?_pop_iff (d : HDict) (k key : String) : (HDict.pop d k).get? key = if key = k then none else d.get? key := by
  by_cases hk : key = k
  · subst hk
    rw [if_pos rfl, Dict.get?_eq_none_iff, pop_keys]
    simp
  · rw [if_neg hk]
    cases hd : (HDict.pop d k).get? key with
    | some v => exact (get?_pop hd).symm
    | none =>
      rw [Dict.get?_eq_none_iff, pop_keys] at hd
      symm
      rw [Dict.get?_eq_none_iff]
      intro hm
      exact hd (List.mem_filter.2 ⟨hm, by simpa using hk⟩)

/-- `set_defaults`, no two dicts meeting. -/
theorem setDefaultsH_get {fuel : Nat} {d k : Addr} {o : Bool} {h h' : DHeap} (hdk : d ≠ k) (hk : k < h.length) (hdl : d < h.length)
    (hnd : (h.at_ d).keys.Nodup) (hsh : ∀ key, ¬ (DictOption (h.at_ d) key ∧ DictOption (h.at_ k) key))
    (he : setDefaultsH fuel d k o h = some h') : ∀ x, (h'.at_ k).get? x =
      optionAfter o (if x = "clear" then none else (h.at_ d).get? x)
        (if (∃ v, (h.at_ d).get? "clear" = some v ∧ v.truthy h = true) then none else (h.at_ k).get? x) := by
  cases fuel with
  | zero => simp [setDefaultsH] at he
  | succ fuel =>
    unfold setDefaultsH at he
    simp only at he
    have hp : (popClear h d).1.at_ d = HDict.pop (h.at_ d) "clear" ∧ (popClear h d).1.at_ k = h.at_ k ∧
        (popClear h d).1.length = h.length ∧
        ((popClear h d).2 = true ↔ ∃ v, (h.at_ d).get? "clear" = some v ∧ v.truthy h = true) := by
      unfold popClear
      cases hc : (h.at_ d).get? "clear" with
      | none =>
        refine ⟨?_, rfl, rfl, by simp⟩
        have : "clear" ∉ (h.at_ d).keys := (Dict.get?_eq_none_iff _ _).1 hc
        show h.at_ d = _
        unfold HDict.pop
        symm
        rw [List.filter_eq_self]
        intro kv hkv
        have : kv.1 ≠ "clear" := by
          intro e
          exact this (List.mem_map.2 ⟨kv, hkv, e⟩)
        simpa using this
      | some v =>
        refine ⟨at_put_self hdl _, ?_, DHeap.length_put _ _ _, by simp⟩
        rw [DHeap.at_put, if_neg (fun h => hdk h.1)]
    generalize hc : (if (popClear h d).2 = true then ((popClear h d).1).put k [] else (popClear h d).1) = h1 at he
    have h1p : h1.at_ d = HDict.pop (h.at_ d) "clear" ∧ h1.length = h.length ∧ ∀ x, (h1.at_ k).get? x =
        if (∃ v, (h.at_ d).get? "clear" = some v ∧ v.truthy h = true) then none else (h.at_ k).get? x := by
      subst hc
      by_cases hb : (popClear h d).2 = true
      · rw [if_pos hb]
        refine ⟨?_, ?_, fun x => ?_⟩
        · rw [DHeap.at_put, if_neg (fun h => hdk h.1.symm), hp.1]
        · rw [DHeap.length_put, hp.2.2.1]
        · rw [if_pos (hp.2.2.2.1 hb), at_put_self (by rw [hp.2.2.1]; exact hk)]; rfl
      · rw [if_neg hb]
        refine ⟨hp.1, hp.2.2.1, fun x => ?_⟩
        rw [if_neg (fun h => hb (hp.2.2.2.2 h)), hp.2.1]
    have hks : (h1.at_ d).keys.Nodup := by rw [h1p.1, pop_keys]; exact hnd.filter _
    obtain ⟨_, _, g⟩ := defaultLoop_get hdk _ hks (by rw [h1p.2.1]; exact hk) (by
      intro key _ hx
      obtain ⟨⟨a, ha⟩, b, hb⟩ := hx
      rw [h1p.1] at ha
      rw [h1p.2.2] at hb
      split at hb
      · cases hb
      · exact hsh key ⟨⟨a, get?_pop ha⟩, ⟨b, hb⟩⟩) he
    intro x
    rw [g x, h1p.1, h1p.2.2 x, get?_pop_iff]
    by_cases hm : x ∈ Dict.keys (HDict.pop (h.at_ d) "clear")
    · rw [if_pos hm]
    · rw [if_neg hm]
      have hnone : (if x = "clear" then none else (h.at_ d).get? x) = none := by
        rw [← get?_pop_iff]; exact (Dict.get?_eq_none_iff _ _).2 hm
      rw [hnone]
      unfold optionAfter
      rw [combine_none]
      cases o <;> simp

/-- **C101**, `defaults(**kw)`, `regex_defaults(**kw)`…: each given option replaces the default of that name, whatever its type; the other
defaults stay, unless a true `clear=` was given, which drops them all; `clear` itself is not a default. Missing: a dict given where the
default is a dict too. -/
theorem C101_defaults_partial {expand : List Val → HV → HV} {fuel : Nat} {w w' : World} {f : Nat} {fac : Factory} {slot : Slot} {kw : HDict}
    (hw : ReachableB expand w) (hv : BOp.Valid (.defaults f slot kw)) (hs : NoShared w (.defaults f slot kw))
    (hc : ¬ DictOption kw "clear")
    (hf : w.factories[f]? = some fac) (he : stepB expand fuel w (.defaults f slot kw) = some w') (name : String) :
    (w'.heap.at_ (fac.slot slot)).get? name =
      if name = "clear" then none
      else (kw.get? name).or
        (if (∃ v, kw.get? "clear" = some v ∧ IsTrueHV w.heap v) then none else (w.heap.at_ (fac.slot slot)).get? name) := by
  simp only [← isTrueHV_iff]
  have i := InvB.reachable hw
  have hg := i.good f fac hf slot
  simp only [stepB, hf, DHeap.alloc, Option.map_eq_some_iff] at he
  obtain ⟨h', e, rfl⟩ := he
  have x0 := Ext.append w.heap [kw]
  have hnew : (w.heap ++ [kw] : DHeap).at_ w.heap.length = kw := by rw [DHeap.at_eq]; simp
  have hold : (w.heap ++ [kw] : DHeap).at_ (fac.slot slot) = w.heap.at_ (fac.slot slot) := x0.at hg.1
  have key := setDefaultsH_get (by omega) (by simp; omega) (by simp) (by rw [hnew]; exact hv) (by
    intro key hx
    rw [hnew, hold] at hx
    exact hs fac hf key hx) e name
  rw [hnew, hold] at key
  show (h'.at_ _).get? name = _
  rw [key]
  have hcl : (∃ v, kw.get? "clear" = some v ∧ v.truthy (w.heap ++ [kw]) = true) ↔ (∃ v, kw.get? "clear" = some v ∧ v.truthy w.heap = true) := by
    constructor
    all_goals
      rintro ⟨v, h1, h2⟩
      refine ⟨v, h1, ?_⟩
      cases v with
      | ref a => exact absurd ⟨a, h1⟩ hc
      | atom v => exact h2
      | list l => exact h2
  simp only [optionAfter, if_true, hcl]
  by_cases hn : name = "clear"
  · rw [if_pos hn, if_pos hn]
    have : (w.heap.at_ (fac.slot slot)).get? name = none := by rw [hn]; exact (Dict.get?_eq_none_iff _ _).2 hg.2.2
    rw [this]; simp
  · rw [if_neg hn, if_neg hn]

/-! ## Building -/

theorem get?_update (e d : HDict) (g : String → Option HV) (x : String) (h : ∀ kv ∈ e, g kv.1 = some kv.2) :
    (Dict.update d e).get? x = if x ∈ e.map Prod.fst then g x else d.get? x := by
  unfold Dict.update
  induction e generalizing d with
  | nil => simp
  | cons kv e ih =>
    rw [List.foldl_cons, ih _ (fun kv hkv => h kv (List.mem_cons_of_mem _ hkv)), Dict.get?_set]
    by_cases h1 : x ∈ e.map Prod.fst
    · rw [if_pos h1, if_pos (by simp only [List.map_cons]; exact List.mem_cons_of_mem _ h1)]
    · rw [if_neg h1]
      by_cases h2 : kv.1 = x
      · rw [if_pos h2, if_pos (by simp [h2]), ← h2, h kv (by simp)]
      · rw [if_neg h2, if_neg (by simp only [List.map_cons, List.mem_cons, not_or]; exact ⟨fun e => h2 e.symm, h1⟩)]

theorem mapM_some_mem {α β : Type} {f : α → Option β} : ∀ {l : List α} {r : List β}, l.mapM f = some r →
    (∀ y ∈ r, ∃ x ∈ l, f x = some y) ∧ ∀ x ∈ l, ∃ y ∈ r, f x = some y
  | [], r, h => by simp at h; subst h; simp
  | a :: l, r, h => by
    simp only [List.mapM_cons, bind, Option.bind_eq_some_iff, pure, Option.some.injEq] at h
    obtain ⟨b, h1, r', h2, rfl⟩ := h
    obtain ⟨i1, i2⟩ := mapM_some_mem h2
    refine ⟨?_, ?_⟩
    · intro y hy
      rcases List.mem_cons.1 hy with rfl | hy
      · exact ⟨a, by simp, h1⟩
      · obtain ⟨x, hx, e⟩ := i1 y hy
        exact ⟨x, List.mem_cons_of_mem _ hx, e⟩
    · intro x hx
      rcases List.mem_cons.1 hx with rfl | hx
      · exact ⟨b, by simp, h1⟩
      · obtain ⟨y, hy, e⟩ := i2 x hx
        exact ⟨y, List.mem_cons_of_mem _ hy, e⟩

/-- The backup of `overrides`. -/
theorem popOverrides_backup {kw kw' backup : HDict} (e : popOverrides kw = some (kw', backup)) :
    (∀ kv ∈ backup, kw'.get? kv.1 = some kv.2) ∧ ∀ x, x ∈ backup.map Prod.fst ↔ Overridden kw x := by
  unfold popOverrides at e
  cases ho : kw.get? "overrides" with
  | none =>
    rw [ho] at e; cases e
    refine ⟨by simp, fun x => ?_⟩
    unfold Overridden
    rw [ho]; simp
  | some v =>
    rw [ho] at e
    cases v with
    | list ks =>
      simp only [Option.map_eq_some_iff] at e
      obtain ⟨b, hb, e⟩ := e
      simp only [Prod.mk.injEq] at e
      obtain ⟨rfl, rfl⟩ := e
      obtain ⟨m1, m2⟩ := mapM_some_mem hb
      refine ⟨?_, ?_⟩
      · intro kv hkv
        obtain ⟨x, _, hx⟩ := m1 kv hkv
        cases x with
        | str s =>
          simp only [Option.map_eq_some_iff] at hx
          obtain ⟨v, h1, rfl⟩ := hx
          exact h1
        | _ => cases hx
      · intro x
        unfold Overridden
        rw [ho]
        constructor
        · intro hx
          obtain ⟨kv, hkv, rfl⟩ := List.mem_map.1 hx
          obtain ⟨y, hy, he⟩ := m1 kv hkv
          refine ⟨ks, rfl, ?_⟩
          cases y with
          | str s =>
            simp only [Option.map_eq_some_iff] at he
            obtain ⟨v, _, rfl⟩ := he
            simpa using hy
          | _ => cases he
        · rintro ⟨ks', h1, h2⟩
          cases h1
          obtain ⟨y, hy, he⟩ := m2 _ h2
          simp only [Option.map_eq_some_iff] at he
          obtain ⟨v, _, rfl⟩ := he
          exact List.mem_map.2 ⟨_, hy, by simp⟩
    | atom v =>
      simp only [Option.some.injEq, Prod.mk.injEq] at e
      obtain ⟨rfl, rfl⟩ := e
      exact ⟨by simp, fun x => by unfold Overridden; rw [ho]; simp⟩
    | ref a =>
      simp only [Option.some.injEq, Prod.mk.injEq] at e
      obtain ⟨rfl, rfl⟩ := e
      exact ⟨by simp, fun x => by unfold Overridden; rw [ho]; simp⟩

theorem newPattern_kwargs (h : DHeap) (kw : HDict) :
    (newPattern h kw).2.kwargs = h.length ∧ Ext (h ++ [kw]) (newPattern h kw).1 := by
  have hx : h ++ [kw] = (h.alloc kw).1 := rfl
  rw [hx]
  unfold newPattern
  simp only
  split
  · next a _ =>
    by_cases hc : List.isEmpty ((h.alloc kw).1.at_ a) = true
    · rw [if_pos hc]; exact ⟨rfl, .append _ _⟩
    · rw [if_neg hc]; exact ⟨rfl, .refl _⟩
  · exact ⟨rfl, .append _ _⟩
  · exact ⟨rfl, .append _ _⟩

theorem inheritKeys_kwargs (keys : Dict String Nat) (b : Bool) (h : DHeap) (p : PatCfg) : (inheritKeys keys b h p).2.kwargs = p.kwargs := by
  unfold inheritKeys
  split
  · rfl
  · simp only
    split
    · rfl
    · rfl

theorem buildPattern_options {expand : List Val → HV → HV} {fuel : Nat} {f : Factory} {slot : Slot} {args : List HV} {kw : HDict}
    {h : DHeap} {r : DHeap × PatCfg} (e : buildPattern expand fuel f slot args kw h = some r)
    (hin : ∀ s, f.slot s < h.length ∧ Good (h.at_ (f.slot s)))
    (hns : NoSharedOptions h kw f slot) (hr : ∀ a, HV.ref a ∉ args) :
    h.length < r.2.kwargs ∧ r.2.kwargs < r.1.length ∧
      BuiltWith (fun n => kw.get? n) (h.at_ (f.slot slot)) (h.at_ f.base) (Overridden kw) (r.1.at_ r.2.kwargs) := by
  unfold buildPattern at e
  cases hp : popOverrides kw with
  | none => rw [hp] at e; cases e
  | some q =>
    obtain ⟨kw', backup⟩ := q
    rw [hp] at e
    simp only [DHeap.alloc] at e
    cases e1 : setDefaultsH fuel (f.slot slot) h.length false (h ++ [kw']) with
    | none => rw [e1] at e; cases e
    | some h1 =>
      rw [e1] at e
      simp only at e
      cases e2 : setDefaultsH fuel f.base h.length false h1 with
      | none => rw [e2] at e; cases e
      | some h2 =>
        rw [e2] at e
        simp only [Option.some.injEq] at e
        have hkw' := popOverrides_options hp
        have x0 := Ext.append h [kw']
        have hopt : ∀ key, DictOption kw' key → DictOption kw key := by
          intro key; rw [hkw']; rintro ⟨a, ha⟩; exact ⟨a, get?_pop ha⟩
        have hnew : (h ++ [kw'] : DHeap).at_ h.length = kw' := by rw [DHeap.at_eq]; simp
        have hs : (h ++ [kw'] : DHeap).at_ (f.slot slot) = h.at_ (f.slot slot) := x0.at (hin slot).1
        have hne1 : f.slot slot ≠ h.length := by have := (hin slot).1; omega
        have hlb : f.base < h.length := (hin .base).1
        have sh1 : ∀ key, ¬ (DictOption ((h ++ [kw'] : DHeap).at_ (f.slot slot)) key ∧ DictOption ((h ++ [kw'] : DHeap).at_ h.length) key) := by
          intro key hk
          rw [hs, hnew] at hk
          exact (hns key).1 ⟨hopt key hk.2, hk.1⟩
        have f1 := setDefaultsH_frame (o := false) hne1 (by rw [hs]; exact (hin slot).2) sh1 e1
        have g1 := setDefaultsH_get hne1 (by simp) (by have := (hin slot).1; simp; omega) (by rw [hs]; exact (hin slot).2.1) sh1 e1
        have hb : h1.at_ f.base = h.at_ f.base := by
          rw [DHeap.at_congr (f1.1.2 f.base (by omega)), x0.at hlb]
        have hl1 : h1.length = h.length + 1 := by rw [f1.1.1]; simp
        have sh2 : ∀ key, ¬ (DictOption (h1.at_ f.base) key ∧ DictOption (h1.at_ h.length) key) := by
          intro key hk
          rw [hb] at hk
          rcases f1.2 key hk.2 with h3 | h3
          · rw [hnew] at h3; exact (hns key).2.1 ⟨hopt key h3, hk.1⟩
          · rw [hs] at h3; exact (hns key).2.2 ⟨h3, hk.1⟩
        have gb : Good (h1.at_ f.base) := by rw [hb]; exact (hin .base).2
        have f2 := setDefaultsH_frame (o := false) (by omega) gb sh2 e2
        have g2 := setDefaultsH_get (by omega) (by omega) (by omega) gb.1 sh2 e2
        have hl2 : h2.length = h.length + 1 := by rw [f2.1.1, hl1]
        have clean : ∀ d : HDict, Good d → ∀ x, (if x = "clear" then none else d.get? x) = d.get? x := by
          intro d hd x
          by_cases hx : x = "clear"
          · rw [if_pos hx, hx, (Dict.get?_eq_none_iff _ _).2 hd.2]
          · rw [if_neg hx]
        have noclear : ∀ (d : HDict) (g : DHeap), Good d → ¬ ∃ v, d.get? "clear" = some v ∧ v.truthy g = true := by
          rintro d g hd ⟨v, h1, _⟩
          rw [(Dict.get?_eq_none_iff _ _).2 hd.2] at h1; cases h1
        have gs : Good ((h ++ [kw'] : DHeap).at_ (f.slot slot)) := by rw [hs]; exact (hin slot).2
        have content2 : ∀ x, (h2.at_ h.length).get? x = combine ((h.at_ f.base).get? x) (combine ((h.at_ (f.slot slot)).get? x) (kw'.get? x)) := by
          intro x
          rw [g2 x, clean _ gb, if_neg (noclear _ _ gb), g1 x, clean _ gs, if_neg (noclear _ _ gs), hb, hs, hnew]
          rfl
        -- after the overrides
        obtain ⟨b1, b2⟩ := popOverrides_backup hp
        have hk3 : ((h2.put h.length (Dict.update (h2.at_ h.length) backup)).at_ h.length) = Dict.update (h2.at_ h.length) backup :=
          at_put_self (by omega) _
        generalize hK : Dict.update (h2.at_ h.length) backup = K at e hk3
        have hKget : BuiltWith (fun n => kw.get? n) (h.at_ (f.slot slot)) (h.at_ f.base) (Overridden kw) K := by
          intro name
          rw [← hK, get?_update backup _ (fun n => kw'.get? n) name b1]
          refine ⟨fun ho => ?_, fun ho => ?_⟩
          · rw [if_pos ((b2 name).2 ho)]
            have hm := (b2 name).2 ho
            obtain ⟨kv, hkv, rfl⟩ := List.mem_map.1 hm
            have := b1 kv hkv
            rw [this]
            rw [hkw'] at this
            exact (get?_pop this).symm
          · rw [if_neg (fun hm => ho ((b2 name).1 hm)), content2, hkw', get?_pop_iff]
        rw [hk3] at e
        have hfold : (if slot = .regex then args.foldl (expandPatternDict expand (K.get? "abbreviations")) (h2.put h.length K)
            else h2.put h.length K) = h2.put h.length K := by
          split
          · exact expandFold_noref _ _ _ _ hr
          · rfl
        rw [hfold] at e
        obtain ⟨n1, n2⟩ := newPattern_kwargs (h2.put h.length K) K
        have hlp : (h2.put h.length K).length = h.length + 1 := by rw [DHeap.length_put]; exact hl2
        have hx := n2.trans (inheritKeys_ext f.keys (hasBareFormatter (newPattern (h2.put h.length K) K).1 K) (newPattern (h2.put h.length K) K).1
          (newPattern (h2.put h.length K) K).2)
        have hat : ((h2.put h.length K) ++ [K] : DHeap).at_ (h.length + 1) = K := by
          rw [DHeap.at_eq, ← hlp]; simp
        subst e
        rw [inheritKeys_kwargs, n1, hlp]
        refine ⟨by omega, ?_, ?_⟩
        · have := hx.1
          simp only [List.length_append, hlp, List.length_singleton] at this
          omega
        · rw [hx.at (by simp only [List.length_append, hlp, List.length_singleton]; omega), hat]
          exact hKget

theorem get?_setDefault (d : HDict) (k : String) (v : HV) (x : String) :
    (Dict.setDefault d k v).get? x = (d.get? x).or (if x = k then some v else none) := by
  unfold Dict.setDefault Dict.contains
  cases hc : (d.get? k).isSome with
  | true =>
    rw [if_pos rfl]
    by_cases hx : x = k
    · subst hx
      cases hd : d.get? x with
      | none => rw [hd] at hc; cases hc
      | some w => rfl
    · rw [if_neg hx]; simp
  | false =>
    rw [if_neg (by simp), Dict.get?_set]
    by_cases hx : x = k
    · subst hx
      rw [if_pos rfl, if_pos rfl]
      cases hd : d.get? x with
      | none => rfl
      | some w => rw [hd] at hc; cases hc
    · rw [if_neg hx, if_neg (fun h => hx h.symm)]; simp

/-- **C101**, `regex(...)`, `string(...)`, `functional(...)`: the options of the new pattern. An option listed in `overrides=[...]` is the
given one; any other is the given one combined with the default of its kind and then with the general default (see `combine`). Missing: a
dict-valued option meeting a dict-valued default, regular expressions given as dicts, and sequences of keys (`C77_key_sequence`). -/
theorem C101_build_partial {expand : List Val → HV → HV} {fuel : Nat} {w w' : World} {f : Nat} {fac : Factory} {slot : Slot} {key : KeyArg}
    {args : List HV} {kw : HDict} (hw : ReachableB expand w) (hs : NoShared w (.build f slot key args kw))
    (hkey : ∀ k ks, key ≠ .many (k :: ks)) (hf : w.factories[f]? = some fac)
    (he : stepB expand fuel w (.build f slot key args kw) = some w') :
    ∃ p, w'.patterns = w.patterns ++ [p] ∧ w.heap.length ≤ p.kwargs ∧
      BuiltWith (optionsWithKey key kw) (w.heap.at_ (fac.slot slot)) (w.heap.at_ fac.base) (Overridden kw) (w'.heap.at_ p.kwargs) := by
  have i := InvB.reachable hw
  have hin := i.good f fac hf
  simp only [stepB, hf] at he
  have hk : ∃ kw', applyKey key kw w.heap = .ok (kw', w.heap) ∧ (∀ n, kw'.get? n = optionsWithKey key kw n) ∧
      (∀ n, DictOption kw' n → DictOption kw n) ∧ kw'.get? "overrides" = kw.get? "overrides" := by
    cases key with
    | absent => exact ⟨kw, rfl, fun _ => rfl, fun _ h => h, rfl⟩
    | many ks =>
      cases ks with
      | nil => exact ⟨kw, rfl, fun _ => rfl, fun _ h => h, rfl⟩
      | cons k ks => exact absurd rfl (hkey k ks)
    | one k =>
      have hget : ∀ n, (Dict.setDefault (Dict.setDefault kw "name" (.atom (.str k.name.toList))) "formatter" k.conv).get? n =
          optionsWithKey (.one k) kw n := by
        intro n
        rw [get?_setDefault, get?_setDefault]
        unfold optionsWithKey
        by_cases h1 : n = "name"
        · subst h1; cases hq : kw.get? "name" <;> simp [hq]
        · by_cases h2 : n = "formatter"
          · subst h2; cases hq : kw.get? "formatter" <;> simp [hq, BKey.conv]
          · cases hq : kw.get? n <;> simp [h1, h2, hq]
      refine ⟨_, rfl, hget, ?_, ?_⟩
      · rintro n ⟨a, ha⟩
        rw [hget] at ha
        simp only [optionsWithKey] at ha
        cases hg : kw.get? n with
        | some v => rw [hg] at ha; exact ⟨a, hg.trans ha⟩
        | none =>
          rw [hg] at ha
          simp only [Option.none_or] at ha
          split at ha
          · cases ha
          · split at ha
            · cases ha
            · cases ha
      · rw [hget]
        unfold optionsWithKey
        simp
  obtain ⟨kw', hk1, hk2, hk3, hk4⟩ := hk
  rw [hk1] at he
  simp only [Option.map_eq_some_iff] at he
  obtain ⟨r, e1, rfl⟩ := he
  have hns := hs.2 fac hf
  have hwk : withKeys key kw = kw := by
    cases key with
    | many ks =>
      cases ks with
      | nil => rfl
      | cons k ks => exact absurd rfl (hkey k ks)
    | _ => rfl
  rw [hwk] at hns
  obtain ⟨g1, g2, g3⟩ := buildPattern_options e1 hin (by
    intro o
    have := hns o
    exact ⟨fun hh => this.1 ⟨hk3 o hh.1, hh.2⟩, fun hh => this.2.1 ⟨hk3 o hh.1, hh.2⟩, this.2.2⟩) hs.1
  refine ⟨r.2, rfl, by omega, ?_⟩
  intro name
  have := g3 name
  simp only [hk2] at this
  have ho : Overridden kw' name ↔ Overridden kw name := by unfold Overridden; rw [hk4]
  rw [ho] at this
  exact this

/-! ## The defaults of a chain -/

theorem Spec.DeepCopy.ext {h g g' : DHeap} (hx : Ext g g') : ∀ {n : Nat} {a b : Addr}, DeepCopy h g n a b → DeepCopy h g' n a b
  | 0, _, _, hc => hc.elim
  | n + 1, a, b, hc => by
    obtain ⟨c1, c2, c3, c4⟩ := hc
    refine ⟨c1, Nat.lt_of_lt_of_le c2 hx.1, by rw [hx.at c2]; exact c3, fun name => ?_⟩
    rw [hx.at c2]
    have := c4 name
    cases hu : (h.at_ a).get? name with
    | none => rw [hu] at this; exact this
    | some v =>
      rw [hu] at this
      cases v with
      | ref x => obtain ⟨y, h1, h2⟩ := this; exact ⟨y, h1, DeepCopy.ext hx h2⟩
      | atom _ => exact this
      | list _ => exact this

theorem Spec.CopiedValue.imp {P Q : Addr → Addr → Prop} (hpq : ∀ x y, P x y → Q x y) {u v : Option HV} (h : CopiedValue P u v) : CopiedValue Q u v := by
  cases u with
  | none => exact h
  | some w =>
    cases w with
    | ref x => obtain ⟨y, h1, h2⟩ := h; exact ⟨y, h1, hpq x y h2⟩
    | atom _ => exact h
    | list _ => exact h

theorem deepCopyH_copy {h0 : DHeap} (hcl : Closed h0) (fuel : Nat) : ∀ (a : Addr) (h : DHeap) (r : DHeap × Addr), Ext h0 h → a < h0.length →
    deepCopyH fuel a h = some r → DeepCopy h0 r.1 fuel a r.2 := by
  induction fuel with
  | zero => intro a h r _ _ e; simp [deepCopyH] at e
  | succ fuel ih =>
    intro a h r hx ha e
    have hext := deepCopyH_ext _ _ _ _ e
    unfold deepCopyH at e
    cases hq : (h.at_ a).foldlM (deepCopyEntry (fun b h => deepCopyH fuel b h)) (h, []) with
    | none => rw [hq] at e; cases e
    | some q =>
      rw [hq] at e
      simp only [Option.some.injEq] at e
      have gen : ∀ (l : HDict) (s q : DHeap × HDict), Ext h0 s.1 → (∀ name b, (name, HV.ref b) ∈ l → b < h0.length) →
          l.foldlM (deepCopyEntry (fun b h => deepCopyH fuel b h)) s = some q →
          Ext s.1 q.1 ∧ ∃ l', q.2 = s.2 ++ l' ∧ ∀ name, CopiedValue (DeepCopy h0 q.1 fuel) (l.get? name) (Dict.get? l' name) := by
        intro l
        induction l with
        | nil =>
          intro s q _ _ hq
          simp only [List.foldlM_nil, pure, Option.some.injEq] at hq; subst hq
          exact ⟨.refl _, [], by simp, fun name => rfl⟩
        | cons kv l ihl =>
          intro s q hs hl hq
          simp only [List.foldlM_cons, bind, Option.bind_eq_some_iff] at hq
          obtain ⟨s', h1, h2⟩ := hq
          obtain ⟨k, v⟩ := kv
          have hstep : Ext s.1 s'.1 ∧ ∃ v', s'.2 = s.2 ++ [(k, v')] ∧ CopiedValue (DeepCopy h0 s'.1 fuel) (some v) (some v') := by
            unfold deepCopyEntry at h1
            cases v with
            | ref b =>
              simp only at h1
              cases hr : deepCopyH fuel b s.1 with
              | none => rw [hr] at h1; cases h1
              | some r1 =>
                rw [hr] at h1
                simp only [Option.some.injEq] at h1; subst h1
                exact ⟨(deepCopyH_ext _ _ _ _ hr).1, _, rfl, _, rfl, ih b s.1 r1 hs (hl k b (by simp)) hr⟩
            | atom v => simp only [Option.some.injEq] at h1; subst h1; exact ⟨.refl _, _, rfl, rfl⟩
            | list v => simp only [Option.some.injEq] at h1; subst h1; exact ⟨.refl _, _, rfl, rfl⟩
          obtain ⟨x1, v', e1, c1⟩ := hstep
          obtain ⟨x2, l', e2, c2⟩ := ihl s' q (hs.trans x1) (fun name b hb => hl name b (List.mem_cons_of_mem _ hb)) h2
          refine ⟨x1.trans x2, (k, v') :: l', by rw [e2, e1]; simp, fun name => ?_⟩
          simp only [Dict.get?]
          by_cases hkn : (k == name) = true
          · rw [if_pos hkn, if_pos hkn]
            exact Spec.CopiedValue.imp (fun x y => Spec.DeepCopy.ext x2) c1
          · rw [if_neg hkn, if_neg hkn]
            exact c2 name
      have hat := hx.at ha
      obtain ⟨x1, l', e1, c1⟩ := gen _ _ _ hx (by rw [hat]; exact fun name b hb => hcl a name b hb) hq
      subst e
      refine ⟨Nat.le_trans hx.1 hext.2.1, hext.2.2.1, by rw [hext.2.2.2, hat], fun name => ?_⟩
      have hq2 : ((q.1.alloc q.2).1).at_ (q.1.alloc q.2).2 = q.2 := by
        rw [DHeap.at_eq]; simp [DHeap.alloc]
      rw [hq2, e1, List.nil_append, ← hat]
      exact Spec.CopiedValue.imp (fun x y => Spec.DeepCopy.ext (Ext.alloc _ _)) (c1 name)

theorem inheritDefaults_copy {h0 : DHeap} (hcl : Closed h0) {fuel : Nat} {src : Factory} {h : DHeap} {r : DHeap × Factory} (hx : Ext h0 h)
    (hin : ∀ s, src.slot s < h0.length) (e : inheritDefaults fuel src h = some r) :
    r.2.keys = src.keys ∧ ∀ s, DeepCopy h0 r.1 fuel (src.slot s) (r.2.slot s) := by
  unfold inheritDefaults at e
  simp only [bind, Option.bind_eq_some_iff, pure, Option.some.injEq] at e
  obtain ⟨a1, e1, a2, e2, a3, e3, a4, e4, a5, e5, e⟩ := e
  have d1 := (deepCopyH_ext _ _ _ _ e1).1
  have d2 := (deepCopyH_ext _ _ _ _ e2).1
  have d3 := (deepCopyH_ext _ _ _ _ e3).1
  have d4 := (deepCopyH_ext _ _ _ _ e4).1
  have d5 := (deepCopyH_ext _ _ _ _ e5).1
  have x1 := hx.trans d1
  have x2 := x1.trans d2
  have x3 := x2.trans d3
  have x4 := x3.trans d4
  have c1 := deepCopyH_copy hcl fuel _ _ _ hx (hin .base) e1
  have c2 := deepCopyH_copy hcl fuel _ _ _ x1 (hin .regex) e2
  have c3 := deepCopyH_copy hcl fuel _ _ _ x2 (hin .functional) e3
  have c4 := deepCopyH_copy hcl fuel _ _ _ x3 (hin .string) e4
  have c5 := deepCopyH_copy hcl fuel _ _ _ x4 (hin .chain) e5
  subst e
  refine ⟨rfl, fun s => ?_⟩
  cases s with
  | base => exact c1.ext (((d2.trans d3).trans d4).trans d5)
  | regex => exact c2.ext ((d3.trans d4).trans d5)
  | functional => exact c3.ext (d4.trans d5)
  | string => exact c4.ext d5
  | chain => exact c5

/-- **C101**, `chain(**kw)`: the chain is built like any pattern, and the builder of its parts starts with deep copies of all the defaults
of the builder (no dict object of these copies existed before) and with its declared keys. Missing: a dict-valued option meeting a
dict-valued default. -/
theorem C101_chain_partial {expand : List Val → HV → HV} {fuel : Nat} {w w' : World} {f : Nat} {fac : Factory} {kw : HDict}
    (hw : ReachableB expand w) (hcl : Closed w.heap) (hs : NoShared w (.chain f kw)) (hf : w.factories[f]? = some fac)
    (he : stepB expand fuel w (.chain f kw) = some w') :
    (∃ p, w'.patterns = w.patterns ++ [p] ∧ w.heap.length ≤ p.kwargs ∧
      BuiltWith (fun n => kw.get? n) (w.heap.at_ fac.chain) (w.heap.at_ fac.base) (Overridden kw) (w'.heap.at_ p.kwargs)) ∧
    ∃ part, w'.factories = w.factories ++ [part] ∧ part.keys = fac.keys ∧
      ∀ s, ∃ n, DeepCopy w.heap w'.heap n (fac.slot s) (part.slot s) := by
  have i := InvB.reachable hw
  have hin := i.good f fac hf
  simp only [stepB, hf] at he
  cases eb : buildPattern expand fuel fac .chain [] kw w.heap with
  | none => rw [eb] at he; cases he
  | some q =>
    obtain ⟨h, p⟩ := q
    rw [eb] at he
    simp only [Option.map_eq_some_iff] at he
    obtain ⟨r, e1, rfl⟩ := he
    have x := buildPattern_ext eb hin (hs fac hf) (by simp)
    obtain ⟨b1, b2, b3⟩ := buildPattern_options eb hin (hs fac hf) (by simp)
    have hin' : ∀ s, fac.slot s < h.length ∧ Good (h.at_ (fac.slot s)) := fun s =>
      ⟨Nat.lt_of_lt_of_le (hin s).1 x.1, by rw [x.at (hin s).1]; exact (hin s).2⟩
    have y := (inheritDefaults_spec e1 hin').1
    obtain ⟨k1, k2⟩ := inheritDefaults_copy hcl x (fun s => (hin s).1) e1
    simp only at b1 b2 b3
    refine ⟨⟨p, rfl, by omega, ?_⟩, r.2, rfl, k1, fun s => ⟨fuel, k2 s⟩⟩
    show BuiltWith _ _ _ _ (r.1.at_ p.kwargs)
    rw [y.at b2]
    exact b3

/-- A builder with lists, a plain value and a nested dict in its defaults. -/
def optionsOps : List BOp :=
  [.dict [("x", .atom (.obj 1))], .builder,
   .defaults 0 .base [("tags", .list [.int 1]), ("formatter", .ref 0), ("private", .atom (.bool true))],
   .defaults 0 .string [("tags", .list [.int 2]), ("name", .atom (.int 7))]]

/-- `string(tags=[3], name=…, overrides=["name"])` and `chain(tags=[4])` on it meet the hypotheses, and their options are as expected. -/
example : ∃ w w1 w2, runB noExpand 9 World.init optionsOps = some w ∧
    stepB noExpand 9 w (.build 0 .string (.one ⟨"n", 5⟩) [] [("tags", .list [.int 3]), ("private", .atom (.bool false)),
      ("overrides", .list [.str "private".toList])]) = some w1 ∧
    (w1.patterns.map (fun p => ((w1.heap.at_ p.kwargs).get? "tags", (w1.heap.at_ p.kwargs).get? "private", (w1.heap.at_ p.kwargs).get? "name"))) =
      [(some (.list [.int 1, .int 2, .int 3]), some (.atom (.bool false)), some (.atom (.str ['n'])))] ∧
    stepB noExpand 9 w (.chain 0 [("tags", .list [.int 4])]) = some w2 ∧
    w2.factories.map (fun f => (w2.heap.at_ f.base).get? "formatter") = [some (.ref 0), some (.ref 10)] ∧
    w2.heap.at_ 10 = [("x", .atom (.obj 1))] := by
  refine ⟨_, _, _, rfl, rfl, ?_, rfl, ?_, ?_⟩ <;> decide +kernel

end Rebulk
