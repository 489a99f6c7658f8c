import Verif.Spec.KeyViews
import Verif.Lemmas.History
namespace Rebulk
open Spec Matches

section
variable {κ : Type} [DecidableEq κ]

/-- The keys are those of before, followed by new ones. -/
def Longer (d d' : Index κ) : Prop := d.keys <+: d'.keys ∧ (d.keys.Nodup → d'.keys.Nodup)

omit [DecidableEq κ] in
theorem Longer.refl (d : Index κ) : Longer d d := ⟨List.prefix_refl _, fun h => h⟩
omit [DecidableEq κ] in
theorem Longer.trans {a b c : Index κ} (h : Longer a b) (h' : Longer b c) : Longer a c := ⟨h.1.trans h'.1, fun n => h'.2 (h.2 n)⟩

theorem longer_set (d : Index κ) (k : κ) (v : List Match) : Longer d (d.set k v) := by
  unfold Longer
  rw [Dict.keys_set]
  split
  · exact ⟨List.prefix_refl _, fun h => h⟩
  · rename_i hk
    refine ⟨List.prefix_append _ _, fun h => ?_⟩
    rw [List.nodup_append]
    refine ⟨h, by simp, ?_⟩
    intro a ha b hb e
    rw [List.mem_singleton] at hb
    exact hk (hb ▸ e ▸ ha)

theorem longer_touch (d : Index κ) (k : κ) : Longer d (d.touch k) := by
  unfold Dict.touch
  split
  · exact .refl _
  · exact longer_set _ _ _

omit [DecidableEq κ] in
theorem longer_foldl {β : Type} (f : Index κ → β → Index κ) (h : ∀ d b, Longer d (f d b)) : ∀ (l : List β) (d : Index κ), Longer d (l.foldl f d)
  | [], d => .refl d
  | b :: l, d => (h d b).trans (longer_foldl f h l (f d b))

theorem longer_removeKeys (m : Match) : ∀ (ks : List κ) (d : Index κ), Longer d (removeKeys m ks d).1
  | [], d => .refl d
  | k :: ks, d => by
    unfold removeKeys
    cases removeFirst (fun x => x.eqv m) (d.getList k) with
    | some l => exact (longer_set d k l).trans (longer_removeKeys m ks _)
    | none => exact longer_touch d k

theorem nodup_buildGroups (key : Match → κ) (l : List Match) : (buildGroups key l).keys.Nodup :=
  (longer_foldl (fun (d : Index κ) (kv : κ × List Match) => d.extend kv.1 kv.2) (fun d kv => longer_set d kv.1 (d.getList kv.1 ++ kv.2)) (groupBy key l) []).2
    List.nodup_nil

theorem nodup_buildEach (keys : Match → List κ) (l : List Match) : (buildEach keys l).keys.Nodup :=
  (longer_foldl (fun (d : Index κ) (m : Match) => (keys m).foldl (fun d k => d.append k m) d)
    (fun d m => longer_foldl (fun (d : Index κ) (k : κ) => d.append k m) (fun d k => longer_set d k (d.getList k ++ [m])) (keys m) d) l []).2 List.nodup_nil

/-- A dictionary that is built stays so and its keys stay where they are; no key is there twice. -/
def LongerO (d d' : Option (Index κ)) : Prop :=
  (∀ e, d = some e → ∃ e', d' = some e' ∧ e.keys <+: e'.keys) ∧
  ((∀ e, d = some e → e.keys.Nodup) → ∀ e', d' = some e' → e'.keys.Nodup)

omit [DecidableEq κ] in
theorem LongerO.refl (d : Option (Index κ)) : LongerO d d := ⟨fun e h => ⟨e, h, List.prefix_refl _⟩, fun h => h⟩
omit [DecidableEq κ] in
theorem LongerO.trans {a b c : Option (Index κ)} (h : LongerO a b) (h' : LongerO b c) : LongerO a c :=
  ⟨fun e he => by
    obtain ⟨e1, h1, p1⟩ := h.1 e he
    obtain ⟨e2, h2, p2⟩ := h'.1 e1 h1
    exact ⟨e2, h2, p1.trans p2⟩, fun n => h'.2 (h.2 n)⟩

omit [DecidableEq κ] in
theorem longerO_map {f : Index κ → Index κ} (h : ∀ d, Longer d (f d)) (d : Option (Index κ)) : LongerO d (d.map f) := by
  cases d with
  | none => exact .refl _
  | some d =>
    refine ⟨fun e he => ?_, fun n e he => ?_⟩
    · cases he; exact ⟨_, rfl, (h d).1⟩
    · cases he; exact (h d).2 (n d rfl)

theorem longerO_addTo (d : Option (Index κ)) (ks : List κ) (m : Match) : LongerO d (addTo d ks m) :=
  longerO_map (fun d => longer_foldl (fun (d : Index κ) (k : κ) => d.append k m) (fun d k => longer_set d k (d.getList k ++ [m])) ks d) d

theorem longerO_removeFrom (d : Option (Index κ)) (ks : List κ) (m : Match) : LongerO d (removeFrom d ks m).1 := by
  cases d with
  | none => exact .refl _
  | some d =>
    have := longer_removeKeys m ks d
    refine ⟨fun e he => ?_, fun n e he => ?_⟩
    · cases he; exact ⟨_, rfl, this.1⟩
    · cases he; exact this.2 (n d rfl)

/-- Looking at a dictionary: it is built if it was not. -/
theorem longerO_look {d : Option (Index κ)} {b : Index κ} (hb : b.keys.Nodup) {e : Index κ} (he : Longer (d.getD b) e) : LongerO d (some e) := by
  cases d with
  | none => exact ⟨(fun e h => by cases h), (fun _ e' h => by cases h; exact he.2 hb)⟩
  | some d => exact ⟨(fun e0 h => by cases h; exact ⟨_, rfl, he.1⟩), (fun n e' h => by cases h; exact he.2 (n d rfl))⟩
end

/-- Both views. -/
def LongerNT (s s' : Matches) : Prop := LongerO s.nameD s'.nameD ∧ LongerO s.tagD s'.tagD

theorem LongerNT.refl (s : Matches) : LongerNT s s := ⟨.refl _, .refl _⟩
theorem LongerNT.trans {a b c : Matches} (h : LongerNT a b) (h' : LongerNT b c) : LongerNT a c := ⟨h.1.trans h'.1, h.2.trans h'.2⟩
theorem LongerNT.of_eq {s s' : Matches} (h1 : s'.nameD = s.nameD) (h2 : s'.tagD = s.tagD) : LongerNT s s' := by
  unfold LongerNT; rw [h1, h2]; exact ⟨.refl _, .refl _⟩

theorem longerNT_addMatch (s : Matches) (m : Match) : LongerNT s (s.addMatch m).1 := by
  unfold addMatch
  split
  · exact ⟨longerO_addTo _ _ _, longerO_addTo _ _ _⟩
  · exact .refl _

theorem longerNT_removeMatch (s : Matches) (m : Match) : LongerNT s (s.removeMatch m).1 := by
  obtain ⟨_, _, h3, h4⟩ := removeMatch_shape s m
  refine ⟨by rw [h3]; exact longerO_removeFrom _ _ _, ?_⟩
  rcases h4 with h4 | h4
  · rw [h4]; exact .refl _
  · rw [h4]; exact longerO_removeFrom _ _ _

theorem longerNT_addDelegate {s : Matches} (l : List Match) (m : Match) : LongerNT s (addMatch { s with delegate := l } m).1 :=
  LongerNT.trans (b := { s with delegate := l }) (.of_eq rfl rfl) (longerNT_addMatch _ m)

theorem longerNT_removeDelegate {s : Matches} (l : List Match) (m : Match) : LongerNT s (removeMatch { s with delegate := l } m).1 :=
  LongerNT.trans (b := { s with delegate := l }) (.of_eq rfl rfl) (longerNT_removeMatch _ m)

theorem longerNT_extend : ∀ (ms : List Match) (s : Matches), LongerNT s (s.extend ms).1
  | [], s => .refl s
  | m :: ms, s => by
    have h : LongerNT s (s.append m).1 := longerNT_addDelegate _ m
    rw [Matches.extend]
    cases hr : s.append m with
    | mk t o =>
      rw [hr] at h
      cases o with
      | none => exact h.trans (longerNT_extend ms t)
      | some e => exact h

theorem longerNT_addAll : ∀ (ms : List Match) (s : Matches), LongerNT s (s.addAll ms).1
  | [], s => .refl s
  | m :: ms, s => by
    have h : LongerNT s (s.addMatch m).1 := longerNT_addMatch _ m
    rw [Matches.addAll]
    cases hr : s.addMatch m with
    | mk t o =>
      rw [hr] at h
      cases o with
      | none => exact h.trans (longerNT_addAll ms t)
      | some e => exact h

theorem longerNT_removeAll : ∀ (ms : List Match) (s : Matches), LongerNT s (s.removeAll ms).1
  | [], s => .refl s
  | m :: ms, s => by
    have h : LongerNT s (s.removeMatch m).1 := longerNT_removeMatch _ m
    rw [Matches.removeAll]
    cases hr : s.removeMatch m with
    | mk t o =>
      rw [hr] at h
      cases o with
      | none => exact h.trans (longerNT_removeAll ms t)
      | some e => exact h

theorem longerNT_delItem (s : Matches) (i : Int) : LongerNT s (s.delItem i).1 := by
  unfold delItem
  cases normIdx s.delegate.length i with
  | none => exact .refl _
  | some k =>
    simp only
    cases s.delegate[k]? with
    | none => exact .refl _
    | some m => exact longerNT_removeDelegate _ m

theorem longerNT_pop (s : Matches) (i : Int) : LongerNT s (s.pop i).1 := by
  have h := longerNT_delItem s i
  unfold Matches.pop
  cases s.getItem i with
  | error e => exact .refl _
  | ok m =>
    simp only
    cases hr : s.delItem i with
    | mk t o => rw [hr] at h; cases o <;> exact h

theorem longerNT_remove (s : Matches) (m : Match) : LongerNT s (s.remove m).1 := by
  unfold Matches.remove
  cases s.delegate.findIdx? (fun x => x.eqv m) with
  | none => exact .refl _
  | some k => exact longerNT_delItem s k

theorem longerNT_clearLoop : ∀ (n : Nat) (s : Matches), LongerNT s (clearLoop n s).1
  | 0, s => .refl s
  | n + 1, s => by
    have h := longerNT_pop s (-1)
    unfold clearLoop
    cases hr : s.pop with
    | mk t o =>
      rw [hr] at h
      cases o with
      | ok m => exact h.trans (longerNT_clearLoop n t)
      | error e => cases e <;> exact h

theorem longerNT_setItem (s : Matches) (i : Int) (m : Match) : LongerNT s (s.setItem i m).1 := by
  unfold setItem
  cases normIdx s.delegate.length i with
  | none => exact .refl _
  | some k => exact longerNT_addDelegate _ m

theorem longerNT_swap (s : Matches) (i j : Int) : LongerNT s (s.swapItems i j).1 := by
  unfold swapItems
  cases s.getItem j with
  | error => exact .refl _
  | ok mj =>
    cases s.getItem i with
    | error => exact .refl _
    | ok mi =>
      simp only
      have h := longerNT_setItem s i mj
      cases hr : s.setItem i mj with
      | mk t o =>
        rw [hr] at h
        cases o with
        | none => exact h.trans (longerNT_setItem t j mi)
        | some e => exact h

theorem longerNT_reverseLoop (n : Nat) : ∀ (is : List Nat) (s : Matches), LongerNT s (reverseLoop n is s).1
  | [], s => .refl s
  | i :: is, s => by
    have h := longerNT_swap s (i : Int) ((n : Int) - i - 1)
    rw [reverseLoop]
    cases hr : s.swapItems (i : Int) ((n : Int) - i - 1) with
    | mk t o =>
      rw [hr] at h
      cases o with
      | none => exact h.trans (longerNT_reverseLoop n is t)
      | some e => exact h

theorem longerNT_lookName (s : Matches) (k : String) : LongerNT s (s.lookName k).1 :=
  ⟨longerO_look (nodup_buildGroups _ _) (longer_touch _ _), .refl _⟩

theorem longerNT_namedLoop : ∀ (ns : List String) (s : Matches) (acc : List Match), LongerNT s (namedLoop ns s acc).1
  | [], s, _ => .refl s
  | n :: ns, s, _ => (longerNT_lookName s n).trans (longerNT_namedLoop ns _ _)

theorem longerNT_names (s : Matches) : LongerNT s s.names.1 := ⟨longerO_look (nodup_buildGroups _ _) (.refl _), .refl _⟩
theorem longerNT_tags (s : Matches) : LongerNT s s.tags.1 := ⟨.refl _, longerO_look (nodup_buildEach _ _) (.refl _)⟩

theorem longerNT_step (s : Matches) (op : Op) : LongerNT s (s.step op).1 := by
  cases op with
  | append m => exact longerNT_addDelegate _ m
  | insert i m => exact longerNT_addDelegate _ m
  | extend ms => exact longerNT_extend ms s
  | remove m => exact longerNT_remove s m
  | pop i => exact longerNT_pop s i
  | delItem i => exact longerNT_delItem s i
  | clear => exact longerNT_clearLoop _ s
  | delSlice a b =>
    have h : ∀ l ms, LongerNT s (removeAll { s with delegate := l } ms).1 :=
      fun l ms => LongerNT.trans (b := { s with delegate := l }) (.of_eq rfl rfl) (longerNT_removeAll _ _)
    exact h _ _
  | setItem i m => exact longerNT_setItem s i m
  | reverse => exact longerNT_reverseLoop _ _ s
  | named ns => exact longerNT_namedLoop _ s []
  | tagged t => exact ⟨.refl _, longerO_look (nodup_buildEach _ _) (longer_touch _ _)⟩
  | names => exact longerNT_names s
  | tags => exact longerNT_tags s
  | starting i => exact .of_eq rfl rfl
  | ending i => exact .of_eq rfl rfl
  | atIndex i => exact .of_eq rfl rfl
  | previous m => have := keepsNT_step s (.previous m) rfl (fun h => h) (fun h => h); exact .of_eq this.2.1 this.2.2.1
  | next m => have := keepsNT_step s (.next m) rfl (fun h => h) (fun h => h); exact .of_eq this.2.1 this.2.2.1
  | conflicting m => have := keepsNT_step s (.conflicting m) rfl (fun h => h) (fun h => h); exact .of_eq this.2.1 this.2.2.1
  | atSpan a b => have := keepsNT_step s (.atSpan a b) rfl (fun h => h) (fun h => h); exact .of_eq this.2.1 this.2.2.1
  | chainBefore a b c d => have := keepsNT_step s (.chainBefore a b c d) rfl (fun h => h) (fun h => h); exact .of_eq this.2.1 this.2.2.1
  | chainAfter a b c d => have := keepsNT_step s (.chainAfter a b c d) rfl (fun h => h) (fun h => h); exact .of_eq this.2.1 this.2.2.1
  | holes a b c d => have := keepsNT_step s (.holes a b c d) rfl (fun h => h) (fun h => h); exact .of_eq this.2.1 this.2.2.1

theorem longerNT_sstep (s : Matches) (op : SOp) : LongerNT s (s.sstep op).1 := by
  cases op with
  | base op => exact longerNT_step s op
  | setSlice a b k rhs =>
    show LongerNT s (s.setSlice a b k rhs).1
    unfold setSlice
    cases listSetSlice s.delegate a b k (s.rhsFirst rhs) with
    | error e => exact .refl _
    | ok l => exact LongerNT.trans (b := { s with delegate := l }) (.of_eq rfl rfl) (longerNT_addAll _ _)
  | delSlice a b k =>
    show LongerNT s (s.delStep a b k).1
    unfold delStep
    cases listGetSlice s.delegate a b k with
    | error e => exact .refl _
    | ok r =>
      simp only
      cases listDelSlice s.delegate a b k with
      | error e => exact .refl _
      | ok l => exact LongerNT.trans (b := { s with delegate := l }) (.of_eq rfl rfl) (longerNT_removeAll _ _)
  | getSlice | getItem | len | iterate | reversed | contains | count | index => exact .refl _
  | extendSelf => exact longerNT_extend _ s

theorem longerNT_runS : ∀ (ops : List SOp) (s : Matches), LongerNT s (s.runS ops)
  | [], s => .refl s
  | op :: ops, s => (longerNT_sstep s op).trans (longerNT_runS ops _)

/-- By kind of view. -/
theorem LongerNT.view {s s' : Matches} (h : LongerNT s s') (kind : KeyKind) : LongerO (s.viewDict kind) (s'.viewDict kind) := by
  cases kind
  · exact h.1
  · exact h.2

theorem view_built (s : Matches) (kind : KeyKind) : ∃ d, (s.view kind).1.viewDict kind = some d ∧ (s.view kind).2 = d.keys := by
  cases kind
  · exact ⟨_, rfl, rfl⟩
  · exact ⟨_, rfl, rfl⟩

theorem view_of_built {s : Matches} {kind : KeyKind} {d : Index String} (h : s.viewDict kind = some d) : (s.view kind).2 = d.keys := by
  cases kind
  · have h : s.nameD = some d := h
    show s.nameDict.keys = _
    unfold nameDict; rw [h]; rfl
  · have h : s.tagD = some d := h
    show s.tagDict.keys = _
    unfold tagDict; rw [h]; rfl

theorem longerNT_view (s : Matches) (kind : KeyKind) : LongerNT s (s.view kind).1 := by
  cases kind
  · exact longerNT_names s
  · exact longerNT_tags s

theorem viewKeys_some {s : Matches} {kind : KeyKind} {d : Index String} (h : s.viewDict kind = some d) : s.viewKeys kind = d.keys := by
  unfold viewKeys; rw [h]; rfl

/-- No key twice, in both dictionaries. -/
def UniqueKeys (s : Matches) : Prop := ∀ kind d, s.viewDict kind = some d → d.keys.Nodup

theorem uniqueKeys_empty (b : Bool) (i : Option Str) : UniqueKeys (Matches.empty b i) := by
  intro kind d h; cases kind <;> cases h

theorem LongerNT.unique {s s' : Matches} (h : LongerNT s s') (hu : UniqueKeys s) : UniqueKeys s' :=
  fun kind d hd => (h.view kind).2 (fun e he => hu kind e he) d hd

end Rebulk
