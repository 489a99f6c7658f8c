import Verif.Lemmas.Queries
import Verif.Lemmas.Ordered
import Verif.Spec.Consequences
/-!
# Lemmas on the consequences
-/
namespace Rebulk
open Spec Matches

theorem has_iff (s : Matches) (m : Match) : s.has m = true ↔ Holds s.delegate m := by
  unfold Matches.has Holds; simp

theorem has_false_iff (s : Matches) (m : Match) : s.has m = false ↔ ¬ Holds s.delegate m := by
  rw [← has_iff]; simp

/-- The containers the consequences are given. -/
structure Clean (s : Matches) : Prop where
  inv : Inv s
  exact_ : Exact s
  noEqual : NoEqual s.delegate

/-! ## Removing -/

theorem removeFirst_holds {l : List Match} {m : Match} (h : Holds l m) :
    ∃ before x after, l = before ++ x :: after ∧ ¬ Holds before m ∧ x.eqv m = true ∧
      removeFirst (fun x => x.eqv m) l = some (before ++ after) := by
  induction l with
  | nil => obtain ⟨x, hx, _⟩ := h; cases hx
  | cons y l ih =>
    by_cases hy : y.eqv m = true
    · refine ⟨[], y, l, rfl, ?_, hy, ?_⟩
      · rintro ⟨x, hx, _⟩; cases hx
      · simp [removeFirst, hy]
    · have hl : Holds l m := by
        obtain ⟨x, hx, he⟩ := h
        rcases List.mem_cons.1 hx with rfl | hx
        · exact absurd he hy
        · exact ⟨x, hx, he⟩
      obtain ⟨b, x, a, h1, h2, h3, h4⟩ := ih hl
      refine ⟨y :: b, x, a, by rw [h1]; rfl, ?_, h3, ?_⟩
      · rintro ⟨z, hz, he⟩
        rcases List.mem_cons.1 hz with rfl | hz
        · exact hy he
        · exact h2 ⟨z, hz, he⟩
      · simp [removeFirst, hy, h4]

theorem remove_exact {s : Matches} (h : Clean s) (m : Match) (hh : Holds s.delegate m) : Exact (s.remove m).1 := by
  unfold Matches.remove
  split
  · exact h.exact_
  · exact exact_delItem h.inv h.exact_ h.noEqual _

theorem remove_step {s : Matches} (hi : Inv s) (m : Match) (hh : Holds s.delegate m) :
    (s.remove m).2 = none ∧ Inv (s.remove m).1 ∧ (s.remove m).1.isMarkers = s.isMarkers ∧
    ∃ before x after, s.delegate = before ++ x :: after ∧ ¬ Holds before m ∧ x.eqv m = true ∧
      (s.remove m).1.delegate = before ++ after := by
  obtain ⟨b, x, a, h1, h2, h3, h4⟩ := removeFirst_holds hh
  obtain ⟨q1, q2, q3, q4⟩ := inv_remove_op hi m h4
  exact ⟨q1, q2, q4, b, x, a, h1, h2, h3, q3⟩

theorem noEqual_remove {b a : List Match} {x : Match} (h : NoEqual (b ++ x :: a)) : NoEqual (b ++ a) :=
  List.Pairwise.sublist (List.Sublist.append (List.Sublist.refl _) (List.sublist_cons_self _ _)) h

theorem clean_remove {s : Matches} (h : Clean s) (m : Match) (hh : Holds s.delegate m) : Clean (s.remove m).1 := by
  obtain ⟨_, h2, _, b, x, a, h4, _, _, h7⟩ := remove_step h.inv m hh
  refine ⟨h2, remove_exact h m hh, ?_⟩
  rw [h7]
  have := h.noEqual
  rw [h4] at this
  exact noEqual_remove this

theorem removeEach_spec : ∀ (ms : List Match) {s : Matches}, Inv s →
    ∃ ret, (removeEach ms s).2 = .ok ret ∧ Inv (removeEach ms s).1 ∧ (removeEach ms s).1.isMarkers = s.isMarkers ∧
      Removes s.delegate ms (removeEach ms s).1.delegate ret ∧ (Clean s → Clean (removeEach ms s).1)
  | [], s, hi => ⟨[], rfl, hi, rfl, .done _, id⟩
  | m :: ms, s, hi => by
    unfold removeEach
    by_cases hh : s.has m = true
    · rw [if_pos hh]
      have hh' := (has_iff s m).1 hh
      obtain ⟨h1, h2, h3, b, x, a, h4, h5, h6, h7⟩ := remove_step hi m hh'
      have hcl := clean_remove (s := s) (m := m)
      cases hr : s.remove m with
      | mk s1 e =>
        rw [hr] at h1 h2 h3 h7 hcl
        simp only at h1; subst h1
        simp only
        obtain ⟨ret, r1, r2, r3, r4, r5⟩ := removeEach_spec ms h2
        cases hr2 : removeEach ms s1 with
        | mk s2 e2 =>
          rw [hr2] at r1 r2 r3 r4 r5
          simp only at r1; subst r1
          refine ⟨m :: ret, rfl, r2, r3.trans h3, ?_, fun hc => r5 (hcl hc hh')⟩
          simp only at h7
          rw [h7] at r4
          rw [h4]
          exact .present h5 h6 r4
    · rw [if_neg hh]
      obtain ⟨ret, r1, r2, r3, r4, r5⟩ := removeEach_spec ms hi
      exact ⟨ret, r1, r2, r3, .absent (fun h => hh ((has_iff s m).2 h)) r4, r5⟩

theorem exact_removeEach : ∀ (ms : List Match) {s : Matches}, Inv s → Exact s → Exact (removeEach ms s).1
  | [], _, _, he => he
  | m :: ms, s, hi, he => by
    unfold removeEach
    by_cases hh : s.has m = true
    · rw [if_pos hh]
      obtain ⟨_, h2, _⟩ := remove_step hi m ((has_iff s m).1 hh)
      have h3 := exact_remove hi he m
      cases hr : s.remove m with
      | mk s1 e =>
        rw [hr] at h2 h3
        cases e with
        | some e => exact h3
        | none =>
          have := exact_removeEach ms h2 h3
          simp only
          cases hr2 : removeEach ms s1 with
          | mk s2 e2 => rw [hr2] at this; cases e2 <;> exact this
    · rw [if_neg hh]; exact exact_removeEach ms hi he

/-- Lookups are right when the indexes are. -/
theorem exact_lookups {s : Matches} (he : Exact s) : LookupsRight s := by
  refine ⟨?_, ?_, ?_, ?_, ?_⟩
  · intro n hn
    show Out.list (s.named [n]).2 = _
    rw [(named_spec s [n]).2]
    simp only [fromKeys, List.foldl_cons, List.foldl_nil, List.contains_nil, Bool.false_eq_true, if_false,
      List.nil_append, List.flatMap_cons, List.flatMap_nil, List.append_nil]
    rw [he.viewName, filed_name _ hn]
  · intro t; exact congrArg Out.list (he.viewTag t)
  · intro i; exact congrArg Out.list ((he.viewStart i).trans (filed_start _ _))
  · intro i; exact congrArg Out.list ((he.viewEnd i).trans (filed_end _ _))
  · intro i; exact congrArg Out.list ((he.viewIndex i).trans (filed_index _ _))

/-- A container built by value: its indexes are right. -/
structure Tidy (s : Matches) : Prop where
  inv : Inv s
  exact_ : Exact s

theorem Clean.tidy {s : Matches} (h : Clean s) : Tidy s := ⟨h.inv, h.exact_⟩

theorem Tidy.sim {s s' : Matches} (h : Tidy s) (hs : Sim s s') : Tidy s' := ⟨h.inv.sim hs, h.exact_.sim hs⟩

theorem tidy_byValue {b : Bool} {input : Option Str} {s : Matches} (h : ReachableByValue b input s) : Tidy s ∧ s.isMarkers = b := by
  obtain ⟨ops, h1, rfl⟩ := h
  obtain ⟨h2, h3, h4⟩ := exact_byValue_run (inv_empty b input) (exact_empty b input) ops h1
  exact ⟨⟨h2, h3⟩, h4⟩

/-! ### Consequences of `Removes` -/

theorem removes_sublist {l ms l' ret : List Match} (h : Removes l ms l' ret) : l'.Sublist l ∧ ret.Sublist ms := by
  induction h with
  | done l => exact ⟨List.Sublist.refl _, List.Sublist.refl _⟩
  | absent _ _ ih => exact ⟨ih.1, ih.2.cons _⟩
  | present _ _ _ ih =>
    exact ⟨ih.1.trans (List.Sublist.append (List.Sublist.refl _) (List.sublist_cons_self _ _)), ih.2.cons_cons _⟩

theorem holds_congr {l : List Match} {a b : Match} (h : a.eqv b = true) : Holds l a ↔ Holds l b := by
  constructor
  · rintro ⟨x, hx, he⟩; exact ⟨x, hx, Match.eqv_trans he h⟩
  · rintro ⟨x, hx, he⟩; exact ⟨x, hx, Match.eqv_trans he (Match.eqv_symm h)⟩

theorem without_cons (l ms : List Match) (m : Match) : without l (m :: ms) = without (l.filter (fun x => !x.eqv m)) ms := by
  unfold without
  rw [List.filter_filter]
  congr 1
  funext x
  simp only [List.any_cons, Bool.not_or]
  cases x.eqv m <;> simp

theorem filter_eqv_split {b a : List Match} {x m : Match} (hno : NoEqual (b ++ x :: a)) (hb : ¬ Holds b m) (hx : x.eqv m = true) :
    (b ++ x :: a).filter (fun y => !y.eqv m) = b ++ a := by
  have hb' : ∀ y ∈ b, y.eqv m = false := by
    intro y hy
    cases h : y.eqv m with
    | false => rfl
    | true => exact absurd ⟨y, hy, h⟩ hb
  have ha : ∀ y ∈ a, y.eqv m = false := by
    intro y hy
    have hxy : x.eqv y = false := (List.pairwise_cons.1 (List.pairwise_append.1 hno).2.1).1 y hy
    cases h : y.eqv m with
    | false => rfl
    | true =>
      have := Match.eqv_trans hx (Match.eqv_symm h)
      rw [hxy] at this; cases this
  rw [List.filter_append, List.filter_cons_of_neg (by simp [hx])]
  rw [List.filter_eq_self.2 (fun y hy => by simp [hb' y hy]), List.filter_eq_self.2 (fun y hy => by simp [ha y hy])]

/-- When the list has no two equal matches, removing is filtering. -/
theorem removes_without {l ms l' ret : List Match} (h : Removes l ms l' ret) (hno : NoEqual l) : l' = without l ms := by
  induction h with
  | done l => unfold without; exact (List.filter_eq_self.2 (by simp)).symm
  | @absent l ms l' ret m hh _ ih =>
    rw [ih hno, without_cons]
    congr 1
    refine (List.filter_eq_self.2 (fun x hx => ?_)).symm
    cases he : x.eqv m with
    | false => rfl
    | true => exact absurd ⟨x, hx, he⟩ hh
  | @present before x after ms l' ret m hb hx _ ih =>
    rw [ih (noEqual_remove hno), without_cons, filter_eqv_split hno hb hx]

theorem mem_without {l ms : List Match} {x : Match} : x ∈ without l ms ↔ x ∈ l ∧ ∀ m ∈ ms, x.eqv m = false := by
  unfold without
  simp

/-- The returned matches were contained, and are pairwise different. -/
theorem removes_ret {l ms l' ret : List Match} (h : Removes l ms l' ret) (hno : NoEqual l) : (∀ m ∈ ret, Holds l m) ∧ NoEqual ret := by
  induction h with
  | done l => exact ⟨by simp, List.Pairwise.nil⟩
  | absent _ _ ih => exact ih hno
  | @present before x after ms l' ret m hb hx _ ih =>
    obtain ⟨h1, h2⟩ := ih (noEqual_remove hno)
    refine ⟨?_, List.pairwise_cons.2 ⟨?_, h2⟩⟩
    · intro y hy
      rcases List.mem_cons.1 hy with rfl | hy
      · exact ⟨x, by simp, hx⟩
      · obtain ⟨z, hz, he⟩ := h1 y hy
        refine ⟨z, ?_, he⟩
        rcases List.mem_append.1 hz with hz | hz
        · exact List.mem_append_left _ hz
        · exact List.mem_append_right _ (List.mem_cons_of_mem _ hz)
    · intro y hy
      cases he : m.eqv y with
      | false => rfl
      | true =>
        exfalso
        obtain ⟨z, hz, hze⟩ := h1 y hy
        have hzm : z.eqv m = true := Match.eqv_trans hze (Match.eqv_symm he)
        rw [← filter_eqv_split hno hb hx] at hz
        have := (List.mem_filter.1 hz).2
        rw [hzm] at this; cases this

/-! ## Changing objects in place -/

theorem changeIndex_getList {κ : Type} [DecidableEq κ] (g : Match → Match) (d : Index κ) (k : κ) :
    (changeIndex g d).getList k = (d.getList k).map g := by
  unfold changeIndex Dict.getList
  induction d with
  | nil => rfl
  | cons kv d ih =>
    obtain ⟨k0, v⟩ := kv
    rw [List.map_cons]
    conv => lhs; unfold Dict.get?
    conv => rhs; unfold Dict.get?
    by_cases h : (k0 == k) = true
    · simp [h]
    · simp only [h]
      exact ih

theorem change_dict {κ : Type} [DecidableEq κ] {keysOf : Match → List κ} {b : List Match → Index κ}
    {d : Option (Index κ)} {l : List Match} (hd : LitO keysOf d l) (g : Match → Match) (hg : ∀ x ∈ l, g x = x) (k : κ) :
    ((d.map (changeIndex g)).getD (b (l.map g))).getList k = (d.getD (b l)).getList k := by
  have hl : l.map g = l := by
    conv => rhs; rw [← List.map_id l]
    exact List.map_congr_left hg
  cases d with
  | none => simp [hl]
  | some d =>
    simp only [Option.map_some, Option.getD_some]
    rw [changeIndex_getList, hd d rfl k]
    conv => rhs; rw [← List.map_id (filed keysOf l k)]
    exact List.map_congr_left (fun x hx => hg x (filed_subset _ _ _ hx))

/-- Changing objects that are not in the container changes nothing. -/
theorem change_sim {s : Matches} (he : Exact s) (p : Match → Bool) (f : Match → Match) (h : ∀ x ∈ s.delegate, p x = false) :
    Sim s (s.change p f) := by
  have hg : ∀ x ∈ s.delegate, Match.changeIf p f x = x := fun x hx => by unfold Match.changeIf; rw [h x hx]; simp
  have hl : s.delegate.map (Match.changeIf p f) = s.delegate := by
    conv => rhs; rw [← List.map_id s.delegate]
    exact List.map_congr_left hg
  exact ⟨rfl, rfl, rfl, hl, change_dict (b := buildName) he.name _ hg, change_dict (b := buildTag) he.tag _ hg,
    change_dict (b := buildStart) he.start _ hg, change_dict (b := buildEnd) he.stop _ hg, change_dict (b := buildIndex) he.index _ hg⟩

theorem Clean.sim {s s' : Matches} (h : Clean s) (hs : Sim s s') : Clean s' :=
  ⟨h.inv.sim hs, h.exact_.sim hs, by rw [hs.delegate]; exact h.noEqual⟩

/-! ## Appending -/

theorem appendEach_spec : ∀ (ms : List Match) (done : List Nat) {s : Matches}, Inv s → (∀ m ∈ ms, m.marker = s.isMarkers) →
    ∃ ret, (appendEach none done ms s).2 = .ok ret ∧ Inv (appendEach none done ms s).1 ∧
      (appendEach none done ms s).1.isMarkers = s.isMarkers ∧
      Appends id s.delegate ms (appendEach none done ms s).1.delegate ret ∧ (Exact s → Exact (appendEach none done ms s).1)
  | [], _, s, hi, _ => ⟨[], rfl, hi, rfl, .done _, id⟩
  | m :: ms, done, s, hi, hm => by
    unfold appendEach
    have hnow : m.changeIf (fun x => done.contains x.id) (namedObject none) = m := by
      unfold Match.changeIf namedObject; simp
    simp only [hnow, nameObject, namedObject]
    by_cases hh : s.has m = true
    · rw [if_pos hh]
      obtain ⟨ret, r1, r2, r3, r4, r5⟩ := appendEach_spec ms done hi (fun x hx => hm x (List.mem_cons_of_mem _ hx))
      exact ⟨ret, r1, r2, r3, .present ((has_iff s m).1 hh) r4, r5⟩
    · rw [if_neg hh]
      obtain ⟨h1, h2, h3⟩ := inv_append hi m (hm m List.mem_cons_self)
      have h4 := append_static s m
      have h5 := fun he : Exact s => exact_append he m (hm m List.mem_cons_self)
      cases ha : s.append m with
      | mk s1 e =>
        rw [ha] at h1 h2 h3 h4 h5
        simp only at h1; subst h1
        simp only
        obtain ⟨ret, r1, r2, r3, r4, r5⟩ := appendEach_spec ms (m.id :: done) h2
          (fun x hx => by rw [h4.1]; exact hm x (List.mem_cons_of_mem _ hx))
        cases hr2 : appendEach none (m.id :: done) ms s1 with
        | mk s2 e2 =>
          rw [hr2] at r1 r2 r3 r4 r5
          simp only at r1; subst r1
          refine ⟨m :: ret, rfl, r2, r3.trans h4.1, ?_, fun he => r5 (h5 he)⟩
          simp only at h3
          rw [h3] at r4
          exact .absent (fun h => hh ((has_iff s m).2 h)) r4

theorem appends_noEqual {l ms l' ret : List Match} (h : Appends id l ms l' ret) (hno : NoEqual l) : NoEqual l' := by
  induction h with
  | done l => exact hno
  | present _ _ ih => exact ih hno
  | @absent l ms l' ret m hh _ ih =>
    apply ih
    unfold NoEqual
    rw [List.pairwise_append]
    refine ⟨hno, List.pairwise_singleton _ _, ?_⟩
    intro x hx y hy
    rw [List.mem_singleton] at hy
    rw [hy]
    cases he : x.eqv (id m) with
    | false => rfl
    | true => exact absurd ⟨x, hx, he⟩ hh

theorem appends_shape {f : Match → Match} {l ms l' ret : List Match} (h : Appends f l ms l' ret) :
    l' = l ++ ret ∧ ret.Sublist (ms.map f) := by
  induction h with
  | done l => exact ⟨by simp, List.Sublist.refl _⟩
  | present _ _ ih => exact ⟨ih.1, ih.2.cons _⟩
  | absent _ _ ih => exact ⟨by rw [ih.1]; simp, ih.2.cons_cons _⟩

/-- Matches that equal nothing are all appended. -/
theorem appends_all {ms : List Match} : ∀ {l l' ret : List Match}, Appends id l ms l' ret → (∀ m ∈ ms, ¬ Holds l m) → NoEqual ms →
    l' = l ++ ms ∧ ret = ms := by
  intro l l' ret h
  induction h with
  | done l => intro _ _; simp
  | present hh _ _ => intro hn; exact absurd hh (hn _ (by simp))
  | @absent l ms l' ret m hh _ ih =>
    intro hn hno
    obtain ⟨h1, h2⟩ := List.pairwise_cons.1 hno
    obtain ⟨r1, r2⟩ := ih (fun y hy => by
      rintro ⟨x, hx, he⟩
      rcases List.mem_append.1 hx with hx | hx
      · exact hn y (by simp [hy]) ⟨x, hx, he⟩
      · rw [List.mem_singleton] at hx
        have := h1 y hy
        rw [hx, show id m = m from rfl, this] at he
        cases he) h2
    exact ⟨by rw [r1]; simp, by rw [r2]; rfl⟩


theorem repeat_comm {α : Type} (f : α → α) : ∀ (n : Nat) (a : α), Nat.repeat f n (f a) = Nat.repeat f (n + 1) a
  | 0, _ => rfl
  | n + 1, a => by
    show f (Nat.repeat f n (f a)) = f (Nat.repeat f (n + 1) a)
    rw [repeat_comm f n a]

end Rebulk
