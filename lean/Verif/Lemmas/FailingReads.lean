import Verif.Lemmas.Project
import Verif.Spec.FailingReads
/-!
# Reading results when a formatter raises: lemmas
-/
namespace Rebulk
open Spec Matches

theorem valuesF_eq (broken : Match → Option Nat) : ∀ (l : List Match), valuesF broken l = readsOr broken l (.ok (l.map Match.value))
  | [] => rfl
  | m :: ms => by
    unfold valuesF valueF
    rw [valuesF_eq broken ms]
    simp only [readsOr, List.findSome?_cons, List.map_cons]
    cases broken m with
    | some n => rfl
    | none =>
      simp only
      cases ms.findSome? broken <;> rfl

theorem readable_find {broken : Match → Option Nat} {l : List Match} : l.findSome? broken = none ↔ Readable broken l := by
  rw [List.findSome?_eq_none_iff]; rfl

theorem readsOr_readable {α : Type} {broken : Match → Option Nat} {l : List Match} (h : Readable broken l) (r : Except PyErr α) :
    readsOr broken l r = r := by
  unfold readsOr; rw [readable_find.2 h]

/-! ## `to_dict()` without details -/

theorem elemF_plain (broken : Match → Option Nat) (h : ListHeap) (x : DV) (hx : ∀ m, x ≠ .mtch m) : ∀ (l : List DV),
    DV.elemF broken h x l = .ok (DV.elem h x l)
  | [] => rfl
  | y :: l => by
    have : DV.sameF broken h y x = .ok (DV.eqIn h y x) := by
      cases y with
      | mtch a => cases x with
        | mtch b => exact absurd rfl (hx b)
        | val v => rfl
        | ref v => rfl
      | val v => rfl
      | ref v => rfl
    unfold DV.elemF
    rw [this, elemF_plain broken h x hx l]
    unfold DV.elem
    rw [List.any_cons]
    cases DV.eqIn h y x <;> rfl

theorem eqF_plain (broken : Match → Option Nat) (h : ListHeap) (x y : DV) (hx : ∀ m, x ≠ .mtch m) :
    DV.eqF broken h y x = .ok (DV.eqIn h y x) := by
  cases y with
  | mtch a => cases x with
    | mtch b => exact absurd rfl (hx b)
    | val v => rfl
    | ref v => rfl
  | val v => rfl
  | ref v => rfl

/-- The comparisons do not raise: a step that raises nothing is an ordinary step. -/
theorem addValuesListF_ok (broken : Match → Option Nat) (el : Bool) (s : MDict) (n : Option String) (d : DV)
    (h : el = false → DV.elemF broken s.heap d (s.valuesList.getList n) = .ok (DV.elem s.heap d (s.valuesList.getList n))) :
    addValuesListF broken el s n d = .ok (addValuesList el s n d) := by
  unfold addValuesListF addValuesList
  cases el with
  | true => rfl
  | false =>
    simp only [Bool.false_eq_true, if_false, Dict.getList_touch, h rfl]
    cases DV.elem s.heap d (s.valuesList.getList n) <;> rfl

theorem addEntryF_ok (broken : Match → Option Nat) (fv el : Bool) (s : MDict) (n : Option String) (d : DV)
    (h1 : fv = false → ∀ x, s.ret.get? n = some (.one x) → DV.eqF broken s.heap x d = .ok (DV.eqIn s.heap x d))
    (h2 : fv = false → ∀ l, s.ret.get? n = some (.own l) → DV.elemF broken s.heap d l = .ok (DV.elem s.heap d l))
    (h3 : fv = false → ∀ a, s.ret.get? n = some (.alias a) →
      DV.elemF broken s.heap d ((s.heap a).map .val) = .ok (DV.elem s.heap d ((s.heap a).map .val))) :
    addEntryF broken fv el s n d = .ok (addEntry fv el s n d) := by
  unfold addEntryF addEntry
  cases hg : s.ret.get? n with
  | none => rfl
  | some e =>
    cases fv with
    | true => rfl
    | false =>
      simp only [Bool.false_eq_true, if_false]
      cases e with
      | one x => simp only [h1 rfl x hg]; cases DV.eqIn s.heap x d <;> rfl
      | own l => simp only [h2 rfl l hg]; cases DV.elem s.heap d l <;> rfl
      | «alias» a => simp only [h3 rfl a hg]; cases DV.elem s.heap d ((s.heap a).map .val) <;> rfl

theorem toDictStepF_plain (broken addr : Match → Option Nat) (fv el : Bool) (s : MDict) (m : Match) (hb : broken m = none) :
    toDictStepF broken addr false fv el s m = .ok (toDictStep addr false fv el s m) := by
  have hx : ∀ m', m.valueIn s.heap addr ≠ .mtch m' := by
    intro m' hc
    unfold Match.valueIn at hc
    cases ha : addr m with
    | none => rw [ha] at hc; cases hc
    | some a =>
      rw [ha] at hc
      simp only at hc
      cases he : (!(s.heap a).isEmpty) <;> rw [he] at hc <;> cases hc
  unfold toDictStepF toDictStep shownF
  simp only [Bool.false_eq_true, if_false, hb]
  rw [addValuesListF_ok broken el _ m.name _ (fun _ => elemF_plain broken _ _ hx _)]
  exact addEntryF_ok broken fv el _ m.name _ (fun _ x _ => eqF_plain broken _ _ _ hx)
    (fun _ l _ => elemF_plain broken _ _ hx _) (fun _ a _ => elemF_plain broken _ _ hx _)

theorem toDictLoopF_plain (broken addr : Match → Option Nat) (fv el : Bool) : ∀ (l : List Match) (s : MDict),
    toDictLoopF broken addr false fv el l s = readsOr broken l (.ok (l.foldl (toDictStep addr false fv el) s))
  | [], _ => rfl
  | m :: ms, s => by
    unfold toDictLoopF readsOr
    rw [List.findSome?_cons]
    cases hb : broken m with
    | some n => simp [toDictStepF, shownF, hb]
    | none =>
      rw [toDictStepF_plain broken addr fv el s m hb]
      exact toDictLoopF_plain broken addr fv el ms _

/-! ## `to_dict(details=True)` -/

/-- `m` has the name and the span of another match of `p`, and one of the two cannot be read. -/
def ClashWith (broken : Match → Option Nat) (p : List Match) (m : Match) : Prop :=
  ∃ x ∈ p, x.name = m.name ∧ x.span = m.span ∧ (broken x ≠ none ∨ broken m ≠ none)

theorem elemF_details_ok (broken : Match → Option Nat) (h : ListHeap) (m : Match) : ∀ (l : List DV),
    (∀ d ∈ l, ∃ x, d = .mtch x ∧ x.id ≠ m.id ∧ (x.span = m.span → broken x = none ∧ broken m = none)) →
    DV.elemF broken h (.mtch m) l = .ok (DV.elem h (.mtch m) l)
  | [], _ => rfl
  | d :: l, hl => by
    obtain ⟨x, rfl, hid, hs⟩ := hl d List.mem_cons_self
    have : DV.sameF broken h (.mtch x) (.mtch m) = .ok (DV.eqIn h (.mtch x) (.mtch m)) := by
      show eqvF broken m x = .ok (x.eqv m)
      unfold eqvF
      rw [if_neg (by simpa using hid)]
      by_cases hsp : x.span = m.span
      · obtain ⟨h1, h2⟩ := hs hsp
        rw [if_pos (by simpa using hsp), h1, h2]
      · rw [if_neg (by simpa using hsp)]
        have : x.eqv m = false := by
          cases he : x.eqv m with
          | false => rfl
          | true =>
            exfalso; apply hsp
            unfold Match.eqv at he
            simp only [Bool.and_eq_true] at he
            simp_all
        rw [this]
    unfold DV.elemF
    rw [this, elemF_details_ok broken h m l (fun d hd => hl d (List.mem_cons_of_mem _ hd))]
    unfold DV.elem
    rw [List.any_cons]
    cases DV.eqIn h (.mtch x) (.mtch m) <;> rfl

theorem elemF_details_raise (broken : Match → Option Nat) (h : ListHeap) (m : Match) : ∀ (l : List DV),
    (∀ d ∈ l, ∃ x, d = .mtch x ∧ x.id ≠ m.id ∧ (x.span = m.span → broken x ≠ none ∨ broken m ≠ none)) →
    (∃ x, DV.mtch x ∈ l ∧ x.span = m.span) →
    ∃ n y, (DV.mtch y ∈ l ∨ y = m) ∧ broken y = some n ∧ DV.elemF broken h (.mtch m) l = .error (.user n)
  | [], _, ⟨_, hx, _⟩ => by cases hx
  | d :: l, hl, hex => by
    obtain ⟨x, rfl, hid, hs⟩ := hl d List.mem_cons_self
    by_cases hsp : x.span = m.span
    · have hbr := hs hsp
      cases hx : broken x with
      | some n =>
        refine ⟨n, x, Or.inl List.mem_cons_self, hx, ?_⟩
        have : DV.sameF broken h (.mtch x) (.mtch m) = .error (.user n) := by
          show eqvF broken m x = _
          unfold eqvF
          rw [if_neg (by simpa using hid), if_pos (by simpa using hsp), hx]
        unfold DV.elemF; rw [this]
      | none =>
        cases hm : broken m with
        | none => rw [hx, hm] at hbr; simp at hbr
        | some n =>
          refine ⟨n, m, Or.inr rfl, hm, ?_⟩
          have : DV.sameF broken h (.mtch x) (.mtch m) = .error (.user n) := by
            show eqvF broken m x = _
            unfold eqvF
            rw [if_neg (by simpa using hid), if_pos (by simpa using hsp), hx, hm]
          unfold DV.elemF; rw [this]
    · have : DV.sameF broken h (.mtch x) (.mtch m) = .ok false := by
        show eqvF broken m x = _
        unfold eqvF
        rw [if_neg (by simpa using hid), if_neg (by simpa using hsp)]
      obtain ⟨n, y, hy, hb, he⟩ := elemF_details_raise broken h m l (fun d hd => hl d (List.mem_cons_of_mem _ hd)) (by
        obtain ⟨z, hz, hzs⟩ := hex
        rcases List.mem_cons.1 hz with hz | hz
        · cases hz; exact absurd hzs hsp
        · exact ⟨z, hz, hzs⟩)
      refine ⟨n, y, hy.imp (List.mem_cons_of_mem _) id, hb, ?_⟩
      unfold DV.elemF; rw [this]; exact he

theorem eqF_details_ok (broken : Match → Option Nat) (h : ListHeap) (m x : Match)
    (hs : x.span = m.span → broken x = none ∧ broken m = none) :
    DV.eqF broken h (.mtch x) (.mtch m) = .ok (DV.eqIn h (.mtch x) (.mtch m)) := by
  show matchEqF broken m x = .ok (x.eqv m)
  unfold matchEqF
  by_cases hsp : x.span = m.span
  · obtain ⟨h1, h2⟩ := hs hsp
    rw [if_pos (by simpa using hsp), h1, h2]
  · rw [if_neg (by simpa using hsp)]
    have : x.eqv m = false := by
      cases he : x.eqv m with
      | false => rfl
      | true =>
        exfalso; apply hsp
        unfold Match.eqv at he
        simp only [Bool.and_eq_true] at he
        simp_all
    rw [this]

theorem expectedEntry_not_alias (fv el : Bool) (ds : List DV) (a : Nat) : expectedEntry fv el ds ≠ some (.alias a) := by
  unfold expectedEntry
  cases ds with
  | nil => simp
  | cons d r => cases fv <;> cases el <;> simp <;> split <;> simp

theorem expectedEntry_one {fv el : Bool} {ds : List DV} {x : DV} (h : expectedEntry fv el ds = some (.one x)) : x ∈ ds := by
  unfold expectedEntry at h
  cases ds with
  | nil => simp at h
  | cons d r =>
    cases fv <;> cases el <;> simp at h
    · by_cases hr : r = []
      · rw [if_pos hr] at h; cases h; exact List.mem_cons_self
      · rw [if_neg hr] at h; cases h
    · simp [h]

theorem expectedEntry_own {el : Bool} {ds : List DV} {l : List DV} (h : expectedEntry false el ds = some (.own l)) : l = ds := by
  unfold expectedEntry at h
  cases ds with
  | nil => simp at h
  | cons d r =>
    cases el <;> simp at h
    · by_cases hr : r = []
      · rw [if_pos hr] at h; cases h
      · rw [if_neg hr] at h; cases h; rfl
    · exact h.symm

theorem toDictStepF_details_ok {broken addr : Match → Option Nat} {h : ListHeap} {fv el : Bool} {p : List Match} {s : MDict} {m : Match}
    (hi : DictInv h true fv el p s) (hid : ∀ x ∈ p, x.id ≠ m.id) (hc : ¬ ClashWith broken p m) :
    toDictStepF broken addr true fv el s m = .ok (toDictStep addr true fv el s m) := by
  have hmem : ∀ d ∈ shownFor true p m.name, ∃ x, d = .mtch x ∧ x.id ≠ m.id ∧ (x.span = m.span → broken x = none ∧ broken m = none) := by
    intro d hd
    obtain ⟨x, hx, hn, rfl⟩ := shownFor_form true p m.name d hd
    refine ⟨x, rfl, hid x hx, fun hsp => ?_⟩
    constructor <;> (apply Classical.byContradiction; intro hb; apply hc)
    · exact ⟨x, hx, hn, hsp, Or.inl hb⟩
    · exact ⟨x, hx, hn, hsp, Or.inr hb⟩
  unfold toDictStepF toDictStep shownF
  simp only [if_true]
  rw [addValuesListF_ok broken el _ m.name _ (fun he => ?_)]
  · have hret : ∀ (s' : MDict), (addValuesList el s' m.name (.mtch m)).ret = s'.ret := by
      intro s'; unfold addValuesList; cases el <;> simp <;> split <;> rfl
    refine addEntryF_ok broken fv el _ m.name _ (fun hf x hx => ?_) (fun hf l hl => ?_) (fun hf a ha => ?_)
    · rw [hret] at hx
      have hx : s.ret.get? m.name = some (.one x) := hx
      rw [hi.ret] at hx
      obtain ⟨y, rfl, _, hs⟩ := hmem x (expectedEntry_one hx)
      exact eqF_details_ok broken _ m y hs
    · rw [hret] at hl
      have hl : s.ret.get? m.name = some (.own l) := hl
      rw [hi.ret] at hl
      subst hf
      rw [expectedEntry_own hl]
      exact elemF_details_ok broken _ m _ hmem
    · rw [hret] at ha
      have ha : s.ret.get? m.name = some (.alias a) := ha
      rw [hi.ret] at ha
      exact absurd ha (expectedEntry_not_alias _ _ _ _)
  · subst he
    have := hi.vals m.name
    simp only [Bool.false_eq_true, if_false] at this
    simp only [this]
    exact elemF_details_ok broken _ m _ hmem

theorem distinctFrom_covers_eq {α : Type} (eq : α → α → Bool) : ∀ (l seen : List α), ∀ x ∈ l,
    x ∈ distinctFrom eq seen l ∨ (∃ y ∈ seen, eq y x = true) ∨ ∃ y ∈ distinctFrom eq seen l, eq y x = true
  | [], _, x, hx => by cases hx
  | a :: l, seen, x, hx => by
    by_cases h : seen.any (fun y => eq y a) = true
    · simp only [distinctFrom, if_pos h]
      rcases List.mem_cons.1 hx with rfl | hx
      · obtain ⟨y, hy, he⟩ := List.any_eq_true.1 h
        exact Or.inr (Or.inl ⟨y, hy, he⟩)
      · exact distinctFrom_covers_eq eq l seen x hx
    · simp only [distinctFrom, if_neg h]
      rcases List.mem_cons.1 hx with rfl | hx
      · exact Or.inl List.mem_cons_self
      · rcases distinctFrom_covers_eq eq l (seen ++ [a]) x hx with h1 | ⟨y, hy, he⟩ | ⟨y, hy, he⟩
        · exact Or.inl (List.mem_cons_of_mem _ h1)
        · rcases List.mem_append.1 hy with hy | hy
          · exact Or.inr (Or.inl ⟨y, hy, he⟩)
          · rw [List.mem_singleton.1 hy] at he
            exact Or.inr (Or.inr ⟨a, List.mem_cons_self, he⟩)
        · exact Or.inr (Or.inr ⟨y, List.mem_cons_of_mem _ hy, he⟩)

/-- Every match of the name is shown, or a match shown has its span. -/
theorem shownFor_span {p : List Match} {x : Match} (hx : x ∈ p) :
    DV.mtch x ∈ shownFor true p x.name ∨ ∃ y, DV.mtch y ∈ shownFor true p x.name ∧ y.eqv x = true := by
  have hw : DV.mtch x ∈ (withName p x.name).map (shown true) :=
    List.mem_map.2 ⟨x, List.mem_filter.2 ⟨hx, by simp⟩, rfl⟩
  rcases distinctFrom_covers_eq shownEq _ [] _ hw with h | ⟨y, hy, _⟩ | ⟨y, hy, he⟩
  · exact Or.inl h
  · cases hy
  · obtain ⟨z, _, _, rfl⟩ := shownFor_form true p x.name y hy
    exact Or.inr ⟨z, hy, he⟩

theorem eqv_span {x y : Match} (h : x.eqv y = true) : x.span = y.span := by
  unfold Match.eqv at h
  simp only [Bool.and_eq_true] at h
  simp_all

theorem toDictStepF_details_raise {broken addr : Match → Option Nat} {h : ListHeap} {fv el : Bool} {p : List Match} {s : MDict} {m : Match}
    (hi : DictInv h true fv el p s) (hid : ∀ x ∈ p, x.id ≠ m.id) (hnd : ∀ x ∈ p, ∀ y ∈ p, x.id = y.id → x = y)
    (hp : ¬ SamePlaceClash broken p) (hc : ClashWith broken p m) (hmode : ¬ (fv = true ∧ el = true)) :
    ∃ n y, (y ∈ p ∨ y = m) ∧ broken y = some n ∧ toDictStepF broken addr true fv el s m = .error (.user n) := by
  obtain ⟨x, hx, hxn, hxs, hb⟩ := hc
  have hshown : ∃ z, DV.mtch z ∈ shownFor true p m.name ∧ z.span = m.span ∧ (broken z ≠ none ∨ broken m ≠ none) := by
    rcases shownFor_span hx with h1 | ⟨z, hz, he⟩
    · exact ⟨x, hxn ▸ h1, hxs, hb⟩
    · have hzs : z.span = m.span := (eqv_span he).trans hxs
      refine ⟨z, hxn ▸ hz, hzs, ?_⟩
      rcases hb with hb | hb
      · obtain ⟨z', hz', hzn, he'⟩ := shownFor_form true p x.name _ hz
        cases he'
        by_cases hne : x.id = z.id
        · rw [← hnd x hx z hz' hne]; exact Or.inl hb
        · exact absurd ⟨x, hx, z, hz', hne, hzn.symm, (eqv_span he).symm, hb⟩ hp
      · exact Or.inr hb
  obtain ⟨z, hz, hzs, hzb⟩ := hshown
  have hmem : ∀ d ∈ shownFor true p m.name, ∃ x, d = .mtch x ∧ x.id ≠ m.id ∧ (x.span = m.span → broken x ≠ none ∨ broken m ≠ none) := by
    intro d hd
    obtain ⟨y, hy, hyn, rfl⟩ := shownFor_form true p m.name d hd
    refine ⟨y, rfl, hid y hy, fun hys => ?_⟩
    rcases hzb with hzb | hzb
    · obtain ⟨z', hz', hzn, he'⟩ := shownFor_form true p m.name _ hz
      cases he'
      by_cases hne : z.id = y.id
      · rw [← hnd z hz' y hy hne]; exact Or.inl hzb
      · exact absurd ⟨z, hz', y, hy, hne, hzn.trans hyn.symm, hzs.trans hys.symm, hzb⟩ hp
    · exact Or.inr hzb
  obtain ⟨n, y, hy, hbn, he⟩ := elemF_details_raise broken s.heap m _ hmem ⟨z, hz, hzs⟩
  refine ⟨n, y, hy.imp (fun hy => ?_) id, hbn, ?_⟩
  · obtain ⟨y', hy', _, he'⟩ := shownFor_form true p m.name _ hy
    cases he'
    exact hy'
  · unfold toDictStepF shownF
    simp only [if_true]
    cases el with
    | false =>
      have hv := hi.vals m.name
      simp only [Bool.false_eq_true, if_false] at hv
      unfold addValuesListF
      simp only [Bool.false_eq_true, if_false, Dict.getList_touch, hv, he]
    | true =>
      have hfv : fv = false := by cases fv <;> simp_all
      subst hfv
      have hr : s.ret.get? m.name = some (.own (shownFor true p m.name)) := by
        rw [hi.ret]
        cases hs : shownFor true p m.name with
        | nil => rw [hs] at hz; cases hz
        | cons d r => rfl
      unfold addValuesListF addEntryF
      simp only [if_true, hr, Bool.false_eq_true, if_false, he]

theorem clash_snoc {broken : Match → Option Nat} {p : List Match} {m : Match} (hid : ∀ x ∈ p, x.id ≠ m.id) :
    SamePlaceClash broken (p ++ [m]) ↔ SamePlaceClash broken p ∨ ClashWith broken p m := by
  constructor
  · rintro ⟨x, hx, y, hy, h1, h2, h3, h4⟩
    rcases List.mem_append.1 hx with hx | hx <;> rcases List.mem_append.1 hy with hy | hy
    · exact Or.inl ⟨x, hx, y, hy, h1, h2, h3, h4⟩
    · rw [List.mem_singleton.1 hy] at h2 h3
      exact Or.inr ⟨x, hx, h2, h3, Or.inl h4⟩
    · rw [List.mem_singleton.1 hx] at h2 h3 h4
      exact Or.inr ⟨y, hy, h2.symm, h3.symm, Or.inr h4⟩
    · rw [List.mem_singleton.1 hx, List.mem_singleton.1 hy] at h1; exact absurd rfl h1
  · rintro (⟨x, hx, y, hy, h⟩ | ⟨x, hx, h1, h2, h3⟩)
    · exact ⟨x, List.mem_append_left _ hx, y, List.mem_append_left _ hy, h⟩
    · have hm : m ∈ p ++ [m] := List.mem_append_right _ List.mem_cons_self
      rcases h3 with h3 | h3
      · exact ⟨x, List.mem_append_left _ hx, m, hm, hid x hx, h1, h2, h3⟩
      · exact ⟨m, hm, x, List.mem_append_left _ hx, fun e => hid x hx e.symm, h1.symm, h2.symm, h3⟩

theorem clash_mono {broken : Match → Option Nat} {l l' : List Match} (h : ∀ x ∈ l, x ∈ l') (hc : SamePlaceClash broken l) : SamePlaceClash broken l' := by
  obtain ⟨x, hx, y, hy, hr⟩ := hc
  exact ⟨x, h x hx, y, h y hy, hr⟩

theorem ids_injective : ∀ {p : List Match}, p.Pairwise (fun a b => a.id ≠ b.id) → ∀ x ∈ p, ∀ y ∈ p, x.id = y.id → x = y
  | [], _, x, hx, _, _, _ => by cases hx
  | a :: p, h, x, hx, y, hy, e => by
    obtain ⟨h1, h2⟩ := List.pairwise_cons.1 h
    rcases List.mem_cons.1 hx with hxa | hx' <;> rcases List.mem_cons.1 hy with hya | hy'
    · rw [hxa, hya]
    · rw [hxa] at e; exact absurd e (h1 y hy')
    · rw [hya] at e; exact absurd e.symm (h1 x hx')
    · exact ids_injective h2 x hx' y hy' e

theorem toDictLoopF_details (broken addr : Match → Option Nat) {h : ListHeap} (fv el : Bool) : ∀ (l p : List Match) (s : MDict),
    ((p ++ l).map Match.id).Nodup → DictInv h true fv el p s → ((fv = true ∧ el = true) ∨ ¬ SamePlaceClash broken p) →
    (((fv = true ∧ el = true) ∨ ¬ SamePlaceClash broken (p ++ l)) →
      toDictLoopF broken addr true fv el l s = .ok (l.foldl (toDictStep addr true fv el) s)) ∧
    (¬ (fv = true ∧ el = true) → SamePlaceClash broken (p ++ l) →
      ∃ n, (∃ y ∈ p ++ l, broken y = some n) ∧ toDictLoopF broken addr true fv el l s = .error (.user n))
  | [], p, s, hnd, hi, hp => by
    refine ⟨fun _ => rfl, fun hm hc => ?_⟩
    rw [List.append_nil] at hc
    exact absurd hc (hp.resolve_left hm)
  | m :: l, p, s, hnd, hi, hp => by
    have happ : p ++ m :: l = (p ++ [m]) ++ l := by simp
    have hid : ∀ x ∈ p, x.id ≠ m.id := by
      intro x hx e
      rw [List.map_append, List.nodup_append] at hnd
      exact hnd.2.2 x.id (List.mem_map_of_mem hx) m.id (by simp) e
    have hinj : ∀ x ∈ p, ∀ y ∈ p, x.id = y.id → x = y := by
      rw [List.map_append, List.nodup_append] at hnd
      have h1 := hnd.1
      rw [List.Nodup, List.pairwise_map] at h1
      exact ids_injective h1
    unfold toDictLoopF
    by_cases hstep : (fv = true ∧ el = true) ∨ ¬ ClashWith broken p m
    · have hok : toDictStepF broken addr true fv el s m = .ok (toDictStep addr true fv el s m) := by
        rcases hstep with ⟨rfl, rfl⟩ | hc
        · unfold toDictStepF toDictStep shownF
          simp only [if_true]
          rw [addValuesListF_ok broken true _ m.name _ (by intro h; cases h)]
          exact addEntryF_ok broken true true _ m.name _ (by intro h; cases h) (by intro h; cases h) (by intro h; cases h)
        · exact toDictStepF_details_ok hi hid hc
      rw [hok, happ]
      simp only [List.foldl_cons]
      refine toDictLoopF_details broken addr fv el l (p ++ [m]) _ (by rw [← happ]; exact hnd) (dictInv_step m (Or.inl rfl) hi) ?_
      by_cases hm : fv = true ∧ el = true
      · exact Or.inl hm
      · refine Or.inr (fun hc => ?_)
        rcases (clash_snoc hid).1 hc with h1 | h1
        · exact hp.resolve_left hm h1
        · exact hstep.resolve_left hm h1
    · have hm : ¬ (fv = true ∧ el = true) := fun h => hstep (Or.inl h)
      have hc : ClashWith broken p m := Classical.byContradiction (fun h => hstep (Or.inr h))
      have hcl : SamePlaceClash broken (p ++ m :: l) := by
        rw [happ]
        exact clash_mono (fun x hx => List.mem_append_left _ hx) ((clash_snoc hid).2 (Or.inr hc))
      obtain ⟨n, y, hy, hb, he⟩ := toDictStepF_details_raise (addr := addr) hi hid hinj (hp.resolve_left hm) hc hm
      refine ⟨fun h => absurd hcl (h.resolve_left hm), fun _ _ => ⟨n, ⟨y, ?_, hb⟩, ?_⟩⟩
      · rcases hy with hy | rfl
        · exact List.mem_append_left _ hy
        · simp
      · rw [he]

/-! ## `to` and `check_declared_keys` -/

theorem lookName_named {s : Matches} (he : Matches.Exact s) {n : String} (hn : n ≠ "") : (s.lookName n).2 = named s.delegate n := by
  unfold Matches.lookName
  simp only
  rw [he.viewName, filed_name _ hn]

theorem toLoopF_ok (broken : Match → Option Nat) (env : ClassEnv) (declared : Dict String Key) : ∀ (fs : List Field) (s : Matches)
    (kw : Dict String FieldVal), Matches.Exact s → (∀ f ∈ fs, f.name ≠ "") → (∀ f ∈ fs, Readable broken (named s.delegate f.name)) →
    toLoopF broken env declared fs s kw = toLoop env declared fs s kw
  | [], _, _, _, _, _ => rfl
  | f :: fs, s, kw, he, hne, hr => by
    have hn := hne f List.mem_cons_self
    have ih : ∀ kw, toLoopF broken env declared fs (s.lookName f.name).1 kw = toLoop env declared fs (s.lookName f.name).1 kw :=
      fun kw => toLoopF_ok broken env declared fs _ kw (he.sim (lookName_sim s f.name)) (fun g hg => hne g (List.mem_cons_of_mem _ hg))
        (fun g hg => by rw [(lookName_sim s f.name).delegate]; exact hr g (List.mem_cons_of_mem _ hg))
    unfold toLoopF toLoop
    cases fieldContradicts env declared f with
    | true => rfl
    | false =>
      have hv : valuesF broken (s.lookName f.name).2 = .ok ((s.lookName f.name).2.map Match.value) := by
        rw [valuesF_eq, lookName_named he hn, readsOr_readable (hr f List.mem_cons_self)]
      simp only [Bool.false_eq_true, if_false, hv, ih]
      cases f.hint.isListHint with
      | true => rfl
      | false => cases (s.lookName f.name).2.map Match.value <;> rfl

/-- The loop up to a field in which it stops. -/
theorem toLoopF_stops (broken : Match → Option Nat) (env : ClassEnv) (declared : Dict String Key) (f : Field) (post : List Field) (e : PyErr) :
    ∀ (pre : List Field) (s : Matches) (kw : Dict String FieldVal), Matches.Exact s → (∀ g ∈ pre ++ [f], g.name ≠ "") →
    (∀ g ∈ pre, ¬ Incompatible env declared g ∧ Readable broken (named s.delegate g.name)) →
    (Incompatible env declared f ∧ e = .typeError ∨
      ¬ Incompatible env declared f ∧ ∃ n, (named s.delegate f.name).findSome? broken = some n ∧ e = .user n) →
    toLoopF broken env declared (pre ++ f :: post) s kw = .error e
  | [], s, kw, he, hne, _, hf => by
    rw [List.nil_append]
    unfold toLoopF
    rcases hf with ⟨h1, rfl⟩ | ⟨h1, n, h2, rfl⟩
    · rw [if_pos ((incompatible_iff env declared f).2 h1)]
    · rw [if_neg (fun h => h1 ((incompatible_iff env declared f).1 h))]
      have hv : valuesF broken (s.lookName f.name).2 = .error (.user n) := by
        rw [valuesF_eq, lookName_named he (hne f (by simp))]
        unfold readsOr
        rw [h2]
      simp only [hv]
  | g :: pre, s, kw, he, hne, hpre, hf => by
    rw [List.cons_append]
    obtain ⟨h1, h2⟩ := hpre g List.mem_cons_self
    have ih : ∀ kw, toLoopF broken env declared (pre ++ f :: post) (s.lookName g.name).1 kw = .error e := fun kw =>
      toLoopF_stops broken env declared f post e pre _ kw (he.sim (lookName_sim s g.name))
        (fun x hx => hne x (by rw [List.cons_append]; exact List.mem_cons_of_mem _ hx))
        (fun x hx => by rw [(lookName_sim s g.name).delegate]; exact hpre x (List.mem_cons_of_mem _ hx))
        (by rw [(lookName_sim s g.name).delegate]; exact hf)
    unfold toLoopF
    rw [if_neg (fun h => h1 ((incompatible_iff env declared g).1 h))]
    have hv : valuesF broken (s.lookName g.name).2 = .ok ((s.lookName g.name).2.map Match.value) := by
      rw [valuesF_eq, lookName_named he (hne g (by simp)), readsOr_readable h2]
    simp only [hv, ih]
    cases g.hint.isListHint with
    | true => rfl
    | false => cases (s.lookName g.name).2.map Match.value <;> rfl

theorem nameKey_some {m : Match} {n : String} : m.nameKey = some n ↔ m.name = some n ∧ n ≠ "" := by
  unfold Match.nameKey
  cases hn : m.name with
  | none => simp
  | some n' =>
    by_cases he : n' = ""
    · subst he
      simp only [show ("" : String).isEmpty = true from rfl, if_true, Option.some.injEq, reduceCtorEq, false_iff]
      rintro ⟨rfl, h2⟩; exact h2 rfl
    · have : n'.isEmpty = false := by simpa [String.isEmpty_iff] using he
      simp only [this, Bool.false_eq_true, if_false, Option.some.injEq]
      constructor
      · rintro rfl; exact ⟨rfl, he⟩
      · exact fun h => h.1

theorem due_iff {declared : Dict String Key} {m : Match} {k : Key} :
    Due declared m k ↔ declaredFor declared m = some k ∧ m.priv = false ∧ m.hasLiteralValue = false := by
  unfold Due declaredFor
  have h1 : (¬ IsTrue m.lit) ↔ m.hasLiteralValue = false := by
    rw [← isTrue_iff, Bool.not_eq_true]; rfl
  rw [h1]
  refine and_congr_left fun _ => ?_
  cases hk : m.nameKey with
  | none =>
    simp only [reduceCtorEq, iff_false]
    rintro ⟨n, ha, hb, _⟩
    rw [nameKey_some.2 ⟨ha, hb⟩] at hk
    cases hk
  | some n =>
    obtain ⟨ha, hb⟩ := nameKey_some.1 hk
    simp only
    constructor
    · rintro ⟨n', h1, _, h3⟩
      rw [ha] at h1; cases h1; exact h3
    · exact fun h => ⟨n, ha, hb, h⟩

/-- A match that is not to be checked, or can be read and has the declared type, is passed over. -/
theorem checkF_skip (broken : Match → Option Nat) (isinstance : Val → Nat → Bool) (declared : Dict String Key) (m : Match) (ms : List Match)
    (h : ∀ k, Due declared m k → broken m = none ∧ ¬ Violates isinstance m k) :
    checkDeclaredKeysF broken isinstance declared (m :: ms) = checkDeclaredKeysF broken isinstance declared ms ∧
    checkDeclaredKeys isinstance declared (m :: ms) = checkDeclaredKeys isinstance declared ms := by
  rw [checkDeclaredKeysF, checkDeclaredKeys]
  cases hd : declaredFor declared m with
  | none => exact ⟨rfl, rfl⟩
  | some k =>
    simp only
    by_cases hp : (m.priv || m.hasLiteralValue) = true
    · rw [if_pos hp, if_pos hp]; exact ⟨rfl, rfl⟩
    · have hp' : m.priv = false ∧ m.hasLiteralValue = false := by simpa [not_or] using hp
      obtain ⟨hb, hv⟩ := h k (due_iff.2 ⟨hd, hp'.1, hp'.2⟩)
      have hty : (decide (m.value = .none) || isinstance m.value k.valueType) = true := by
        apply Classical.byContradiction
        intro hc
        simp only [Bool.or_eq_true, decide_eq_true_eq, not_or, Bool.not_eq_true] at hc
        exact hv hc
      rw [if_neg hp, if_neg hp, if_pos hty]
      unfold valueF
      rw [hb]
      simp only [hty, if_true, and_self]

theorem checkF_due (broken : Match → Option Nat) (isinstance : Val → Nat → Bool) (declared : Dict String Key) (m : Match) (ms : List Match)
    (k : Key) (h : Due declared m k) :
    checkDeclaredKeysF broken isinstance declared (m :: ms) =
      match broken m with
      | some n => some (.user n)
      | none => if decide (m.value = .none) || isinstance m.value k.valueType then checkDeclaredKeysF broken isinstance declared ms
          else some .typeError := by
  obtain ⟨h1, h2, h3⟩ := due_iff.1 h
  rw [checkDeclaredKeysF, h1]
  simp only [h2, h3, Bool.or_self, Bool.false_eq_true, if_false]
  unfold valueF
  cases broken m <;> rfl

theorem checkF_readable (broken : Match → Option Nat) (isinstance : Val → Nat → Bool) (declared : Dict String Key) : ∀ (l : List Match),
    (∀ m ∈ l, ∀ k, Due declared m k → broken m = none) →
    checkDeclaredKeysF broken isinstance declared l = checkDeclaredKeys isinstance declared l
  | [], _ => rfl
  | m :: ms, h => by
    have ih := checkF_readable broken isinstance declared ms (fun x hx => h x (List.mem_cons_of_mem _ hx))
    rw [checkDeclaredKeysF, checkDeclaredKeys, ih]
    cases hd : declaredFor declared m with
    | none => rfl
    | some k =>
      simp only
      by_cases hp : (m.priv || m.hasLiteralValue) = true
      · rw [if_pos hp, if_pos hp]
      · have hp' : m.priv = false ∧ m.hasLiteralValue = false := by simpa [not_or] using hp
        rw [if_neg hp, if_neg hp]
        unfold valueF
        rw [h m List.mem_cons_self k (due_iff.2 ⟨hd, hp'.1, hp'.2⟩)]

theorem checkF_stops (broken : Match → Option Nat) (isinstance : Val → Nat → Bool) (declared : Dict String Key) (m : Match) (k : Key) (n : Nat)
    (post : List Match) (hd : Due declared m k) (hb : broken m = some n) : ∀ (pre : List Match),
    (∀ x ∈ pre, ∀ k, Due declared x k → broken x = none ∧ ¬ Violates isinstance x k) →
    checkDeclaredKeysF broken isinstance declared (pre ++ m :: post) = some (.user n)
  | [], _ => by rw [List.nil_append, checkF_due _ _ _ _ _ k hd, hb]
  | x :: pre, h => by
    rw [List.cons_append, (checkF_skip broken isinstance declared x _ (h x List.mem_cons_self)).1]
    exact checkF_stops broken isinstance declared m k n post hd hb pre (fun y hy => h y (List.mem_cons_of_mem _ hy))

theorem checkF_violates (broken : Match → Option Nat) (isinstance : Val → Nat → Bool) (declared : Dict String Key) (m : Match) (k : Key)
    (post : List Match) (hd : Due declared m k) (hv : Violates isinstance m k) (hb : broken m = none) : ∀ (pre : List Match),
    (∀ x ∈ pre, ∀ k, Due declared x k → broken x = none ∧ ¬ Violates isinstance x k) →
    checkDeclaredKeysF broken isinstance declared (pre ++ m :: post) = some .typeError
  | [], _ => by
    rw [List.nil_append, checkF_due _ _ _ _ _ k hd, hb]
    simp only [hv.2, decide_eq_true_eq, Bool.or_false, if_neg hv.1]
  | x :: pre, h => by
    rw [List.cons_append, (checkF_skip broken isinstance declared x _ (h x List.mem_cons_self)).1]
    exact checkF_violates broken isinstance declared m k post hd hv hb pre (fun y hy => h y (List.mem_cons_of_mem _ hy))

end Rebulk
