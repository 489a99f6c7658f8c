import Verif.Spec.Copies
/-!
# Lemmas for `C105`: graphs of objects, `copy.deepcopy`
-/
namespace Rebulk
open Spec

/-! ## Objects -/

namespace GHeap

theorem obj_lt {h : GHeap} {a : Nat} (ha : a < h.length) : h[a]? = some (h.obj a) := by
  rw [GHeap.obj, List.getD_eq_getElem?_getD, List.getElem?_eq_getElem ha]; rfl

theorem obj_eq {h h' : GHeap} {a : Nat} (e : h'[a]? = h[a]?) : h'.obj a = h.obj a := by
  rw [GHeap.obj, GHeap.obj, List.getD_eq_getElem?_getD, List.getD_eq_getElem?_getD, e]

theorem obj_ge {h : GHeap} {a : Nat} (ha : h.length ≤ a) : h.obj a = [] := by
  rw [GHeap.obj, List.getD_eq_getElem?_getD, List.getElem?_eq_none ha]; rfl

theorem assign_length (h : GHeap) (a : Nat) (k : String) (v : GV) : (h.assign a k v).length = h.length := by
  simp [GHeap.assign]

theorem assign_obj_ne (h : GHeap) {a x : Nat} (k : String) (v : GV) (e : x ≠ a) : (h.assign a k v).obj x = h.obj x := by
  apply obj_eq; rw [GHeap.assign, List.getElem?_set_ne (Ne.symm e)]

theorem assign_obj_eq (h : GHeap) {a : Nat} (k : String) (v : GV) (ha : a < h.length) :
    (h.assign a k v).obj a = Dict.set (h.obj a) k v := by
  rw [GHeap.obj, List.getD_eq_getElem?_getD, GHeap.assign, List.getElem?_set_self ha]; rfl

end GHeap

/-! ## Two graphs of objects with the same shape -/

/-- Values that correspond. -/
def GV.Rel (R : Nat → Nat → Prop) : GV → GV → Prop
  | .atom v, .atom w => v = w
  | .ref a, .ref b => R a b
  | _, _ => False

/-- Attributes that correspond one by one. -/
def FieldsRel (R : Nat → Nat → Prop) : GObj → GObj → Prop
  | [], [] => True
  | (k, v) :: r, (k', v') :: r' => k = k' ∧ GV.Rel R v v' ∧ FieldsRel R r r'
  | _, _ => False

theorem GV.Rel.mono {R S : Nat → Nat → Prop} (hRS : ∀ a b, R a b → S a b) {v w : GV} (h : GV.Rel R v w) : GV.Rel S v w := by
  cases v <;> cases w <;> simp only [GV.Rel] at h ⊢ <;> first | exact h | exact hRS _ _ h

theorem FieldsRel.mono {R S : Nat → Nat → Prop} (hRS : ∀ a b, R a b → S a b) :
    ∀ {f g : GObj}, FieldsRel R f g → FieldsRel S f g
  | [], [], _ => trivial
  | (_, _) :: _, (_, _) :: _, h => ⟨h.1, h.2.1.mono hRS, FieldsRel.mono hRS h.2.2⟩
  | [], _ :: _, h => h.elim
  | _ :: _, [], h => h.elim

theorem FieldsRel.get {R : Nat → Nat → Prop} (k : String) :
    ∀ {f g : GObj}, FieldsRel R f g →
      (Dict.get? f k = none ∧ Dict.get? g k = none) ∨ ∃ v w, Dict.get? f k = some v ∧ Dict.get? g k = some w ∧ GV.Rel R v w
  | [], [], _ => .inl ⟨rfl, rfl⟩
  | (k1, v) :: r, (k2, w) :: r', h => by
    obtain ⟨rfl, hv, hr⟩ := h
    simp only [Dict.get?]
    by_cases e : (k1 == k) = true
    · rw [if_pos e, if_pos e]; exact .inr ⟨v, w, rfl, rfl, hv⟩
    · rw [if_neg e, if_neg e]; exact FieldsRel.get k hr
  | [], _ :: _, h => h.elim
  | _ :: _, [], h => h.elim

theorem FieldsRel.set {R : Nat → Nat → Prop} (k : String) {v w : GV} (hvw : GV.Rel R v w) :
    ∀ {f g : GObj}, FieldsRel R f g → FieldsRel R (Dict.set f k v) (Dict.set g k w)
  | [], [], _ => ⟨rfl, hvw, trivial⟩
  | (k1, x) :: r, (k2, y) :: r', h => by
    obtain ⟨rfl, hv, hr⟩ := h
    simp only [Dict.set]
    by_cases e : (k1 == k) = true
    · rw [if_pos e, if_pos e]; exact ⟨rfl, hvw, hr⟩
    · rw [if_neg e, if_neg e]; exact ⟨rfl, hv, FieldsRel.set k hvw hr⟩
  | [], _ :: _, h => h.elim
  | _ :: _, [], h => h.elim

theorem FieldsRel.mem_ref {R : Nat → Nat → Prop} {k : String} {y : Nat} :
    ∀ {f g : GObj}, FieldsRel R f g → (k, GV.ref y) ∈ g → ∃ x, R x y
  | [], [], _, h => by cases h
  | (k1, v) :: r, (k2, w) :: r', h, hm => by
    rcases List.mem_cons.mp hm with e | hm
    · cases e
      have := h.2.1
      cases v with
      | atom v => exact this.elim
      | ref x => exact ⟨x, this⟩
    · exact FieldsRel.mem_ref h.2.2 hm
  | [], _ :: _, h, _ => h.elim
  | _ :: _, [], h, _ => h.elim

/-- A correspondence, one to one, between objects of two heaps. -/
structure Iso (h h' : GHeap) (R : Nat → Nat → Prop) : Prop where
  fun_ : ∀ {a b b'}, R a b → R a b' → b = b'
  inj : ∀ {a a' b}, R a b → R a' b → a = a'
  fields : ∀ {a b}, R a b → FieldsRel R (h.obj a) (h'.obj b)

theorem Iso.walk {h h' : GHeap} {R : Nat → Nat → Prop} (i : Iso h h' R) :
    ∀ (path : List String) {v w : GV}, GV.Rel R v w →
      (walk h v path = none ∧ walk h' w path = none) ∨ ∃ x y, walk h v path = some x ∧ walk h' w path = some y ∧ GV.Rel R x y
  | [], v, w, r => .inr ⟨v, w, by simp only [Spec.walk], by simp only [Spec.walk], r⟩
  | k :: ks, .atom v, .atom w, _ => .inl ⟨rfl, rfl⟩
  | k :: ks, .ref a, .ref b, r => by
    simp only [Spec.walk]
    rcases FieldsRel.get k (i.fields r) with ⟨e, e'⟩ | ⟨v, w, e, e', hr⟩
    · rw [e, e']; exact .inl ⟨rfl, rfl⟩
    · rw [e, e']; exact Iso.walk i ks hr
  | _ :: _, .atom _, .ref _, r => r.elim
  | _ :: _, .ref _, .atom _, r => r.elim

theorem Iso.rel_eq {h h' : GHeap} {R : Nat → Nat → Prop} (i : Iso h h' R) {v w v' w' : GV} (r : GV.Rel R v w) (r' : GV.Rel R v' w') :
    v = v' ↔ w = w' := by
  cases v <;> cases w <;> cases v' <;> cases w' <;> simp only [GV.Rel] at r r'
  · rw [r, r']
  · exact ⟨fun e => (by cases e), fun e => (by cases e)⟩
  · exact ⟨fun e => (by cases e), fun e => (by cases e)⟩
  · constructor
    · intro e; cases e; rw [i.fun_ r r']
    · intro e; cases e; rw [i.inj r r']

theorem Iso.looksLike {h h' : GHeap} {R : Nat → Nat → Prop} (i : Iso h h' R) {a b : Nat} (r : R a b) : LooksLike h a h' b where
  same := by
    intro path
    rcases i.walk path (v := .ref a) (w := .ref b) r with ⟨e, e'⟩ | ⟨x, y, e, e', hr⟩
    · rw [e, e']
    · rw [e, e']
      cases x <;> cases y <;> simp only [GV.Rel] at hr
      · rw [hr]
      · rfl
  shared := by
    intro p q
    rcases i.walk p (v := .ref a) (w := .ref b) r with ⟨e, e'⟩ | ⟨x, y, e, e', hr⟩ <;>
      rcases i.walk q (v := .ref a) (w := .ref b) r with ⟨f, f'⟩ | ⟨z, t, f, f', hr'⟩ <;> simp only [e, e', f, f', reduceCtorEq]
    · rw [Option.some.injEq, Option.some.injEq]; exact i.rel_eq hr hr'

theorem Iso.assign {h h' : GHeap} {R : Nat → Nat → Prop} (i : Iso h h' R) {a b : Nat} (r : R a b) (ha : a < h.length) (hb : b < h'.length)
    (k : String) {v w : GV} (hvw : GV.Rel R v w) : Iso (h.assign a k v) (h'.assign b k w) R where
  fun_ := i.fun_
  inj := i.inj
  fields := by
    intro x y hxy
    by_cases e : x = a
    · subst e
      have e' := i.fun_ hxy r
      subst e'
      rw [GHeap.assign_obj_eq h k v ha, GHeap.assign_obj_eq h' k w hb]
      exact FieldsRel.set k hvw (i.fields hxy)
    · have e' : y ≠ b := fun e' => e (by subst e'; exact i.inj hxy r)
      rw [GHeap.assign_obj_ne h k v e, GHeap.assign_obj_ne h' k w e']
      exact i.fields hxy

theorem FieldsRel.comp {R S : Nat → Nat → Prop} : ∀ {f g k : GObj}, FieldsRel R f g → FieldsRel S g k →
    FieldsRel (fun a c => ∃ b, R a b ∧ S b c) f k
  | [], [], [], _, _ => trivial
  | (_, v) :: r, (_, w) :: r', (_, u) :: r'', h, h' => by
    refine ⟨h.1.trans h'.1, ?_, FieldsRel.comp h.2.2 h'.2.2⟩
    have a := h.2.1; have b := h'.2.1
    cases v <;> cases w <;> cases u <;> simp only [GV.Rel] at a b ⊢
    · rw [a, b]
    · exact ⟨_, a, b⟩
  | [], [], _ :: _, _, h => h.elim
  | [], _ :: _, _, h, _ => h.elim
  | _ :: _, [], _, h, _ => h.elim
  | _ :: _, _ :: _, [], _, h => h.elim

theorem Iso.comp {h h' h'' : GHeap} {R S : Nat → Nat → Prop} (i : Iso h h' R) (j : Iso h' h'' S) :
    Iso h h'' (fun a c => ∃ b, R a b ∧ S b c) where
  fun_ := by
    rintro a c c' ⟨b, r, s⟩ ⟨b', r', s'⟩
    rw [i.fun_ r r'] at s; exact j.fun_ s s'
  inj := by
    rintro a a' c ⟨b, r, s⟩ ⟨b', r', s'⟩
    rw [j.inj s s'] at r; exact i.inj r r'
  fields := by
    rintro a c ⟨b, r, s⟩
    exact (i.fields r).comp (j.fields s)

/-! ## `copy.deepcopy` -/

/-- `memo` as a relation. -/
def Memo.rel (m : Memo) (a b : Nat) : Prop := m.get? a = some b

/-- What holds while `copy.deepcopy` runs: `h0` are the objects there were, `opn` the copies whose attributes are not there yet. -/
structure CopyInv (h0 : GHeap) (opn : Nat → Prop) (s : GHeap × Memo) : Prop where
  long : h0.length ≤ s.1.length
  kept : ∀ x, x < h0.length → s.1[x]? = h0[x]?
  bounds : ∀ {a b}, s.2.get? a = some b → a < h0.length ∧ h0.length ≤ b ∧ b < s.1.length
  inj : ∀ {a a' b}, s.2.get? a = some b → s.2.get? a' = some b → a = a'
  onto : ∀ {b}, h0.length ≤ b → b < s.1.length → ∃ a, s.2.get? a = some b
  done : ∀ {a b}, s.2.get? a = some b → ¬ opn b → FieldsRel s.2.rel (h0.obj a) (s.1.obj b)

/-- What changes. -/
structure CopyStep (s t : GHeap × Memo) : Prop where
  long : s.1.length ≤ t.1.length
  kept : ∀ x, x < s.1.length → t.1[x]? = s.1[x]?
  memo : ∀ {a b}, s.2.get? a = some b → t.2.get? a = some b

theorem CopyStep.refl (s : GHeap × Memo) : CopyStep s s := ⟨Nat.le_refl _, fun _ _ => rfl, fun e => e⟩

theorem CopyStep.trans {s t u : GHeap × Memo} (a : CopyStep s t) (b : CopyStep t u) : CopyStep s u :=
  ⟨Nat.le_trans a.long b.long, fun x hx => (b.kept x (Nat.lt_of_lt_of_le hx a.long)).trans (a.kept x hx), fun e => b.memo (a.memo e)⟩

/-- How many objects have no copy yet. -/
def Memo.missing (n : Nat) (m : Memo) : Nat := ((List.range n).filter (fun a => (m.get? a).isNone)).length

theorem filter_length_le {α : Type} {p q : α → Bool} (hpq : ∀ x, p x = true → q x = true) :
    ∀ (l : List α), (l.filter p).length ≤ (l.filter q).length
  | [] => Nat.le_refl _
  | x :: l => by
    have ih := filter_length_le hpq l
    by_cases e : p x = true
    · rw [List.filter_cons_of_pos e, List.filter_cons_of_pos (hpq x e)]; simpa using ih
    · rw [List.filter_cons_of_neg e]
      by_cases e' : q x = true
      · rw [List.filter_cons_of_pos e']; simp only [List.length_cons]; omega
      · rw [List.filter_cons_of_neg e']; exact ih

theorem filter_length_lt {α : Type} {p q : α → Bool} (hpq : ∀ x, p x = true → q x = true) {y : α} (hy : q y = true) (hn : ¬ p y = true) :
    ∀ (l : List α), y ∈ l → (l.filter p).length < (l.filter q).length
  | x :: l, hm => by
    by_cases exy : y = x
    · subst exy
      rw [List.filter_cons_of_neg hn, List.filter_cons_of_pos hy]
      have := filter_length_le hpq l
      simp only [List.length_cons]; omega
    · have ih := filter_length_lt hpq hy hn l ((List.mem_cons.mp hm).resolve_left exy)
      by_cases e : p x = true
      · rw [List.filter_cons_of_pos e, List.filter_cons_of_pos (hpq x e)]; simpa using ih
      · rw [List.filter_cons_of_neg e]
        by_cases e' : q x = true
        · rw [List.filter_cons_of_pos e']; simp only [List.length_cons]; omega
        · rw [List.filter_cons_of_neg e']; exact ih

theorem CopyStep.missing {s t : GHeap × Memo} (c : CopyStep s t) (n : Nat) : Memo.missing n t.2 ≤ Memo.missing n s.2 := by
  apply filter_length_le
  intro x hx
  cases e : Dict.get? s.2 x with
  | none => rfl
  | some b => rw [c.memo e] at hx; cases hx

theorem Memo.get_cons (a b x : Nat) (m : Memo) : Dict.get? (((a, b) :: m : Memo)) x = if a = x then some b else Dict.get? m x := by
  simp only [Dict.get?, beq_iff_eq]

theorem Memo.missing_cons {n a : Nat} (b : Nat) {m : Memo} (ha : a < n) (e : m.get? a = none) :
    Memo.missing n ((a, b) :: m) < Memo.missing n m := by
  refine filter_length_lt (y := a) ?_ ?_ ?_ _ (List.mem_range.mpr ha)
  · intro x hx
    rw [Memo.get_cons] at hx
    by_cases ex : a = x
    · rw [if_pos ex] at hx; cases hx
    · rw [if_neg ex] at hx; exact hx
  · rw [e]; rfl
  · rw [Memo.get_cons, if_pos rfl]; simp

/-- A value that refers to an object there was. -/
def GV.In (n : Nat) : GV → Prop
  | .atom _ => True
  | .ref a => a < n

theorem copyFields_ok {h0 : GHeap} {opn : Nat → Prop} {copy : GV → GHeap × Memo → Option ((GHeap × Memo) × GV)} {bound : Nat}
    (hcopy : ∀ (v : GV) (s : GHeap × Memo), v.In h0.length → CopyInv h0 opn s → Memo.missing h0.length s.2 ≤ bound →
      ∃ t w, copy v s = some (t, w) ∧ CopyInv h0 opn t ∧ CopyStep s t ∧ GV.Rel t.2.rel v w) :
    ∀ (fs : GObj) (s : GHeap × Memo), (∀ kv ∈ fs, kv.2.In h0.length) → CopyInv h0 opn s → Memo.missing h0.length s.2 ≤ bound →
      ∃ t gs, copyFields copy fs s = some (t, gs) ∧ CopyInv h0 opn t ∧ CopyStep s t ∧ FieldsRel t.2.rel fs gs
  | [], s, _, hs, _ => ⟨s, [], rfl, hs, .refl s, trivial⟩
  | (k, v) :: r, s, hin, hs, hb => by
    obtain ⟨t, w, e, ht, st, hr⟩ := hcopy v s (hin (k, v) (List.mem_cons_self ..)) hs hb
    obtain ⟨u, gs, e', hu, su, hf⟩ := copyFields_ok hcopy r t (fun kv hkv => hin kv (List.mem_cons_of_mem _ hkv)) ht
      (Nat.le_trans (st.missing _) hb)
    refine ⟨u, (k, w) :: gs, ?_, hu, st.trans su, rfl, hr.mono (fun a b h => su.memo h), hf⟩
    simp only [copyFields, e, e']

theorem CopyInv.open_ {h0 : GHeap} {opn : Nat → Prop} {s : GHeap × Memo} (i : CopyInv h0 opn s) {a : Nat} (ha : a < h0.length)
    (e : s.2.get? a = none) : CopyInv h0 (fun b => opn b ∨ b = s.1.length) (s.1 ++ [[]], (a, s.1.length) :: s.2) where
  long := by simp only [List.length_append]; exact Nat.le_trans i.long (Nat.le_add_right ..)
  kept := by
    intro x hx
    rw [List.getElem?_append_left (Nat.lt_of_lt_of_le hx i.long)]; exact i.kept x hx
  bounds := by
    intro x b hx
    rw [Memo.get_cons] at hx
    simp only [List.length_append, List.length_cons, List.length_nil]
    by_cases ex : a = x
    · rw [if_pos ex] at hx; cases hx; subst ex; exact ⟨ha, i.long, by omega⟩
    · rw [if_neg ex] at hx; obtain ⟨h1, h2, h3⟩ := i.bounds hx; exact ⟨h1, h2, by omega⟩
  inj := by
    intro x y b hx hy
    rw [Memo.get_cons] at hx hy
    by_cases ex : a = x <;> by_cases ey : a = y
    · rw [← ex, ← ey]
    · rw [if_pos ex] at hx; rw [if_neg ey] at hy; cases hx
      exact absurd (i.bounds hy).2.2 (Nat.lt_irrefl _)
    · rw [if_neg ex] at hx; rw [if_pos ey] at hy; cases hy
      exact absurd (i.bounds hx).2.2 (Nat.lt_irrefl _)
    · rw [if_neg ex] at hx; rw [if_neg ey] at hy; exact i.inj hx hy
  onto := by
    intro b h1 h2
    simp only [List.length_append, List.length_cons, List.length_nil] at h2
    by_cases eb : b = s.1.length
    · exact ⟨a, by rw [Memo.get_cons, if_pos rfl, eb]⟩
    · obtain ⟨x, hx⟩ := i.onto h1 (by omega)
      refine ⟨x, ?_⟩
      rw [Memo.get_cons, if_neg, hx]
      intro ex; subst ex; rw [e] at hx; cases hx
  done := by
    intro x b hx hb
    rw [Memo.get_cons] at hx
    by_cases ex : a = x
    · rw [if_pos ex] at hx; cases hx; exact absurd (.inr rfl) hb
    · rw [if_neg ex] at hx
      have eo : GHeap.obj (s.1 ++ [[]]) b = GHeap.obj s.1 b := GHeap.obj_eq (List.getElem?_append_left (i.bounds hx).2.2)
      show FieldsRel _ _ (GHeap.obj (s.1 ++ [[]]) b)
      rw [eo]
      refine (i.done hx (fun ho => hb (.inl ho))).mono ?_
      intro y z hyz
      show Dict.get? ((a, s.1.length) :: s.2 : Memo) y = some z
      rw [Memo.get_cons, if_neg, hyz]
      intro ey; subst ey
      rw [show Memo.rel s.2 a z = (s.2.get? a = some z) from rfl, e] at hyz; cases hyz

theorem CopyStep.open_ {s : GHeap × Memo} {a : Nat} (e : s.2.get? a = none) : CopyStep s (s.1 ++ [[]], (a, s.1.length) :: s.2) where
  long := by simp
  kept := fun x hx => List.getElem?_append_left hx
  memo := by
    intro x b hx
    rw [Memo.get_cons, if_neg, hx]
    intro ex; subst ex; rw [e] at hx; cases hx

theorem CopyInv.close {h0 : GHeap} {opn : Nat → Prop} {t : GHeap × Memo} {n a : Nat} (i : CopyInv h0 (fun b => opn b ∨ b = n) t)
    (hn : h0.length ≤ n) (ha : t.2.get? a = some n) {fs : GObj} (hf : FieldsRel t.2.rel (h0.obj a) fs) :
    CopyInv h0 opn (t.1.set n fs, t.2) where
  long := by simp only [List.length_set]; exact i.long
  kept := by
    intro x hx
    rw [List.getElem?_set_ne (by omega)]; exact i.kept x hx
  bounds := by intro x b hx; rw [show (t.1.set n fs, t.2).1.length = t.1.length from List.length_set ..]; exact i.bounds hx
  inj := i.inj
  onto := by intro b h1 h2; rw [show (t.1.set n fs, t.2).1.length = t.1.length from List.length_set ..] at h2; exact i.onto h1 h2
  done := by
    intro x b hx hb
    by_cases eb : b = n
    · subst eb
      have exa : x = a := i.inj hx ha
      subst exa
      have : GHeap.obj (t.1.set b fs) b = fs := by
        rw [GHeap.obj, List.getD_eq_getElem?_getD, List.getElem?_set_self (i.bounds hx).2.2]; rfl
      rw [this]; exact hf
    · have : GHeap.obj (t.1.set n fs) b = GHeap.obj t.1 b := GHeap.obj_eq (List.getElem?_set_ne (Ne.symm eb))
      rw [this]; exact i.done hx (fun ho => ho.elim hb eb)

theorem Spec.NoDangling.in_ {h : GHeap} (hd : NoDangling h) (a : Nat) : ∀ kv ∈ h.obj a, GV.In h.length kv.2 := by
  rintro ⟨k, v⟩ hkv
  cases v with
  | atom v => trivial
  | ref b => exact hd a k b hkv

theorem copyValue_ok {h0 : GHeap} (hd : NoDangling h0) :
    ∀ (fuel : Nat) {opn : Nat → Prop} (v : GV) (s : GHeap × Memo), v.In h0.length → CopyInv h0 opn s → Memo.missing h0.length s.2 ≤ fuel →
      ∃ t w, copyValue fuel v s = some (t, w) ∧ CopyInv h0 opn t ∧ CopyStep s t ∧ GV.Rel t.2.rel v w
  | fuel, opn, .atom v, s, _, hs, _ => ⟨s, .atom v, by cases fuel <;> simp only [copyValue], hs, .refl s, rfl⟩
  | fuel, opn, .ref a, s, ha, hs, hb => by
    cases e : Dict.get? s.2 a with
    | some b => exact ⟨s, .ref b, by cases fuel <;> simp only [copyValue, e], hs, .refl s, e⟩
    | none =>
      cases fuel with
      | zero => exact absurd (Memo.missing_cons 0 (show a < h0.length from ha) e) (by omega)
      | succ fuel =>
        have hlt := Memo.missing_cons s.1.length (show a < h0.length from ha) e
        obtain ⟨t, fs, et, ht, st, hf⟩ := copyFields_ok (fun v s hv hs hb => copyValue_ok hd fuel v s hv hs hb) (h0.obj a)
          (s.1 ++ [[]], (a, s.1.length) :: s.2) (hd.in_ a) (hs.open_ ha e) (by show Memo.missing _ ((a, s.1.length) :: s.2) ≤ fuel; omega)
        have ea : GHeap.obj s.1 a = h0.obj a := GHeap.obj_eq (hs.kept a ha)
        have em : t.2.get? a = some s.1.length := st.memo (by rw [Memo.get_cons, if_pos rfl])
        refine ⟨(t.1.set s.1.length fs, t.2), .ref s.1.length, ?_, ht.close hs.long em hf, ?_, em⟩
        · simp only [copyValue, e, ea, et]
        · have st' := (CopyStep.open_ e).trans st
          refine ⟨by simp only [List.length_set]; exact st'.long, ?_, st'.memo⟩
          intro x hx
          rw [List.getElem?_set_ne (by omega)]; exact st'.kept x hx

/-- What `copy.deepcopy(a)` does. -/
theorem deepCopy_ok {h : GHeap} {a : Nat} (hd : NoDangling h) (ha : a < h.length) :
    ∃ h' b R, deepCopy h a = some (h', b) ∧ Iso h h' R ∧ R a b ∧ h.length < h'.length ∧ (∀ x, x < h.length → h'[x]? = h[x]?) ∧
      NoDangling h' ∧ (∀ x y, R x y → x < h.length ∧ h.length ≤ y ∧ y < h'.length) ∧
      (∀ x k y, h.length ≤ x → (k, .ref y) ∈ h'.obj x → h.length ≤ y) := by
  have i0 : CopyInv h (fun _ => False) (h, []) :=
    ⟨Nat.le_refl _, fun _ _ => rfl, fun e => (by cases e), fun e => (by cases e), fun h1 h2 => absurd h2 (Nat.not_lt.mpr h1), fun e => (by cases e)⟩
  have hm : Memo.missing h.length [] ≤ h.length := by
    refine Nat.le_trans (List.length_filter_le _ _) ?_
    rw [List.length_range]; exact Nat.le_refl _
  obtain ⟨t, w, e, ht, st, hr⟩ := copyValue_ok hd h.length (.ref a) (h, []) ha i0 hm
  cases w with
  | atom v => exact hr.elim
  | ref b =>
    have hb := ht.bounds hr
    refine ⟨t.1, b, t.2.rel, ?_, ⟨?_, ?_, ?_⟩, hr, by omega, ht.kept, ?_, ?_, ?_⟩
    · simp only [deepCopy, e]
    · intro x y y' e e'; exact Option.some.inj (e.symm.trans e')
    · intro x x' y e e'; exact ht.inj e e'
    · intro x y e; exact ht.done e (fun h => h)
    · intro x k y hy
      by_cases hx : x < h.length
      · rw [show GHeap.obj t.1 x = GHeap.obj h x from GHeap.obj_eq (ht.kept x hx)] at hy
        exact Nat.lt_of_lt_of_le (hd x k y hy) ht.long
      · by_cases hx' : x < t.1.length
        · obtain ⟨z, hz⟩ := ht.onto (Nat.not_lt.mp hx) hx'
          obtain ⟨u, hu⟩ := (ht.done hz (fun h => h)).mem_ref hy
          exact (ht.bounds hu).2.2
        · rw [GHeap.obj_ge (Nat.not_lt.mp hx')] at hy; cases hy
    · intro x y e; exact ht.bounds e
    · intro x k y hx hy
      by_cases hx' : x < t.1.length
      · obtain ⟨z, hz⟩ := ht.onto hx hx'
        obtain ⟨u, hu⟩ := (ht.done hz (fun h => h)).mem_ref hy
        exact (ht.bounds hu).2.1
      · rw [GHeap.obj_ge (Nat.not_lt.mp hx')] at hy; cases hy

end Rebulk
