import Verif.Lemmas.Copies
/-!
# Lemmas for `C105`: the copies made by `crop` and `split`
-/
namespace Rebulk
open Spec

theorem FieldsRel.symm {R : Nat → Nat → Prop} : ∀ {f g : GObj}, FieldsRel R f g → FieldsRel (fun a b => R b a) g f
  | [], [], _ => trivial
  | (_, v) :: _, (_, w) :: _, h => by
    refine ⟨h.1.symm, ?_, FieldsRel.symm h.2.2⟩
    have a := h.2.1
    cases v <;> cases w <;> simp only [GV.Rel] at a ⊢
    · exact a.symm
    · exact a
  | [], _ :: _, h => h.elim
  | _ :: _, [], h => h.elim

theorem Iso.symm {h h' : GHeap} {R : Nat → Nat → Prop} (i : Iso h h' R) : Iso h' h (fun a b => R b a) where
  fun_ := fun r r' => i.inj r r'
  inj := fun r r' => i.fun_ r r'
  fields := fun r => (i.fields r).symm

theorem Iso.of_obj {h h' k : GHeap} {R : Nat → Nat → Prop} (i : Iso h k R) (e : ∀ x y, R x y → h'.obj x = h.obj x) : Iso h' k R where
  fun_ := i.fun_
  inj := i.inj
  fields := by intro a b r; rw [e a b r]; exact i.fields r

/-! ## What is reached -/

theorem Spec.Reaches.refl (h : GHeap) (a : Nat) : Reaches h a a := ⟨[], rfl⟩

theorem walk_snoc {h : GHeap} (k : String) : ∀ (p : List String) (v : GV) {x : Nat}, walk h v p = some (.ref x) →
    walk h v (p ++ [k]) = Dict.get? (h.obj x) k
  | [], v, x, e => by
    simp only [walk] at e; cases e
    simp only [List.nil_append, walk]
    cases Dict.get? (h.obj x) k <;> rfl
  | k' :: ks, .atom v, x, e => by cases e
  | k' :: ks, .ref a, x, e => by
    simp only [List.cons_append, walk] at e ⊢
    cases e' : Dict.get? (h.obj a) k' with
    | none => rw [e'] at e; cases e
    | some v => rw [e'] at e; exact walk_snoc k ks v e

theorem Spec.Reaches.step {h : GHeap} {a x y : Nat} {k : String} (r : Reaches h a x) (e : Dict.get? (h.obj x) k = some (.ref y)) :
    Reaches h a y := by
  obtain ⟨p, hp⟩ := r
  exact ⟨p ++ [k], by rw [walk_snoc k p _ hp, e]⟩

theorem walk_closed {h : GHeap} {S : Nat → Prop} (hS : ∀ x k y, S x → Dict.get? (h.obj x) k = some (.ref y) → S y) :
    ∀ (p : List String) {v : GV} {y : Nat}, (∀ a, v = .ref a → S a) → walk h v p = some (.ref y) → S y
  | [], v, y, hv, e => by simp only [walk] at e; cases e; exact hv y rfl
  | _ :: _, .atom _, _, _, e => by cases e
  | k :: ks, .ref a, y, hv, e => by
    simp only [walk] at e
    cases e' : Dict.get? (h.obj a) k with
    | none => rw [e'] at e; cases e
    | some v =>
      rw [e'] at e
      exact walk_closed hS ks (fun b hb => hS a k b (hv a rfl) (by rw [e', hb])) e

theorem Spec.Reaches.closed {h : GHeap} {S : Nat → Prop} (hS : ∀ x k y, S x → Dict.get? (h.obj x) k = some (.ref y) → S y) {a b : Nat}
    (ha : S a) (r : Reaches h a b) : S b := by
  obtain ⟨p, hp⟩ := r
  exact walk_closed hS p (fun x e => by cases e; exact ha) hp

theorem Dict.mem_of_get {ν : Type} {k : String} {v : ν} : ∀ {d : Dict String ν}, Dict.get? d k = some v → (k, v) ∈ d
  | [], e => by cases e
  | (k', v') :: r, e => by
    simp only [Dict.get?] at e
    by_cases c : (k' == k) = true
    · rw [if_pos c] at e; cases e
      rw [beq_iff_eq] at c; rw [c]; exact List.mem_cons_self ..
    · rw [if_neg c] at e; exact List.mem_cons_of_mem _ (Dict.mem_of_get e)

theorem Iso.restrict {h k : GHeap} {R : Nat → Nat → Prop} (i : Iso h k R) {S : Nat → Prop}
    (hS : ∀ x y z, S x → (y, GV.ref z) ∈ h.obj x → S z) : Iso h k (fun x y => R x y ∧ S x) where
  fun_ := fun r r' => i.fun_ r.1 r'.1
  inj := fun r r' => i.inj r.1 r'.1
  fields := by
    rintro a b ⟨r, s⟩
    have key : ∀ {f g : GObj}, FieldsRel R f g → (∀ y z, (y, GV.ref z) ∈ f → S z) → FieldsRel (fun x y => R x y ∧ S x) f g := by
      intro f
      induction f with
      | nil => intro g hf _; cases g with
        | nil => trivial
        | cons _ _ => exact hf.elim
      | cons kv f ih =>
        intro g hf hm
        cases g with
        | nil => exact hf.elim
        | cons kw g =>
          obtain ⟨k1, v⟩ := kv; obtain ⟨k2, w⟩ := kw
          refine ⟨hf.1, ?_, ih hf.2.2 (fun y z hz => hm y z (List.mem_cons_of_mem _ hz))⟩
          have := hf.2.1
          cases v <;> cases w <;> simp only [GV.Rel] at this ⊢
          · exact this
          · exact ⟨this, hm k1 _ (List.mem_cons_self ..)⟩
    exact key (i.fields r) (fun y z hz => hS a y z s hz)

/-- Reached through any entry, be it hidden by another one with the same key. -/
inductive Linked (h : GHeap) (a : Nat) : Nat → Prop where
  | refl : Linked h a a
  | step {x y k} : Linked h a x → (k, GV.ref y) ∈ h.obj x → Linked h a y

theorem Spec.Reaches.linked {h : GHeap} {a b : Nat} (r : Reaches h a b) : Linked h a b :=
  r.closed (S := Linked h a) (fun _ _ _ hx e => hx.step (Dict.mem_of_get e)) .refl

theorem Linked.closed {h : GHeap} {S : Nat → Prop} (hS : ∀ x k y, S x → (k, GV.ref y) ∈ h.obj x → S y) {a b : Nat} (ha : S a)
    (r : Linked h a b) : S b := by
  induction r with
  | refl => exact ha
  | step _ hm ih => exact hS _ _ _ ih hm

theorem Dict.mem_set_ref {k k' : String} {v : Val} {y : Nat} : ∀ {d : GObj}, (k, GV.ref y) ∈ Dict.set d k' (.atom v) → (k, GV.ref y) ∈ d
  | [], h => by simp [Dict.set] at h
  | (k1, w) :: r, h => by
    simp only [Dict.set] at h
    by_cases c : (k1 == k') = true
    · rw [if_pos c] at h
      rcases List.mem_cons.mp h with e | h
      · cases e
      · exact List.mem_cons_of_mem _ h
    · rw [if_neg c] at h
      rcases List.mem_cons.mp h with e | h
      · rw [e]; exact List.mem_cons_self ..
      · exact List.mem_cons_of_mem _ (Dict.mem_set_ref h)

theorem Dict.set_set {ν : Type} (k : String) (v w : ν) : ∀ (d : Dict String ν), Dict.set (Dict.set d k v) k w = Dict.set d k w
  | [] => by simp [Dict.set]
  | (k', u) :: r => by
    simp only [Dict.set]
    by_cases c : (k' == k) = true
    · rw [if_pos c, if_pos c, Dict.set, if_pos c]
    · rw [if_neg c, if_neg c, Dict.set, if_neg c, Dict.set_set k v w r]

theorem Dict.set_comm {ν : Type} {k l : String} (hkl : k ≠ l) (v w u : ν) : ∀ (d : Dict String ν),
    Dict.set (Dict.set (Dict.set d k v) l w) k u = Dict.set (Dict.set d k u) l w
  | [] => by
    have h1 : (k == l) = false := by rw [beq_eq_false_iff_ne]; exact hkl
    simp [Dict.set, h1]
  | (k', x) :: r => by
    have h1 : (k == l) = false := by rw [beq_eq_false_iff_ne]; exact hkl
    by_cases c : k' = k
    · subst c
      simp [Dict.set, h1]
    · have c1 : (k' == k) = false := by rw [beq_eq_false_iff_ne]; exact c
      by_cases d : k' = l
      · subst d
        simp [Dict.set, c1, Dict.set_set]
      · have d1 : (k' == l) = false := by rw [beq_eq_false_iff_ne]; exact d
        simp [Dict.set, c1, d1, Dict.set_comm hkl v w u r]

theorem Dict.get_set_self {ν : Type} (k : String) (v : ν) : ∀ (d : Dict String ν), Dict.get? (Dict.set d k v) k = some v
  | [] => by simp [Dict.set, Dict.get?]
  | (k', x) :: r => by
    simp only [Dict.set]
    by_cases c : (k' == k) = true
    · rw [if_pos c, Dict.get?, if_pos c]
    · rw [if_neg c, Dict.get?, if_neg c, Dict.get_set_self k v r]

theorem Dict.get_set_ne {ν : Type} {k l : String} (hkl : k ≠ l) (v : ν) : ∀ (d : Dict String ν), Dict.get? (Dict.set d k v) l = Dict.get? d l
  | [] => by simp [Dict.set, Dict.get?, hkl]
  | (k', x) :: r => by
    simp only [Dict.set]
    by_cases c : (k' == k) = true
    · rw [if_pos c, Dict.get?, Dict.get?]
      rw [beq_iff_eq] at c
      have : (k' == l) = false := by rw [beq_eq_false_iff_ne]; rw [c]; exact hkl
      rw [this]; rfl
    · rw [if_neg c, Dict.get?, Dict.get?, Dict.get_set_ne hkl v r]

/-! ## The copies -/

theorem withSpan_length (h : GHeap) (a : Nat) (sp : Int × Int) : (withSpan h a sp).length = h.length := by
  simp [withSpan, GHeap.setStart, GHeap.setEnd, GHeap.assign_length]

theorem withSpan_obj {h : GHeap} {a : Nat} (ha : a < h.length) (sp : Int × Int) :
    (withSpan h a sp).obj a = Dict.set (Dict.set (h.obj a) "start" (.atom (.int sp.1))) "end" (.atom (.int sp.2)) := by
  rw [withSpan, GHeap.setEnd, GHeap.assign_obj_eq _ _ _ (by rw [GHeap.setStart, GHeap.assign_length]; exact ha), GHeap.setStart,
    GHeap.assign_obj_eq _ _ _ ha]

theorem withSpan_span {h : GHeap} {a : Nat} (ha : a < h.length) (sp : Int × Int) :
    Dict.get? ((withSpan h a sp).obj a) "start" = some (.atom (.int sp.1)) ∧ Dict.get? ((withSpan h a sp).obj a) "end" = some (.atom (.int sp.2)) := by
  rw [withSpan_obj ha]
  refine ⟨?_, Dict.get_set_self ..⟩
  rw [Dict.get_set_ne (by decide), Dict.get_set_self]

theorem GHeap.set_set (h : GHeap) (a : Nat) (x y : GObj) : (h.set a x).set a y = h.set a y := by simp

theorem withSpan_setEnd {h : GHeap} {a : Nat} (ha : a < h.length) (sp : Int × Int) (v : Int) :
    (withSpan h a sp).setEnd a v = withSpan h a (sp.1, v) := by
  have e1 := withSpan_obj ha sp
  rw [GHeap.setEnd, GHeap.assign, e1, Dict.set_set]
  simp only [withSpan, GHeap.setEnd, GHeap.setStart]
  rw [GHeap.assign, GHeap.set_set, GHeap.assign.eq_def (h.assign a _ _), GHeap.assign_obj_eq _ _ _ ha]

theorem withSpan_setStart {h : GHeap} {a : Nat} (ha : a < h.length) (sp : Int × Int) (v : Int) :
    (withSpan h a sp).setStart a v = withSpan h a (v, sp.2) := by
  have e1 := withSpan_obj ha sp
  rw [GHeap.setStart, GHeap.assign, e1, Dict.set_comm (by decide)]
  simp only [withSpan, GHeap.setEnd, GHeap.setStart]
  simp only [GHeap.assign, GHeap.set_set]
  congr 1
  congr 1
  exact (GHeap.assign_obj_eq h "start" (.atom (.int v)) ha).symm

theorem Dict.set_get_self {k : String} {v : GV} : ∀ {d : GObj}, Dict.get? d k = some v → Dict.set d k v = d
  | [], e => by cases e
  | (k', x) :: r, e => by
    simp only [Dict.get?] at e
    simp only [Dict.set]
    by_cases c : (k' == k) = true
    · rw [if_pos c] at e ⊢; cases e; rfl
    · rw [if_neg c] at e ⊢; rw [Dict.set_get_self e]

theorem GHeap.set_obj (h : GHeap) (a : Nat) : h.set a (h.obj a) = h := by
  apply List.ext_getElem?
  intro x
  by_cases e : a = x
  · subst e
    by_cases ha : a < h.length
    · rw [List.getElem?_set_self ha, GHeap.obj_lt ha]
    · rw [List.getElem?_eq_none (by rw [List.length_set]; omega), List.getElem?_eq_none (by omega)]
  · rw [List.getElem?_set_ne e]

theorem withSpan_self {h : GHeap} {a : Nat} {sp : Int × Int} (hs : HasSpan h a sp) : withSpan h a sp = h := by
  have e1 : h.assign a "start" (.atom (.int sp.1)) = h := by
    rw [GHeap.assign, Dict.set_get_self hs.starts, GHeap.set_obj]
  have e2 : h.assign a "end" (.atom (.int sp.2)) = h := by
    rw [GHeap.assign, Dict.set_get_self hs.ends, GHeap.set_obj]
  rw [withSpan, GHeap.setStart, e1, GHeap.setEnd, e2]

/-- The copies made so far: copy number `o` of the model of spans is the object `f o`. -/
structure Copies (h0 : GHeap) (a : Nat) (h : GHeap) (sh : SpanHeap) (f : Nat → Nat) : Prop where
  here : a < h0.length
  solid : NoDangling h
  long : h0.length ≤ h.length
  kept : ∀ x, x < h0.length → h[x]? = h0[x]?
  piece : ∀ o, o < sh.next → ∃ R, Iso h (withSpan h0 a (sh.span o)) R ∧ R (f o) a ∧ (∀ x y, R x y → x < h.length)
  fresh : ∀ o, o < sh.next → ∀ x, Linked h (f o) x → h0.length ≤ x
  apart : ∀ o o', o < sh.next → o' < sh.next → o ≠ o' → ∀ x, Linked h (f o) x → ¬ Linked h (f o') x

theorem Copies.lt {h0 : GHeap} {a : Nat} {h : GHeap} {sh : SpanHeap} {f : Nat → Nat} (c : Copies h0 a h sh f) {o : Nat} (ho : o < sh.next) :
    f o < h.length := by
  obtain ⟨R, _, r, b⟩ := c.piece o ho
  exact b _ _ r

theorem Copies.linked_lt {h0 : GHeap} {a : Nat} {h : GHeap} {sh : SpanHeap} {f : Nat → Nat} (c : Copies h0 a h sh f) {o x : Nat}
    (ho : o < sh.next) (r : Linked h (f o) x) : x < h.length :=
  r.closed (S := fun x => x < h.length) (fun x k y _ hm => c.solid x k y hm) (c.lt ho)

theorem Copies.span {h0 : GHeap} {a : Nat} {h : GHeap} {sh : SpanHeap} {f : Nat → Nat} (c : Copies h0 a h sh f) {o : Nat} (ho : o < sh.next) :
    h.span (f o) = sh.span o := by
  obtain ⟨R, i, r, _⟩ := c.piece o ho
  obtain ⟨e1, e2⟩ := withSpan_span c.here (sh.span o)
  have key : ∀ k (n : Int), Dict.get? ((withSpan h0 a (sh.span o)).obj a) k = some (.atom (.int n)) → h.int? (f o) k = some n := by
    intro k n e
    rcases (i.fields r).get k with ⟨_, e'⟩ | ⟨v, w, ev, ew, hr⟩
    · rw [e'] at e; cases e
    · rw [ew] at e; cases e
      cases v with
      | atom v => rw [GHeap.int?, ev]; simp only [GV.Rel] at hr; rw [hr]
      | ref b => exact hr.elim
  rw [GHeap.span, key _ _ e1, key _ _ e2]; rfl

theorem Copies.assign {h0 : GHeap} {a : Nat} {h : GHeap} {sh : SpanHeap} {f : Nat → Nat} (c : Copies h0 a h sh f) {o : Nat} (ho : o < sh.next)
    (k : String) (v : Int) (sp : Int × Int) (hsp : (withSpan h0 a (sh.span o)).assign a k (.atom (.int v)) = withSpan h0 a sp) :
    Copies h0 a (h.assign (f o) k (.atom (.int v))) { sh with span := fun i => if i = o then sp else sh.span i } f := by
  have edge : ∀ x l y, (l, GV.ref y) ∈ (h.assign (f o) k (.atom (.int v))).obj x → (l, GV.ref y) ∈ h.obj x := by
    intro x l y hm
    by_cases e : x = f o
    · subst e
      rw [GHeap.assign_obj_eq _ _ _ (c.lt ho)] at hm
      exact Dict.mem_set_ref hm
    · rw [GHeap.assign_obj_ne _ _ _ e] at hm; exact hm
  have shrink : ∀ p x, Linked (h.assign (f o) k (.atom (.int v))) p x → Linked h p x := by
    intro p x r
    exact r.closed (S := Linked h p) (fun x l y hx hm => hx.step (edge x l y hm)) .refl
  refine ⟨c.here, ?_, ?_, ?_, ?_, ?_, ?_⟩
  · intro x l y hm
    rw [GHeap.assign_length]; exact c.solid x l y (edge x l y hm)
  · rw [GHeap.assign_length]; exact c.long
  · intro x hx
    have := c.fresh o ho (f o) .refl
    rw [GHeap.assign, List.getElem?_set_ne (by omega)]; exact c.kept x hx
  · intro o' ho'
    by_cases e : o' = o
    · subst e
      obtain ⟨R, i, r, b⟩ := c.piece o' ho
      refine ⟨R, ?_, r, fun x y hxy => by rw [GHeap.assign_length]; exact b x y hxy⟩
      show Iso _ (withSpan h0 a (if o' = o' then sp else sh.span o')) R
      rw [if_pos rfl, ← hsp]
      exact i.assign r (c.lt ho) (by rw [withSpan_length]; exact c.here) k rfl
    · obtain ⟨R, i, r, b⟩ := c.piece o' ho'
      refine ⟨fun x y => R x y ∧ Linked h (f o') x, ?_, ⟨r, .refl⟩, fun x y hxy => by rw [GHeap.assign_length]; exact b x y hxy.1⟩
      show Iso _ (withSpan h0 a (if o' = o then sp else sh.span o')) _
      rw [if_neg e]
      refine (i.restrict (fun x l y hx hm => hx.step hm)).of_obj ?_
      intro x y hxy
      refine GHeap.assign_obj_ne _ _ _ ?_
      intro ex; subst ex
      exact c.apart o o' ho ho' (fun ee => e ee.symm) (f o) .refl hxy.2
  · intro o' ho' x r; exact c.fresh o' ho' x (shrink _ _ r)
  · intro o1 o2 h1 h2 hne x r1 r2; exact c.apart o1 o2 h1 h2 hne x (shrink _ _ r1) (shrink _ _ r2)

theorem Copies.setEnd {h0 : GHeap} {a : Nat} {h : GHeap} {sh : SpanHeap} {f : Nat → Nat} (c : Copies h0 a h sh f) {o : Nat} (ho : o < sh.next)
    (v : Int) : Copies h0 a (h.setEnd (f o) v) (sh.setEnd o v) f :=
  c.assign ho "end" v _ (withSpan_setEnd c.here (sh.span o) v)

theorem Copies.setStart {h0 : GHeap} {a : Nat} {h : GHeap} {sh : SpanHeap} {f : Nat → Nat} (c : Copies h0 a h sh f) {o : Nat} (ho : o < sh.next)
    (v : Int) : Copies h0 a (h.setStart (f o) v) (sh.setStart o v) f :=
  c.assign ho "start" v _ (withSpan_setStart c.here (sh.span o) v)

/-- A copy of one of the copies. -/
theorem Copies.copy {h0 : GHeap} {a : Nat} {h : GHeap} {sh : SpanHeap} {f : Nat → Nat} (c : Copies h0 a h sh f) {o : Nat} (ho : o < sh.next) :
    ∃ h' b, deepCopy h (f o) = some (h', b) ∧ Copies h0 a h' (sh.alloc (sh.span o)).1 (fun i => if i = sh.next then b else f i) := by
  obtain ⟨h', b, R, e, i, r, hl, hk, hd, hb, hnew⟩ := deepCopy_ok c.solid (c.lt ho)
  refine ⟨h', b, e, c.here, hd, by have := c.long; omega, ?_, ?_, ?_, ?_⟩
  · intro x hx
    have := c.long
    rw [hk x (by omega)]; exact c.kept x hx
  all_goals
    have low : ∀ o', o' < sh.next → ∀ x, Linked h' (f o') x → x < h.length ∧ Linked h (f o') x := by
      intro o' ho' x r
      refine r.closed (S := fun x => x < h.length ∧ Linked h (f o') x) ?_ ⟨c.lt ho', .refl⟩
      intro x l y hx hm
      rw [GHeap.obj_eq (hk x hx.1)] at hm
      exact ⟨c.solid x l y hm, hx.2.step hm⟩
    have high : ∀ x, Linked h' b x → h.length ≤ x := by
      intro x r'
      exact r'.closed (S := fun x => h.length ≤ x) (fun x l y hx hm => hnew x l y hx hm) (hb _ _ r).2.1
  · intro o' ho'
    by_cases e' : o' = sh.next
    · subst e'
      obtain ⟨S, j, s, sb⟩ := c.piece o ho
      refine ⟨fun x z => ∃ y, R y x ∧ S y z, ?_, ?_, ?_⟩
      · show Iso h' (withSpan h0 a (if sh.next = sh.next then sh.span o else sh.span sh.next)) (fun x z => ∃ y, R y x ∧ S y z)
        rw [if_pos rfl]; exact i.symm.comp j
      · show ∃ y, R y (if sh.next = sh.next then b else f sh.next) ∧ S y a
        rw [if_pos rfl]; exact ⟨f o, r, s⟩
      · rintro x z ⟨y, hy, _⟩; exact (hb _ _ hy).2.2
    · have ho'' : o' < sh.next := by
        have : o' < sh.next + 1 := ho'
        omega
      obtain ⟨S, j, s, sb⟩ := c.piece o' ho''
      refine ⟨S, ?_, ?_, fun x y hxy => Nat.lt_trans (sb x y hxy) hl⟩
      · show Iso h' (withSpan h0 a (if o' = sh.next then sh.span o else sh.span o')) S
        rw [if_neg e']
        exact j.of_obj (fun x y hxy => GHeap.obj_eq (hk x (sb x y hxy)))
      · show S (if o' = sh.next then b else f o') a
        rw [if_neg e']; exact s
  · intro o' ho' x r'
    have := c.long
    by_cases e' : o' = sh.next
    · simp only [if_pos e'] at r'
      have := high x r'; omega
    · simp only [if_neg e'] at r'
      have ho'' : o' < sh.next := by
        have : o' < sh.next + 1 := ho'
        omega
      exact c.fresh o' ho'' x (low o' ho'' x r').2
  · intro o1 o2 h1 h2 hne x r1 r2
    have h1 : o1 < sh.next + 1 := h1
    have h2 : o2 < sh.next + 1 := h2
    by_cases e1 : o1 = sh.next <;> by_cases e2 : o2 = sh.next
    · omega
    · simp only [if_pos e1] at r1; simp only [if_neg e2] at r2
      have := high x r1; have := (low o2 (by omega) x r2).1; omega
    · simp only [if_neg e1] at r1; simp only [if_pos e2] at r2
      have := high x r2; have := (low o1 (by omega) x r1).1; omega
    · simp only [if_neg e1] at r1; simp only [if_neg e2] at r2
      exact c.apart o1 o2 (by omega) (by omega) hne x (low o1 (by omega) x r1).2 (low o2 (by omega) x r2).2

/-- The first copy. -/
theorem Copies.first {h : GHeap} {a : Nat} {sp : Int × Int} (hd : NoDangling h) (hs : HasSpan h a sp) :
    ∃ h' b, deepCopy h a = some (h', b) ∧ Copies h a h' (SpanHeap.alloc ⟨fun _ => (0, 0), 0⟩ sp).1 (fun _ => b) := by
  obtain ⟨h', b, R, e, i, r, hl, hk, hd', hb, hnew⟩ := deepCopy_ok hd hs.here
  refine ⟨h', b, e, hs.here, hd', Nat.le_of_lt hl, hk, ?_, ?_, ?_⟩
  · intro o ho
    have ho : o < 0 + 1 := ho
    have : o = 0 := by omega
    subst this
    refine ⟨fun x y => R y x, ?_, r, fun x y hxy => (hb _ _ hxy).2.2⟩
    show Iso h' (withSpan h a (if (0 : Nat) = 0 then sp else (0, 0))) _
    rw [if_pos rfl, withSpan_self hs]; exact i.symm
  · intro o _ x r'
    exact r'.closed (S := fun x => h.length ≤ x) (fun x l y hx hm => hnew x l y hx hm) (hb _ _ r).2.1
  · intro o1 o2 h1 h2 hne
    have h1 : o1 < 0 + 1 := h1
    have h2 : o2 < 0 + 1 := h2
    omega

end Rebulk
