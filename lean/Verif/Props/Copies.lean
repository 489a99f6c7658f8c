import Verif.Lemmas.CopiesCrop
/-!
# C105: the pieces returned by `crop` and `split` are copies of their own
-/
namespace Rebulk
open Spec

/-! ## `crop` on objects and on spans -/

/-- What the two computations have in common. -/
structure CropSim (h0 : GHeap) (a : Nat) (h : GHeap) (sh : SpanHeap) (f : Nat → Nat) (ret : List Nat) : Prop where
  copies : Copies h0 a h sh f
  known : ∀ o ∈ ret, o < sh.next
  once : ret.Nodup

/-- The outcome of the computation on objects, given the one on spans; `f` names the copies made before. -/
def CropOk (h0 : GHeap) (a : Nat) (sh : SpanHeap) (f : Nat → Nat) (x : Except PyErr (SpanHeap × List Nat)) (y : Except PyErr (GHeap × List Nat)) : Prop :=
  match x with
  | .error e => y = .error e
  | .ok (sh', ret') => ∃ h' f', y = .ok (h', ret'.map f') ∧ CropSim h0 a h' sh' f' ret' ∧ sh.next ≤ sh'.next ∧ ∀ o, o < sh.next → f' o = f o

theorem removeFirst_mem {α : Type} {eq : α → Bool} : ∀ {l r : List α}, removeFirst eq l = some r → ∀ x ∈ r, x ∈ l
  | [], _, e => by cases e
  | y :: l, r, e => by
    simp only [removeFirst] at e
    intro x hx
    by_cases c : eq y = true
    · rw [if_pos c] at e; cases e; exact List.mem_cons_of_mem _ hx
    · rw [if_neg c] at e
      cases e' : removeFirst eq l with
      | none => rw [e'] at e; cases e
      | some r' =>
        rw [e'] at e; cases e
        rcases List.mem_cons.mp hx with rfl | hx
        · exact List.mem_cons_self ..
        · exact List.mem_cons_of_mem _ (removeFirst_mem e' x hx)

theorem removeFirst_nodup {α : Type} {eq : α → Bool} : ∀ {l r : List α}, removeFirst eq l = some r → l.Nodup → r.Nodup
  | [], _, e, _ => by cases e
  | y :: l, r, e, hn => by
    simp only [removeFirst] at e
    have hn' := List.nodup_cons.mp hn
    by_cases c : eq y = true
    · rw [if_pos c] at e; cases e; exact hn'.2
    · rw [if_neg c] at e
      cases e' : removeFirst eq l with
      | none => rw [e'] at e; cases e
      | some r' =>
        rw [e'] at e; cases e
        exact List.nodup_cons.mpr ⟨fun hm => hn'.1 (removeFirst_mem e' _ hm), removeFirst_nodup e' hn'.2⟩

theorem removeFirst_map_of {α β : Type} {p : α → Bool} {q : β → Bool} {f : α → β} : ∀ {l : List α}, (∀ x ∈ l, q (f x) = p x) →
    removeFirst q (l.map f) = (removeFirst p l).map (List.map f)
  | [], _ => rfl
  | x :: l, h => by
    simp only [List.map_cons, removeFirst, h x (List.mem_cons_self ..)]
    by_cases c : p x = true
    · rw [if_pos c, if_pos c]; rfl
    · rw [if_neg c, if_neg c, removeFirst_map_of (fun y hy => h y (List.mem_cons_of_mem _ hy))]
      cases removeFirst p l <;> rfl

theorem CropSim.remove {h0 : GHeap} {a : Nat} {h : GHeap} {sh : SpanHeap} {f : Nat → Nat} {ret : List Nat} (c : CropSim h0 a h sh f ret)
    {o : Nat} (ho : o < sh.next) :
    match cropRemove sh ret o with
    | .error e => cropRemoveG h (ret.map f) (f o) = .error e
    | .ok r => cropRemoveG h (ret.map f) (f o) = .ok (r.map f) ∧ CropSim h0 a h sh f r := by
  have key := removeFirst_map_of (p := fun j => decide (sh.span j = sh.span o)) (q := fun j => decide (h.span j = h.span (f o))) (f := f) (l := ret)
    (fun x hx => by rw [c.copies.span (c.known x hx), c.copies.span ho])
  simp only [cropRemove, cropRemoveG, key]
  cases e : removeFirst (fun j => decide (sh.span j = sh.span o)) ret with
  | none => rfl
  | some r => exact ⟨rfl, c.copies, fun x hx => c.known x (removeFirst_mem e x hx), removeFirst_nodup e c.once⟩

theorem Copies.truthy {h0 : GHeap} {a : Nat} {h : GHeap} {sh : SpanHeap} {f : Nat → Nat} (c : Copies h0 a h sh f) {o : Nat} (ho : o < sh.next) :
    h.truthy (f o) = sh.truthy o := by
  rw [GHeap.truthy, SpanHeap.truthy, c.span ho]

theorem cropOne_sim {h0 : GHeap} {a : Nat} {h : GHeap} {sh : SpanHeap} {f : Nat → Nat} {ret : List Nat} (c : CropSim h0 a h sh f ret)
    (start stop : Int) {cur : Nat} (hc : cur < sh.next) :
    CropOk h0 a sh f (cropOne start stop sh ret cur) (cropOneG start stop h (ret.map f) (f cur)) := by
  have keep : ∀ {h' : GHeap} {sh' : SpanHeap}, Copies h0 a h' sh' f → sh'.next = sh.next →
      CropOk h0 a sh f (.ok (sh', ret)) (.ok (h', ret.map f)) := by
    intro h' sh' hs' en
    exact ⟨h', f, rfl, ⟨hs', fun o ho => by rw [en]; exact c.known o ho, c.once⟩, by rw [en]; exact Nat.le_refl _, fun o _ => rfl⟩
  simp only [cropOne, cropOneG, c.copies.span hc]
  by_cases c1 : start ≤ (sh.span cur).1 ∧ stop ≥ (sh.span cur).2
  · rw [if_pos c1, if_pos c1]
    have hr := c.remove hc
    cases e : cropRemove sh ret cur with
    | error x => rw [e] at hr; rw [hr]; rfl
    | ok r => rw [e] at hr; rw [hr.1]; exact ⟨h, f, rfl, hr.2, Nat.le_refl _, fun o _ => rfl⟩
  · rw [if_neg c1, if_neg c1]
    by_cases c2 : start ≥ (sh.span cur).1 ∧ stop ≤ (sh.span cur).2
    · rw [if_pos c2, if_pos c2]
      obtain ⟨h1, b, eb, k1⟩ := c.copies.copy hc
      have enx : (sh.alloc (sh.span cur)).1.next = sh.next + 1 := rfl
      have ef : (if cur = sh.next then b else f cur) = f cur := if_neg (by omega)
      have eb' : (if sh.next = sh.next then b else f sh.next) = b := if_pos rfl
      have emap : ret.map (fun i => if i = sh.next then b else f i) = ret.map f :=
        List.map_congr_left (fun x hx => if_neg (by have := c.known x hx; omega))
      have k2 := k1.setEnd (o := cur) (by rw [enx]; omega) start
      simp only [ef] at k2
      have s2 : CropSim h0 a (h1.setEnd (f cur) start) ((sh.alloc (sh.span cur)).1.setEnd cur start) (fun i => if i = sh.next then b else f i) ret :=
        ⟨k2, fun o ho => Nat.lt_succ_of_lt (c.known o ho), c.once⟩
      have hcur : cur < ((sh.alloc (sh.span cur)).1.setEnd cur start).next := Nat.lt_succ_of_lt hc
      have t2 := k2.truthy hcur
      simp only [ef] at t2
      simp only [eb, t2]
      show CropOk h0 a sh f (match ((sh.alloc (sh.span cur)).1.setEnd cur start).truthy cur with | .error e => .error e | .ok t => _) _
      cases et : ((sh.alloc (sh.span cur)).1.setEnd cur start).truthy cur with
      | error x => rfl
      | ok t =>
        have rest : ∀ (r : List Nat), CropSim h0 a (h1.setEnd (f cur) start) ((sh.alloc (sh.span cur)).1.setEnd cur start)
            (fun i => if i = sh.next then b else f i) r → (∀ o ∈ r, o < sh.next) →
            CropOk h0 a sh f
              (match (((sh.alloc (sh.span cur)).1.setEnd cur start).setStart sh.next stop).truthy sh.next with
                | .error e => .error e
                | .ok t => .ok (((sh.alloc (sh.span cur)).1.setEnd cur start).setStart sh.next stop, if t then r ++ [sh.next] else r))
              (match ((h1.setEnd (f cur) start).setStart b stop).truthy b with
                | .error e => .error e
                | .ok t => .ok ((h1.setEnd (f cur) start).setStart b stop, if t then r.map f ++ [b] else r.map f)) := by
          intro r sr hr
          have hnx : sh.next < ((sh.alloc (sh.span cur)).1.setEnd cur start).next := Nat.lt_succ_self _
          have k3 := sr.copies.setStart (o := sh.next) hnx stop
          rw [eb'] at k3
          have t3 := k3.truthy (o := sh.next) hnx
          rw [eb'] at t3
          rw [t3]
          have er : r.map (fun i => if i = sh.next then b else f i) = r.map f :=
            List.map_congr_left (fun x hx => if_neg (by have := hr x hx; omega))
          cases et' : (((sh.alloc (sh.span cur)).1.setEnd cur start).setStart sh.next stop).truthy sh.next with
          | error x => rfl
          | ok t' =>
            refine ⟨_, fun i => if i = sh.next then b else f i, ?_, ⟨k3, ?_, ?_⟩, Nat.le_succ _, fun o ho => if_neg (by omega)⟩
            · cases t' with
              | false => simp only [Bool.false_eq_true, if_false]; rw [er]
              | true => simp only [if_true]; rw [List.map_append, er]; simp
            · intro o ho
              show o < sh.next + 1
              cases t' with
              | false => simp only [Bool.false_eq_true, if_false] at ho; have := hr o ho; omega
              | true =>
                simp only [if_true] at ho
                rcases List.mem_append.mp ho with ho | ho
                · have := hr o ho; omega
                · rw [List.mem_singleton.mp ho]; omega
            · cases t' with
              | false => simp only [Bool.false_eq_true, if_false]; exact sr.once
              | true =>
                simp only [if_true]
                rw [List.nodup_append]
                refine ⟨sr.once, by simp, ?_⟩
                intro x hx y hy e
                rw [List.mem_singleton.mp hy] at e
                have := hr x hx; omega
        cases t with
        | true =>
          simp only [if_true]
          exact rest ret s2 c.known
        | false =>
          simp only [Bool.false_eq_true, if_false]
          have hr := s2.remove hcur
          simp only [ef, emap] at hr
          cases e : cropRemove ((sh.alloc (sh.span cur)).1.setEnd cur start) ret cur with
          | error x => rw [e] at hr; simp only [hr]; rfl
          | ok r =>
            rw [e] at hr
            have hmem : ∀ o ∈ r, o < sh.next := by
              intro o ho
              simp only [cropRemove] at e
              cases e' : removeFirst (fun j => decide (((sh.alloc (sh.span cur)).1.setEnd cur start).span j =
                ((sh.alloc (sh.span cur)).1.setEnd cur start).span cur)) ret with
              | none => rw [e'] at e; cases e
              | some r' => rw [e'] at e; cases e; exact c.known o (removeFirst_mem e' o ho)
            have er : r.map (fun i => if i = sh.next then b else f i) = r.map f :=
              List.map_congr_left (fun x hx => if_neg (by have := hmem x hx; omega))
            have hr1 := hr.1
            rw [er] at hr1
            simp only [hr1]
            exact rest r hr.2 hmem
    · rw [if_neg c2, if_neg c2]
      by_cases c3 : (sh.span cur).2 ≥ stop ∧ stop > (sh.span cur).1
      · rw [if_pos c3, if_pos c3]
        exact keep (c.copies.setStart hc stop) rfl
      · rw [if_neg c3, if_neg c3]
        by_cases c4 : (sh.span cur).1 ≤ start ∧ start < (sh.span cur).2
        · rw [if_pos c4, if_pos c4]
          exact keep (c.copies.setEnd hc start) rfl
        · rw [if_neg c4, if_neg c4]
          exact keep c.copies rfl

theorem cropInner_sim {h0 : GHeap} {a : Nat} (start stop : Int) : ∀ (cs : List Nat) {h : GHeap} {sh : SpanHeap} {f : Nat → Nat} {ret : List Nat},
    CropSim h0 a h sh f ret → (∀ o ∈ cs, o < sh.next) →
    CropOk h0 a sh f (cropInner start stop cs sh ret) (cropInnerG start stop (cs.map f) h (ret.map f))
  | [], h, sh, f, ret, c, _ => ⟨h, f, rfl, c, Nat.le_refl _, fun _ _ => rfl⟩
  | x :: cs, h, sh, f, ret, c, hcs => by
    have h1 := cropOne_sim c start stop (hcs x (List.mem_cons_self ..))
    simp only [List.map_cons, cropInner, cropInnerG]
    cases e : cropOne start stop sh ret x with
    | error x => rw [e] at h1; rw [show cropOneG start stop h (ret.map f) (f _) = _ from h1]; rfl
    | ok p =>
      rw [e] at h1
      obtain ⟨h', f', e', s', hle, hf⟩ := h1
      rw [e']
      have em : cs.map f' = cs.map f := List.map_congr_left (fun y hy => hf y (hcs y (List.mem_cons_of_mem _ hy)))
      have h2 := cropInner_sim start stop cs s' (fun o ho => Nat.lt_of_lt_of_le (hcs o (List.mem_cons_of_mem _ ho)) hle)
      rw [em] at h2
      show CropOk h0 a sh f (cropInner start stop cs p.1 p.2) (cropInnerG start stop (cs.map f) h' (p.2.map f'))
      cases e2 : cropInner start stop cs p.1 p.2 with
      | error x => rw [e2] at h2; exact h2
      | ok q =>
        rw [e2] at h2
        obtain ⟨h'', f'', e'', s'', hle', hf'⟩ := h2
        exact ⟨h'', f'', e'', s'', Nat.le_trans hle hle', fun o ho => (hf' o (Nat.lt_of_lt_of_le ho hle)).trans (hf o ho)⟩

theorem cropOuter_sim {h0 : GHeap} {a : Nat} : ∀ (crops : List (Int × Int)) {h : GHeap} {sh : SpanHeap} {f : Nat → Nat} {ret : List Nat},
    CropSim h0 a h sh f ret → CropOk h0 a sh f (cropOuter crops sh ret) (cropOuterG crops h (ret.map f))
  | [], h, sh, f, ret, c => ⟨h, f, rfl, c, Nat.le_refl _, fun _ _ => rfl⟩
  | x :: cs, h, sh, f, ret, c => by
    have h1 := cropInner_sim x.1 x.2 ret c c.known
    simp only [cropOuter, cropOuterG]
    cases e : cropInner x.1 x.2 ret sh ret with
    | error y => rw [e] at h1; rw [show cropInnerG x.1 x.2 (ret.map f) h (ret.map f) = _ from h1]; rfl
    | ok p =>
      rw [e] at h1
      obtain ⟨h', f', e', s', hle, hf⟩ := h1
      rw [e']
      have h2 := cropOuter_sim cs s'
      show CropOk h0 a sh f (cropOuter cs p.1 p.2) (cropOuterG cs h' (p.2.map f'))
      cases e2 : cropOuter cs p.1 p.2 with
      | error y => rw [e2] at h2; exact h2
      | ok q =>
        rw [e2] at h2
        obtain ⟨h'', f'', e'', s'', hle', hf'⟩ := h2
        exact ⟨h'', f'', e'', s'', Nat.le_trans hle hle', fun o ho => (hf' o (Nat.lt_of_lt_of_le ho hle)).trans (hf o ho)⟩

theorem CropSim.own {h0 : GHeap} {a : Nat} {h : GHeap} {sh : SpanHeap} {f : Nat → Nat} {ret : List Nat} (c : CropSim h0 a h sh f ret) :
    OwnCopies h0 a h (ret.map f) (ret.map sh.span) where
  kept := c.copies.kept
  many := by rw [List.length_map, List.length_map]
  looks := by
    intro i p sp hp hsp
    rw [List.getElem?_map] at hp hsp
    cases e : ret[i]? with
    | none => rw [e] at hp; cases hp
    | some o =>
      rw [e] at hp hsp; cases hp; cases hsp
      obtain ⟨R, j, r, _⟩ := c.copies.piece o (c.known o (List.mem_of_getElem? e))
      exact j.looksLike r
  fresh := by
    intro p hp x r
    obtain ⟨o, ho, rfl⟩ := List.mem_map.mp hp
    exact c.copies.fresh o (c.known o ho) x r.linked
  apart := by
    intro i j p q hij hp hq x r r'
    rw [List.getElem?_map] at hp hq
    cases ep : ret[i]? with
    | none => rw [ep] at hp; cases hp
    | some o =>
      cases eq : ret[j]? with
      | none => rw [eq] at hq; cases hq
      | some o' =>
        rw [ep] at hp; rw [eq] at hq; cases hp; cases hq
        refine c.copies.apart o o' (c.known o (List.mem_of_getElem? ep)) (c.known o' (List.mem_of_getElem? eq)) ?_ x r.linked r'.linked
        intro e; subst e
        obtain ⟨hi, ei⟩ := List.getElem?_eq_some_iff.mp ep
        obtain ⟨hj, ej⟩ := List.getElem?_eq_some_iff.mp eq
        exact hij ((List.getElem_inj c.once).mp (ei.trans ej.symm))

/-! ## `split` on objects and on spans -/

/-- What the two computations have in common. -/
structure SplitSim (h0 : GHeap) (a : Nat) (s : SplitSt) (t : SplitStG) (f : Nat → Nat) : Prop where
  sim : CropSim h0 a t.heap s.heap f s.ret
  current : s.current < s.heap.next
  current' : t.current = f s.current
  split : ∀ o, s.split = some o → o < s.heap.next ∧ o ∉ s.ret
  split' : t.split = s.split.map f
  ret' : t.ret = s.ret.map f

/-- The outcome of the computation on objects, given the one on spans. -/
def SplitOk (h0 : GHeap) (a : Nat) (x : Except PyErr SplitSt) (y : Except PyErr SplitStG) : Prop :=
  match x with
  | .error e => y = .error e
  | .ok s => ∃ t f, y = .ok t ∧ SplitSim h0 a s t f

theorem SplitSim.truthy {h0 : GHeap} {a : Nat} {s : SplitSt} {t : SplitStG} {f : Nat → Nat} (c : SplitSim h0 a s t f) :
    t.splitTruthy = s.splitTruthy := by
  rw [SplitStG.splitTruthy, SplitSt.splitTruthy, c.split']
  cases e : s.split with
  | none => rfl
  | some o => exact c.sim.copies.truthy (c.split o e).1

theorem splitStep_sim {h0 : GHeap} {a : Nat} {s : SplitSt} {t : SplitStG} {f : Nat → Nat} (c : SplitSim h0 a s t f) (start : Int) (seps : Str)
    (i : Nat) (ch : Char) : SplitOk h0 a (splitStep start seps s i ch) (splitStepG start seps t i ch) := by
  simp only [splitStep, splitStepG, c.truthy]
  cases e : s.splitTruthy with
  | error x => rfl
  | ok b =>
    simp only
    by_cases hsep : seps.contains ch = true
    · rw [if_pos hsep, if_pos hsep]
      cases b with
      | true => exact ⟨t, f, rfl, c⟩
      | false =>
        simp only [Bool.false_eq_true, if_false]
        obtain ⟨h1, b, eb, k1⟩ := c.sim.copies.copy c.current
        have hcur := c.current
        have ef : (if s.current = s.heap.next then b else f s.current) = f s.current := if_neg (by omega)
        have k2 := k1.setEnd (o := s.current) (Nat.lt_succ_of_lt hcur) (start + i)
        rw [ef] at k2
        rw [c.current', eb]
        refine ⟨_, fun i => if i = s.heap.next then b else f i, rfl, ⟨k2, fun o ho => Nat.lt_succ_of_lt (c.sim.known o ho), c.sim.once⟩,
          Nat.lt_succ_of_lt hcur, ef.symm, ?_, ?_, ?_⟩
        · intro o ho
          cases ho
          exact ⟨Nat.lt_succ_self _, fun hm => Nat.lt_irrefl _ (c.sim.known _ hm)⟩
        · show some b = some (if s.heap.next = s.heap.next then b else f s.heap.next)
          rw [if_pos rfl]
        · show t.ret = _
          rw [c.ret']
          exact (List.map_congr_left (fun x hx => if_neg (by have := c.sim.known x hx; omega))).symm
    · rw [if_neg hsep, if_neg hsep]
      cases b with
      | false => exact ⟨t, f, by rw [c.split'], c⟩
      | true =>
        rw [c.split']
        cases es : s.split with
        | none => exact ⟨t, f, rfl, c⟩
        | some o =>
          obtain ⟨ho, hm⟩ := c.split o es
          have k2 := c.sim.copies.setStart ho (start + i)
          refine ⟨_, f, rfl, ⟨k2, ?_, ?_⟩, ho, rfl, fun o' e => (by cases e), rfl, ?_⟩
          · intro x hx
            rcases List.mem_append.mp hx with hx | hx
            · exact c.sim.known x hx
            · rw [List.mem_singleton.mp hx]; exact ho
          · show (s.ret ++ [o]).Nodup
            rw [List.nodup_append]
            refine ⟨c.sim.once, by simp, ?_⟩
            intro x hx y hy e
            rw [List.mem_singleton.mp hy] at e
            subst e; exact hm hx
          · show t.ret ++ [f o] = (s.ret ++ [o]).map f
            rw [c.ret', List.map_append]; rfl

theorem splitLoop_sim {h0 : GHeap} {a : Nat} (start : Int) (seps : Str) : ∀ (l : Str) (i : Nat) {s : SplitSt} {t : SplitStG} {f : Nat → Nat},
    SplitSim h0 a s t f → SplitOk h0 a (splitLoop start seps i l s) (splitLoopG start seps i l t)
  | [], i, s, t, f, c => ⟨t, f, rfl, c⟩
  | x :: l, i, s, t, f, c => by
    have h1 := splitStep_sim c start seps i x
    simp only [splitLoop, splitLoopG]
    cases e : splitStep start seps s i x with
    | error y => rw [e] at h1; rw [show splitStepG start seps t i x = _ from h1]; rfl
    | ok s' =>
      rw [e] at h1
      obtain ⟨t', f', e', c'⟩ := h1
      rw [e']
      exact splitLoop_sim start seps l (i + 1) c'

/-! ## The theorems -/

/-- C105. `crop` on the objects: it raises when `C28`'s crop raises, and the pieces it returns are copies of their own with the spans of the
pieces of `C28`. -/
theorem C105_crop (h : GHeap) (a : Nat) (m : Match) (crops : List (Int × Int)) (hd : NoDangling h) (hs : HasSpan h a m.span) :
    match m.crop crops with
    | .error e => cropObject h a crops = .error e
    | .ok ps => ∃ h' pieces, cropObject h a crops = .ok (h', pieces) ∧ OwnCopies h a h' pieces (ps.map Match.span) := by
  obtain ⟨h1, b, e, c⟩ := Copies.first hd hs
  have s0 : CropSim h a h1 (SpanHeap.alloc ⟨fun _ => (0, 0), 0⟩ m.span).1 (fun _ => b) [0] :=
    ⟨c, fun o ho => by rw [List.mem_singleton.mp ho]; exact Nat.lt_succ_self _, by simp⟩
  have hsim := cropOuter_sim crops s0
  have hc : m.crop crops = match cropOuter crops (SpanHeap.alloc ⟨fun _ => (0, 0), 0⟩ m.span).1 [0] with
    | .error e => .error e
    | .ok (h, ret) => .ok (ret.map (fun o => { m with start := (h.span o).1, stop := (h.span o).2 })) := rfl
  simp only [hc, cropObject, e]
  cases e1 : cropOuter crops (SpanHeap.alloc ⟨fun _ => (0, 0), 0⟩ m.span).1 [0] with
  | error x => rw [e1] at hsim; exact hsim
  | ok p =>
    rw [e1] at hsim
    obtain ⟨h', f', e', s', _, _⟩ := hsim
    refine ⟨h', p.2.map f', e', ?_⟩
    have := s'.own
    show OwnCopies h a h' (p.2.map f') ((p.2.map (fun o => ({ m with start := (p.1.span o).1, stop := (p.1.span o).2 } : Match))).map Match.span)
    rw [List.map_map]
    exact this

/-- C105. The same for `split`. -/
theorem C105_split (h : GHeap) (a : Nat) (m : Match) (seps : Str) (hd : NoDangling h) (hs : HasSpan h a m.span) :
    match m.split seps with
    | .error e => splitObject h a m.raw seps = .error e
    | .ok ps => ∃ h' pieces, splitObject h a m.raw seps = .ok (h', pieces) ∧ OwnCopies h a h' pieces (ps.map Match.span) := by
  have hst : (h.span a).1 = m.start := by
    rw [GHeap.span, GHeap.int?, hs.starts]; rfl
  cases er : m.raw with
  | str raw =>
    have hc : m.split seps = match splitLoop m.start seps 0 raw ⟨(SpanHeap.alloc ⟨fun _ => (0, 0), 0⟩ m.span).1, 0, some 0, []⟩ with
      | .error e => .error e
      | .ok s => .ok (s.ret.map (fun o => { m with start := (s.heap.span o).1, stop := (s.heap.span o).2 })) := by
      rw [Match.split, er]; rfl
    obtain ⟨h1, b, e, c⟩ := Copies.first hd hs
    have s0 : SplitSim h a ⟨(SpanHeap.alloc ⟨fun _ => (0, 0), 0⟩ m.span).1, 0, some 0, []⟩ ⟨h1, b, some b, []⟩ (fun _ => b) :=
      ⟨⟨c, fun o ho => (by cases ho), by simp⟩, Nat.lt_succ_self _, rfl,
        fun o e => (by cases e; exact ⟨Nat.lt_succ_self _, by simp⟩), rfl, rfl⟩
    have hsim := splitLoop_sim m.start seps raw 0 s0
    simp only [hc, splitObject, hst, e]
    cases e1 : splitLoop m.start seps 0 raw ⟨(SpanHeap.alloc ⟨fun _ => (0, 0), 0⟩ m.span).1, 0, some 0, []⟩ with
    | error x => rw [e1] at hsim; rw [show splitLoopG m.start seps 0 raw _ = _ from hsim]
    | ok s =>
      rw [e1] at hsim
      obtain ⟨t, f', e', s'⟩ := hsim
      rw [e']
      refine ⟨t.heap, t.ret, rfl, ?_⟩
      have := s'.sim.own
      show OwnCopies h a t.heap t.ret ((s.ret.map (fun o => ({ m with start := (s.heap.span o).1, stop := (s.heap.span o).2 } : Match))).map Match.span)
      rw [List.map_map, s'.ret']
      exact this
  | none => simp only [Match.split, splitObject, er]
  | bool _ => simp only [Match.split, splitObject, er]
  | int _ => simp only [Match.split, splitObject, er]
  | list _ => simp only [Match.split, splitObject, er]
  | obj _ => simp only [Match.split, splitObject, er]

/-- Changes made through `p`: what they leave as it was, and what can be reached from `p` afterwards. -/
theorem Spec.ChangedThrough.only {p : Nat} {h h' : GHeap} (c : ChangedThrough p h h') :
    (∀ x, ¬ Reaches h p x → h'.obj x = h.obj x) ∧ (∀ x k y, Reaches h p x → Dict.get? (h'.obj x) k = some (.ref y) → Reaches h p y) ∧
      h'.length = h.length := by
  have assign : ∀ {h1 : GHeap} (o k v), (∀ x, ¬ Reaches h p x → h1.obj x = h.obj x) →
      (∀ x k y, Reaches h p x → Dict.get? (h1.obj x) k = some (.ref y) → Reaches h p y) → h1.length = h.length →
      Reaches h p o → (∀ b, v = .ref b → Reaches h p b) →
      (∀ x, ¬ Reaches h p x → (h1.assign o k v).obj x = h.obj x) ∧
      (∀ x l y, Reaches h p x → Dict.get? ((h1.assign o k v).obj x) l = some (.ref y) → Reaches h p y) ∧ (h1.assign o k v).length = h.length := by
    intro h1 o k v i1 i2 i3 ho hv
    refine ⟨?_, ?_, by rw [GHeap.assign_length, i3]⟩
    · intro x hx
      rw [GHeap.assign_obj_ne _ _ _ (fun e => hx (by rw [e]; exact ho))]; exact i1 x hx
    · intro x l y hx hy
      by_cases e : x = o
      · subst e
        by_cases hl : x < h1.length
        · rw [GHeap.assign_obj_eq _ _ _ hl] at hy
          by_cases ek : k = l
          · subst ek; rw [Dict.get_set_self] at hy; cases hy; exact hv y rfl
          · rw [Dict.get_set_ne ek] at hy; exact i2 x l y hx hy
        · rw [GHeap.obj_ge (by rw [GHeap.assign_length]; omega)] at hy; cases hy
      · rw [GHeap.assign_obj_ne _ _ _ e] at hy; exact i2 x l y hx hy
  induction c with
  | none => exact ⟨fun _ _ => rfl, fun x k y hx e => hx.step e, rfl⟩
  | atom o k v _ ho ih =>
    obtain ⟨i1, i2, i3⟩ := ih
    exact assign o k _ i1 i2 i3 (ho.closed (S := Reaches h p) i2 (.refl h p)) (fun b e => by cases e)
  | ref o k b _ ho hb ih =>
    obtain ⟨i1, i2, i3⟩ := ih
    exact assign o k _ i1 i2 i3 (ho.closed (S := Reaches h p) i2 (.refl h p))
      (fun b' e => by cases e; exact hb.closed (S := Reaches h p) i2 (.refl h p))

theorem walk_same {h h' : GHeap} : ∀ (path : List String) (v : GV), (∀ x, (∃ q, walk h v q = some (.ref x)) → h'.obj x = h.obj x) →
    walk h' v path = walk h v path
  | [], v, _ => by simp only [walk]
  | _ :: _, .atom _, _ => rfl
  | k :: ks, .ref a, hx => by
    have ea : h'.obj a = h.obj a := hx a ⟨[], rfl⟩
    simp only [walk, ea]
    cases e : Dict.get? (h.obj a) k with
    | none => rfl
    | some v =>
      refine walk_same ks v ?_
      rintro x ⟨q, hq⟩
      exact hx x ⟨k :: q, by simp only [walk, e]; exact hq⟩

/-- C105. Whatever is assigned through one piece, to itself or to any object reached from it, the objects there were before `crop` or `split` and the other
pieces look as they did; whatever is assigned through an object there was, the pieces look as they did. -/
theorem C105_changes {h h' : GHeap} {a : Nat} {pieces : List Nat} {spans : List (Int × Int)} (hd : NoDangling h) (o : OwnCopies h a h' pieces spans)
    (h'' : GHeap) :
    (∀ (i : Nat) p, pieces[i]? = some p → ChangedThrough p h' h'' →
      (∀ x, x < h.length → ∀ path, walk h'' (.ref x) path = walk h (.ref x) path) ∧
      (∀ (j : Nat) q, j ≠ i → pieces[j]? = some q → ∀ path, walk h'' (.ref q) path = walk h' (.ref q) path)) ∧
    (∀ x, x < h.length → ChangedThrough x h' h'' → ∀ q ∈ pieces, ∀ path, walk h'' (.ref q) path = walk h' (.ref q) path) := by
  have old : ∀ x, x < h.length → ∀ y, Reaches h' x y → y < h.length := by
    intro x hx y r
    refine r.closed (S := fun y => y < h.length) ?_ hx
    intro z k y hz e
    rw [GHeap.obj_eq (o.kept z hz)] at e
    exact hd z k y (Dict.mem_of_get e)
  have oldWalk : ∀ x, x < h.length → ∀ path, walk h' (.ref x) path = walk h (.ref x) path := by
    intro x hx path
    refine walk_same path _ ?_
    rintro y ⟨q, hq⟩
    refine GHeap.obj_eq (o.kept y ?_)
    exact (show Reaches h x y from ⟨q, hq⟩).closed (S := fun y => y < h.length) (fun z k y _ e => hd z k y (Dict.mem_of_get e)) hx
  constructor
  · intro i p hp c
    obtain ⟨only, _, _⟩ := c.only
    constructor
    · intro x hx path
      rw [← oldWalk x hx path]
      refine walk_same path _ ?_
      rintro y ⟨q, hq⟩
      refine only y (fun r => ?_)
      have h1 := o.fresh p (List.mem_of_getElem? hp) y r
      have h2 := old x hx y ⟨q, hq⟩
      omega
    · intro j q hji hq path
      refine walk_same path _ ?_
      rintro y ⟨r, hr⟩
      exact only y (fun r' => o.apart i j p q (fun e => hji e.symm) hp hq y r' ⟨r, hr⟩)
  · intro x hx c q hq path
    obtain ⟨only, _, _⟩ := c.only
    refine walk_same path _ ?_
    rintro y ⟨r, hr⟩
    refine only y (fun r' => ?_)
    have h1 := o.fresh q hq y ⟨r, hr⟩
    have h2 := old x hx y r'
    omega

/-! ## A match with a parent, a child container that holds it, and a pattern whose list of tags it shares -/

/-- The match is object 0, its (and the pattern's) list of tags 1, its parent 2, its pattern 3, the children of its parent 4. -/
def copyDemo : GHeap := [
  [("start", .atom (.int 0)), ("end", .atom (.int 5)), ("name", .atom (.str "n".toList)), ("tags", .ref 1), ("parent", .ref 2), ("pattern", .ref 3)],
  [("0", .atom (.str "t".toList))],
  [("start", .atom (.int 0)), ("end", .atom (.int 9)), ("_children", .ref 4), ("parent", .atom .none)],
  [("tags", .ref 1)],
  [("0", .ref 0)]]

theorem copyDemo_solid : NoDangling copyDemo := by
  intro a k b hm
  have ha : a < 5 := by
    by_cases e : a < 5
    · exact e
    · rw [GHeap.obj_ge (h := copyDemo) (by show 5 ≤ a; omega)] at hm; cases hm
  show b < 5
  match a, ha with
  | 0, _ => simp [copyDemo, GHeap.obj] at hm; omega
  | 1, _ => simp [copyDemo, GHeap.obj] at hm
  | 2, _ => simp [copyDemo, GHeap.obj] at hm; omega
  | 3, _ => simp [copyDemo, GHeap.obj] at hm; omega
  | 4, _ => simp [copyDemo, GHeap.obj] at hm; omega

theorem copyDemo_span : HasSpan copyDemo 0 (0, 5) := ⟨by decide, rfl, rfl⟩

/-- The match of `copyDemo`, as `C28` and `C29` see it. -/
def copyMatch : Match := { start := 0, stop := 5, name := some "n", tags := ["t"], inputString := some "ab,cd....".toList }

/-- `crop((2, 3))` of `copyDemo` gives two pieces, objects 5 and 10. -/
example : (match cropObject copyDemo 0 [(2, 3)] with | .ok (h, l) => some (h.length, l, l.map h.span) | .error _ => none)
    = some (15, [5, 10], [(0, 2), (3, 5)]) := by decide +kernel

/-- The hypotheses of `C105_crop` hold for it. -/
example : ∃ h' pieces, cropObject copyDemo 0 [(2, 3)] = .ok (h', pieces) ∧ OwnCopies copyDemo 0 h' pieces [(0, 2), (3, 5)] := by
  have h := C105_crop copyDemo 0 copyMatch [(2, 3)] copyDemo_solid copyDemo_span
  have e : (copyMatch.crop [(2, 3)]) = .ok [{ copyMatch with start := 0, stop := 2 }, { copyMatch with start := 3, stop := 5 }] := rfl
  rw [e] at h
  exact h

/-- Those of `C105_split` too. -/
example : ∃ h' pieces, splitObject copyDemo 0 copyMatch.raw [','] = .ok (h', pieces) ∧ OwnCopies copyDemo 0 h' pieces [(0, 2), (3, 5)] := by
  have h := C105_split copyDemo 0 copyMatch [','] copyDemo_solid copyDemo_span
  have e : (copyMatch.split [',']) = .ok [{ copyMatch with start := 0, stop := 2 }, { copyMatch with start := 3, stop := 5 }] := by rfl
  rw [e] at h
  exact h

/-- The piece `5` still shares its list of tags with its own pattern and is a child of its own parent; changing a tag through it is a change
`C105_changes` speaks of. -/
example : ∃ h', cropObject copyDemo 0 [(2, 3)] = .ok (h', [5, 10]) ∧
    walk h' (.ref 5) ["tags"] = walk h' (.ref 5) ["pattern", "tags"] ∧ walk h' (.ref 5) ["parent", "_children", "0"] = some (.ref 5) ∧
    ∃ b, walk h' (.ref 5) ["tags"] = some (.ref b) ∧ ChangedThrough 5 h' (h'.assign b "0" (.atom (.str "u".toList))) := by
  refine ⟨_, rfl, by decide +kernel, by decide +kernel, 6, by decide +kernel, .atom _ _ _ (.none _) ⟨["tags"], by decide +kernel⟩⟩

end Rebulk
