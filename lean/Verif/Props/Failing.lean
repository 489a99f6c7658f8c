import Verif.Spec.Failing
import Verif.Props.Consequences
/-!
# Removing matches whose values cannot be read (`C109`)
-/
namespace Rebulk
open Spec Matches

/-- `id` tells which object a match is. -/
def OneObjectPerId (l : List Match) : Prop := ∀ a ∈ l, ∀ b ∈ l, a.id = b.id → a = b

theorem eqv_same_span {a b : Match} (h : a.eqv b = true) : a.span = b.span := by
  unfold Match.span
  rw [Match.eqv_start h, Match.eqv_stop h]

/-- A comparison of distinct objects that did not raise. -/
theorem eqvF_ok {broken : Match → Option Nat} {m y : Match} {r : Bool} (h : eqvF broken m y = .ok r) (hid : y.id ≠ m.id) :
    r = y.eqv m ∧ (y.span = m.span → broken y = none ∧ broken m = none) := by
  unfold eqvF at h
  rw [if_neg (by simpa using hid)] at h
  by_cases hs : y.span = m.span
  · rw [if_pos (by simpa using hs)] at h
    cases hy : broken y with
    | some n => rw [hy] at h; cases h
    | none =>
      cases hm : broken m with
      | some n => rw [hy, hm] at h; cases h
      | none =>
        rw [hy, hm] at h
        cases h
        exact ⟨rfl, fun _ => ⟨rfl, rfl⟩⟩
  · rw [if_neg (by simpa using hs)] at h
    cases h
    refine ⟨?_, fun h => absurd h hs⟩
    cases he : y.eqv m with
    | false => rfl
    | true => exact absurd (eqv_same_span he) hs

theorem eqvF_of_safe {broken : Match → Option Nat} {m y : Match} (hid : y.id ≠ m.id) (h : y.span = m.span → broken y = none ∧ broken m = none) :
    eqvF broken m y = .ok (y.eqv m) := by
  unfold eqvF
  rw [if_neg (by simpa using hid)]
  by_cases hs : y.span = m.span
  · rw [if_pos (by simpa using hs), (h hs).1, (h hs).2]
  · rw [if_neg (by simpa using hs)]
    cases he : y.eqv m with
    | false => rfl
    | true => exact absurd (eqv_same_span he) hs

theorem eqvF_self (broken : Match → Option Nat) {m y : Match} (hid : y.id = m.id) : eqvF broken m y = .ok true := by
  unfold eqvF; rw [if_pos (by simpa using hid)]

theorem eqvF_error {broken : Match → Option Nat} {m y : Match} {e : PyErr} (h : eqvF broken m y = .error e) :
    (∃ n, e = .user n) ∧ ¬ SafePair broken m y := by
  unfold eqvF at h
  by_cases hid : y.id = m.id
  · rw [if_pos (by simpa using hid)] at h; cases h
  · rw [if_neg (by simpa using hid)] at h
    by_cases hs : y.span = m.span
    · rw [if_pos (by simpa using hs)] at h
      cases hy : broken y with
      | some n =>
        rw [hy] at h; cases h
        exact ⟨⟨n, rfl⟩, fun hp => by rcases hp with hp | hp | hp; exact hid hp; exact hp hs; rw [hy] at hp; cases hp.1⟩
      | none =>
        cases hm : broken m with
        | some n =>
          rw [hy, hm] at h; cases h
          exact ⟨⟨n, rfl⟩, fun hp => by rcases hp with hp | hp | hp; exact hid hp; exact hp hs; rw [hm] at hp; cases hp.2⟩
        | none => rw [hy, hm] at h; cases h
    · rw [if_neg (by simpa using hs)] at h; cases h

/-- Both comparisons give "different". -/
def Passes (broken : Match → Option Nat) (x y : Match) : Prop := eqvF broken x y = .ok false ∧ y.eqv x = false

theorem removeFirstF_pass {broken : Match → Option Nat} {x : Match} : ∀ {pre : List Match} (post : List Match), (∀ y ∈ pre, Passes broken x y) →
    removeFirstF (eqvF broken x) (pre ++ x :: post) = .ok (some (pre ++ post)) ∧
    removeFirst (fun y => y.eqv x) (pre ++ x :: post) = some (pre ++ post)
  | [], post, _ => by
    constructor
    · simp only [List.nil_append, removeFirstF, eqvF_self broken rfl]
    · simp only [List.nil_append, removeFirst, Match.eqv_refl, if_true]
  | y :: pre, post, h => by
    obtain ⟨h1, h2⟩ := h y List.mem_cons_self
    obtain ⟨q1, q2⟩ := removeFirstF_pass (pre := pre) post (fun z hz => h z (List.mem_cons_of_mem _ hz))
    constructor
    · simp only [List.cons_append, removeFirstF, h1, q1, Option.map_some]
    · simp only [List.cons_append, removeFirst, h2, q2, Option.map_some, Bool.false_eq_true, if_false]

theorem removeKeysF_pass {κ : Type} [DecidableEq κ] {broken : Match → Option Nat} {x : Match} : ∀ (keys : List κ) (d : Index κ),
    (∀ k ∈ keys, ∃ pre c post, d.getList k = pre ++ List.replicate c x ++ post ∧ (∀ y ∈ pre, Passes broken x y) ∧ keys.count k ≤ c) →
    removeKeysF broken x keys d = ((removeKeys x keys d).1, none) ∧ (removeKeys x keys d).2 = true
  | [], d, _ => ⟨rfl, rfl⟩
  | k :: ks, d, h => by
    obtain ⟨pre, c, post, h1, h2, h3⟩ := h k List.mem_cons_self
    have hc : 0 < c := by rw [List.count_cons_self] at h3; omega
    obtain ⟨c, rfl⟩ : ∃ c', c = c' + 1 := ⟨c - 1, by omega⟩
    have hl : d.getList k = pre ++ x :: (List.replicate c x ++ post) := by rw [h1, List.replicate_succ]; simp
    obtain ⟨q1, q2⟩ := removeFirstF_pass (List.replicate c x ++ post) h2
    simp only [removeKeysF, removeKeys, hl, q1, q2]
    refine removeKeysF_pass ks _ ?_
    intro k' hk'
    by_cases hkk : k = k'
    · subst hkk
      refine ⟨pre, c, post, by rw [Dict.getList_set, if_pos rfl]; simp, h2, ?_⟩
      rw [List.count_cons_self] at h3; omega
    · obtain ⟨pre', c', post', g1, g2, g3⟩ := h k' (List.mem_cons_of_mem _ hk')
      refine ⟨pre', c', post', by rw [Dict.getList_set, if_neg hkk]; exact g1, g2, ?_⟩
      rw [List.count_cons_of_ne hkk] at g3; exact g3

theorem removeFromF_pass {κ : Type} [DecidableEq κ] {broken : Match → Option Nat} {x : Match} {keysOf : Match → List κ} {d : Option (Index κ)}
    {A B : List Match} (hlit : LitO keysOf d (A ++ x :: B)) (hA : ∀ y ∈ A, Passes broken x y) :
    removeFromF broken d (keysOf x) x = ((removeFrom d (keysOf x) x).1, none) ∧ (removeFrom d (keysOf x) x).2 = true := by
  cases d with
  | none => exact ⟨rfl, rfl⟩
  | some d =>
    have h := removeKeysF_pass (broken := broken) (x := x) (keysOf x) d (fun k hk => by
      refine ⟨filed keysOf A k, (keysOf x).count k, filed keysOf B k, ?_, ?_, Nat.le_refl _⟩
      · rw [hlit d rfl k, filed_append, filed_cons, List.append_assoc]
      · intro y hy
        unfold filed at hy
        obtain ⟨z, hz, hy⟩ := List.mem_flatMap.1 hy
        rw [List.eq_of_mem_replicate hy]
        exact hA z hz)
    simp only [removeFromF, removeFrom]
    rw [h.1]
    exact ⟨rfl, h.2⟩

/-- Taking out of the indexes a match that can be told from all those before it. -/
theorem removeMatchF_pass {broken : Match → Option Nat} {s : Matches} {x : Match} {A B l' : List Match} (h : Exact { s with delegate := A ++ x :: B })
    (hA : ∀ y ∈ A, Passes broken x y) : removeMatchF broken { s with delegate := l' } x = removeMatch { s with delegate := l' } x := by
  obtain ⟨n1, n2⟩ := removeFromF_pass (broken := broken) h.name hA
  obtain ⟨t1, t2⟩ := removeFromF_pass (broken := broken) h.tag hA
  obtain ⟨s1, s2⟩ := removeFromF_pass (broken := broken) h.start hA
  obtain ⟨e1, e2⟩ := removeFromF_pass (broken := broken) h.stop hA
  obtain ⟨i1, i2⟩ := removeFromF_pass (broken := broken) h.index hA
  simp only at n1 n2 t1 t2 s1 s2 e1 e2 i1 i2
  simp only [removeMatchF, removeMatch, n1, n2, t1, t2, s1, s2, e1, e2, i1, i2, Bool.not_true, Bool.false_eq_true, if_false]

theorem delItemF_pass {broken : Match → Option Nat} {s : Matches} {x : Match} {A B : List Match} (h : Exact s) (hd : s.delegate = A ++ x :: B)
    (hA : ∀ y ∈ A, Passes broken x y) {i : Int} (hi : normIdx s.delegate.length i = some A.length) : s.delItemF broken i = s.delItem i := by
  have hx : s.delegate[A.length]? = some x := by rw [hd]; simp
  simp only [delItemF, delItem, hi, hx]
  refine removeMatchF_pass (A := A) (B := B) ?_ hA
  rw [← hd]; exact h

theorem findF_spec {broken : Match → Option Nat} {m : Match} : ∀ (l : List Match),
    (∃ e before y after, findF (eqvF broken m) l = .error e ∧ l = before ++ y :: after ∧ (∀ x ∈ before, eqvF broken m x = .ok false) ∧
      eqvF broken m y = .error e) ∨
    (∃ before y after, findF (eqvF broken m) l = .ok (some before.length) ∧ l = before ++ y :: after ∧
      (∀ x ∈ before, eqvF broken m x = .ok false) ∧ eqvF broken m y = .ok true) ∨
    (findF (eqvF broken m) l = .ok none ∧ ∀ x ∈ l, eqvF broken m x = .ok false)
  | [] => .inr (.inr ⟨rfl, fun x hx => by cases hx⟩)
  | x :: l => by
    cases hx : eqvF broken m x with
    | error e => exact .inl ⟨e, [], x, l, by simp only [findF, hx], rfl, (fun y hy => by cases hy), hx⟩
    | ok r =>
      cases r with
      | true => exact .inr (.inl ⟨[], x, l, by simp only [findF, hx, List.length_nil], rfl, (fun y hy => by cases hy), hx⟩)
      | false =>
        have hall : ∀ {before : List Match}, (∀ z ∈ before, eqvF broken m z = .ok false) → ∀ z ∈ x :: before, eqvF broken m z = .ok false := by
          intro before hb z hz
          rcases List.mem_cons.1 hz with rfl | hz
          · exact hx
          · exact hb z hz
        rcases findF_spec (broken := broken) (m := m) l with ⟨e, before, y, after, h1, h2, h3, h4⟩ | ⟨before, y, after, h1, h2, h3, h4⟩ | ⟨h1, h2⟩
        · exact .inl ⟨e, x :: before, y, after, by simp only [findF, hx, h1], by rw [h2]; rfl, hall h3, h4⟩
        · exact .inr (.inl ⟨x :: before, y, after, by simp only [findF, hx, h1, Option.map_some, List.length_cons], by rw [h2]; rfl, hall h3, h4⟩)
        · exact .inr (.inr ⟨by simp only [findF, hx, h1, Option.map_none], hall h2⟩)

/-- A comparison that gave "different" was harmless. -/
theorem ok_false {broken : Match → Option Nat} {m y : Match} (h : eqvF broken m y = .ok false) : SafePair broken m y ∧ y.eqv m = false ∧ y.id ≠ m.id := by
  have hid : y.id ≠ m.id := fun hid => by rw [eqvF_self broken hid] at h; cases h
  obtain ⟨h1, h2⟩ := eqvF_ok h hid
  refine ⟨?_, h1.symm, hid⟩
  by_cases hs : y.span = m.span
  · exact .inr (.inr (h2 hs))
  · exact .inr (.inl hs)

theorem findIdx_split {p : Match → Bool} : ∀ {before : List Match} {y : Match} {after : List Match}, (∀ x ∈ before, p x = false) → p y = true →
    (before ++ y :: after).findIdx? p = some before.length
  | [], y, after, _, hy => by simp [List.findIdx?_cons, hy]
  | x :: before, y, after, h, hy => by
    rw [List.cons_append, List.findIdx?_cons, h x List.mem_cons_self, findIdx_split (fun z hz => h z (List.mem_cons_of_mem _ hz)) hy]; rfl

/-- **C109, partial**: `remove(m)`, when formatters may raise, in a container filled and emptied by value (`append`, `extend`, `remove`, lookups). Either a
comparison raises before a match equal to `m` is met, and then the exception comes out and *nothing* has changed; or the call does exactly what it does when
no formatter raises.

Missing: containers with `insert`ed matches and deletions by position (`C109_refuted`). -/
theorem C109_partial {b : Bool} {input : Option Str} {s : Matches} (h : ReachableByValue b input s) (m : Match) (hid : OneObjectPerId (m :: s.delegate))
    (broken : Match → Option Nat) :
    (Stumbles broken s.delegate m → ∃ n, s.removeF broken m = (s, some (.user n))) ∧
    (¬ Stumbles broken s.delegate m → s.removeF broken m = s.remove m) := by
  have ht := (tidy_byValue h).1
  rcases findF_spec (broken := broken) (m := m) s.delegate with ⟨e, before, y, after, h1, h2, h3, h4⟩ | ⟨before, y, after, h1, h2, h3, h4⟩ | ⟨h1, h2⟩
  · obtain ⟨⟨n, rfl⟩, h5⟩ := eqvF_error h4
    refine ⟨fun _ => ⟨n, by simp only [removeF, h1]⟩, fun hn => absurd ⟨before, y, after, h2, ?_, h5⟩ hn⟩
    intro x hx
    exact ⟨(ok_false (h3 x hx)).1, (ok_false (h3 x hx)).2.1⟩
  · have hy : y.eqv m = true := by
      by_cases hi : y.id = m.id
      · rw [hid y (List.mem_cons_of_mem _ (by rw [h2]; simp)) m List.mem_cons_self hi]; exact Match.eqv_refl m
      · exact (eqvF_ok h4 hi).1.symm
    constructor
    · rintro ⟨bf, z, af, g1, g2, g3⟩
      exfalso
      -- the first match that cannot be compared is not before `y`, nor `y`, nor after it
      have hlen : bf.length < before.length ∨ bf.length = before.length ∨ before.length < bf.length := by omega
      rcases hlen with hl | hl | hl
      · have hz : z ∈ before := by
          have : (before ++ y :: after)[bf.length]? = some z := by rw [← h2, g1]; simp
          rw [List.getElem?_append_left hl] at this
          exact List.mem_of_getElem? this
        exact g3 (ok_false (h3 z hz)).1
      · have hz : z = y := by
          have e1 : (before ++ y :: after)[bf.length]? = some z := by rw [← h2, g1]; simp
          rw [hl] at e1
          simpa using e1.symm
        subst hz
        by_cases hi : z.id = m.id
        · exact g3 (.inl hi)
        · have := (eqvF_ok h4 hi).2 (eqv_same_span hy)
          exact g3 (.inr (.inr this))
      · have hyb : y ∈ bf := by
          have : (bf ++ z :: af)[before.length]? = some y := by rw [← g1, h2]; simp
          rw [List.getElem?_append_left hl] at this
          exact List.mem_of_getElem? this
        have := (g2 y hyb).2
        rw [hy] at this; cases this
    · intro _
      have hfind : s.delegate.findIdx? (fun x => x.eqv m) = some before.length := by
        rw [h2]
        exact findIdx_split (fun x hx => (ok_false (h3 x hx)).2.1) hy
      simp only [removeF, h1, Matches.remove, hfind]
      refine delItemF_pass ht.exact_ h2 ?_ ?_
      · intro z hz
        obtain ⟨k1, k2, k3⟩ := ok_false (h3 z hz)
        have hzy : z.eqv y = false := by
          have : z.eqv y = z.eqv m := by
            rw [Match.eqv_eq_decide, Match.eqv_eq_decide, (Match.eqv_iff y m).1 hy]
          rw [this]; exact k2
        have hne : z.id ≠ y.id := by
          intro hi
          have := hid z (List.mem_cons_of_mem _ (by rw [h2]; exact List.mem_append_left _ hz)) y (List.mem_cons_of_mem _ (by rw [h2]; simp)) hi
          rw [this, Match.eqv_refl] at hzy; cases hzy
        refine ⟨?_, hzy⟩
        rw [← hzy]
        refine eqvF_of_safe hne (fun hs => ?_)
        have hsm : z.span = m.span := by rw [hs]; exact eqv_same_span hy
        obtain ⟨b1, b2⟩ := (eqvF_ok (h3 z hz) k3).2 hsm
        refine ⟨b1, ?_⟩
        by_cases hi : y.id = m.id
        · rw [hid y (List.mem_cons_of_mem _ (by rw [h2]; simp)) m List.mem_cons_self hi]; exact b2
        · exact ((eqvF_ok h4 hi).2 (eqv_same_span hy)).1
      · rw [h2]
        unfold normIdx
        rw [if_pos (by omega), if_pos (by simp; omega)]
        rfl
  · constructor
    · rintro ⟨bf, z, af, g1, g2, g3⟩
      exact absurd (ok_false (h2 z (by rw [g1]; simp))).1 g3
    · intro _
      have hfind : s.delegate.findIdx? (fun x => x.eqv m) = none := by
        rw [List.findIdx?_eq_none_iff]
        intro x hx
        exact (ok_false (h2 x hx)).2.1
      simp only [removeF, h1, Matches.remove, hfind]

/-- Deleting by position (`del matches[i]`, `pop(i)`): the same as without raising formatters, when all the matches with the span of the deleted one can be
compared with it and none before it equals it; otherwise see `C109_refuted`. -/
theorem C109_position_partial {b : Bool} {input : Option Str} {s : Matches} (h : ReachableByValue b input s) (hid : OneObjectPerId s.delegate)
    (broken : Match → Option Nat) (i : Int) {A B : List Match} {x : Match} (hd : s.delegate = A ++ x :: B)
    (hi : i = A.length ∨ i = (A.length : Int) - s.delegate.length) (hA : ∀ y ∈ A, SafePair broken x y ∧ y.eqv x = false) :
    s.delItemF broken i = s.delItem i := by
  refine delItemF_pass (tidy_byValue h).1.exact_ hd ?_ ?_
  · intro y hy
    obtain ⟨h1, h2⟩ := hA y hy
    have hne : y.id ≠ x.id := by
      intro he
      have := hid y (by rw [hd]; exact List.mem_append_left _ hy) x (by rw [hd]; simp) he
      rw [this, Match.eqv_refl] at h2; cases h2
    refine ⟨?_, h2⟩
    rw [← h2]
    refine eqvF_of_safe hne (fun hs => ?_)
    rcases h1 with h1 | h1 | h1
    · exact absurd h1 hne
    · exact absurd hs h1
    · exact h1
  · have hl : A.length < s.delegate.length := by rw [hd]; simp
    unfold normIdx
    rcases hi with rfl | rfl
    · rw [if_pos (by omega), if_pos (by omega)]; rfl
    · rw [if_neg (by omega), if_pos (by omega)]
      congr 1
      omega

/-- As long as no lookup was made there is nothing to compare with: a deletion by position never meets a formatter. -/
theorem C109_no_lookup (s : Matches) (hn : s.nameD = none ∧ s.tagD = none ∧ s.startD = none ∧ s.endD = none ∧ s.indexD = none)
    (broken : Match → Option Nat) (i : Int) : s.delItemF broken i = s.delItem i := by
  obtain ⟨h1, h2, h3, h4, h5⟩ := hn
  simp only [delItemF, delItem]
  cases hn : normIdx s.delegate.length i with
  | none => rfl
  | some k =>
    cases hk : s.delegate[k]? with
    | none => simp only [hk]
    | some m => simp only [hk, removeMatchF, removeMatch, h1, h2, h3, h4, h5, removeFromF, removeFrom, Bool.not_true, Bool.false_eq_true, if_false]

/-- Two matches of one span (with different names), the second one put in front; `starting` was asked. -/
def brokenSample : Matches :=
  (Matches.empty false none).runOps [.append { cm 0 0 3 with name := some "a" }, .starting 0, .insert 0 { cm 1 0 3 with name := some "b" }]

/-- The formatter of the first one raises. -/
def brokenFirst (m : Match) : Option Nat := if m.id == 0 then some 7 else none

/-- **C109 is false**: `remove` finds the match at once, deletes it from the sequence, and the exception of another match's formatter then leaves it in the
lookup; and `pop()` does the same to two matches that were appended in order. -/
theorem C109_refuted :
    (brokenSample.removeF brokenFirst { cm 1 0 3 with name := some "b" }).2 = some (.user 7) ∧
    (brokenSample.removeF brokenFirst { cm 1 0 3 with name := some "b" }).1.delegate.map Match.id = [0] ∧
    ((match ((brokenSample.removeF brokenFirst { cm 1 0 3 with name := some "b" }).1.step (.starting 0)).2 with
      | .list l => l.map Match.id | _ => []) = [0, 1]) ∧
    (∃ s, ReachableByValue false none s ∧ s.delegate.map Match.id = [0, 1] ∧ (s.delItemF brokenFirst (-1)).2 = some (.user 7) ∧
      (s.delItemF brokenFirst (-1)).1.delegate.map Match.id = [0] ∧
      ((match ((s.delItemF brokenFirst (-1)).1.step (.starting 0)).2 with | .list l => l.map Match.id | _ => []) = [0, 1])) :=
  ⟨by decide, by decide, by decide,
    ⟨(Matches.empty false none).runOps
      [.append { cm 0 0 3 with name := some "a" }, .starting 0, .append { cm 1 0 3 with name := some "b" }], ⟨_, by decide, rfl⟩, by decide, by decide,
      by decide, by decide⟩⟩

/-- Three appended matches, the first two of one span, with all the indexes built. -/
def brokenOrdered : Matches :=
  (Matches.empty false none).runOps [.append { cm 0 0 3 with name := some "a", tags := ["t", "t"] }, .append { cm 1 0 3 with name := some "b", tags := ["t"] },
    .append { cm 2 4 6 with name := some "c", tags := ["t"] }, .starting 0, .ending 3, .named ["a"], .tagged "t", .atIndex 1]

/-- Both cases of `C109_partial`: removing the second match stumbles over the first, whose value cannot be read; removing the third does not. -/
example : ReachableByValue false none brokenOrdered ∧ (∀ a ∈ brokenOrdered.delegate, ∀ b ∈ brokenOrdered.delegate, a.id = b.id → a.start = b.start) ∧
    (brokenOrdered.removeF brokenFirst { cm 1 0 3 with name := some "b", tags := ["t"] }).2 = some (.user 7) ∧
    (brokenOrdered.removeF brokenFirst { cm 1 0 3 with name := some "b", tags := ["t"] }).1.delegate.map Match.id = [0, 1, 2] ∧
    (brokenOrdered.removeF brokenFirst { cm 2 4 6 with name := some "c", tags := ["t"] }).2 = none ∧
    (brokenOrdered.removeF brokenFirst { cm 2 4 6 with name := some "c", tags := ["t"] }).1.delegate.map Match.id = [0, 1] :=
  ⟨⟨_, by decide, rfl⟩, by decide, by decide, by decide, by decide, by decide⟩

example : OneObjectPerId ({ cm 2 4 6 with name := some "c", tags := ["t"] } :: brokenOrdered.delegate) := by
  have hd : brokenOrdered.delegate = [{ cm 0 0 3 with name := some "a", tags := ["t", "t"] }, { cm 1 0 3 with name := some "b", tags := ["t"] },
    { cm 2 4 6 with name := some "c", tags := ["t"] }] := rfl
  intro a ha b hb hab
  rw [hd] at ha hb
  simp only [List.mem_cons, List.not_mem_nil, or_false] at ha hb
  rcases ha with rfl | rfl | rfl | rfl <;> rcases hb with rfl | rfl | rfl | rfl <;> first | rfl | (exfalso; revert hab; decide)

example : Stumbles brokenFirst brokenOrdered.delegate { cm 1 0 3 with name := some "b", tags := ["t"] } :=
  ⟨[], _, _, rfl, (fun x hx => by cases hx), (fun h => by
    rcases h with h | h | h
    · revert h; decide
    · exact h rfl
    · cases h.1)⟩

end Rebulk
