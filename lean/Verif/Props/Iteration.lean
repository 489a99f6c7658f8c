import Verif.Spec.Iteration
import Verif.Props.Sequence
import Verif.Props.Removal
/-!
# Iterating over a container while it is changed (`C108`)
-/
namespace Rebulk
open Spec Matches

theorem getItem_nat (s : Matches) (i : Nat) : s.getItem i = match s.delegate[i]? with | some m => .ok m | none => .error .indexError := by
  have : pyGet s.delegate (i : Int) = s.delegate[i]? := by
    unfold pyGet normIdx
    rw [if_pos (show (0 : Int) ≤ (i : Int) by omega)]
    by_cases h : i < s.delegate.length
    · rw [if_pos (show (i : Int) < (s.delegate.length : Int) by omega)]; rfl
    · rw [if_neg (show ¬ (i : Int) < (s.delegate.length : Int) by omega)]
      exact (List.getElem?_eq_none (by omega)).symm
  unfold Matches.getItem
  rw [this]
  cases s.delegate[i]? <;> rfl

/-- The generator that stands where a list iterator stands. -/
def asCursor : ListIter → Cursor
  | .ahead i => .forward i
  | .behind _ false => .unstarted
  | .behind i true => .backward i
  | .over => .finished

theorem nextBack_some {s : Matches} {i : Nat} {m : Match} (h : s.delegate[i]? = some m) : Cursor.nextBack s (i + 1) = (.backward i, .item m) := by
  simp only [Cursor.nextBack, getItem_nat, h]

theorem nextBack_none {s : Matches} {i : Nat} (h : s.delegate[i]? = none) : Cursor.nextBack s (i + 1) = (.finished, .raised .indexError) := by
  simp only [Cursor.nextBack, getItem_nat, h]

theorem next_asCursor {s : Matches} {it : ListIter} (h : InReach s.delegate it) :
    (asCursor it).next s = (asCursor (it.next s.delegate).1, (it.next s.delegate).2) := by
  cases it with
  | over => rfl
  | ahead i =>
    simp only [asCursor, Cursor.next, ListIter.next, getItem_nat]
    cases s.delegate[i]? <;> rfl
  | behind n b =>
    cases b with
    | false =>
      have hn : s.delegate.length = n := h
      simp only [asCursor, Cursor.next, Matches.length, hn]
      cases n with
      | zero => rfl
      | succ i =>
        rw [nextBack_some (List.getElem?_eq_getElem (by omega))]
        simp only [ListIter.next, List.getElem?_eq_getElem (show i < s.delegate.length by omega)]
    | true =>
      cases n with
      | zero => rfl
      | succ i =>
        have hn : i < s.delegate.length := h
        simp only [asCursor, Cursor.next]
        rw [nextBack_some (List.getElem?_eq_getElem hn)]
        simp only [ListIter.next, List.getElem?_eq_getElem hn]

theorem Spec.Quiet.tail {d : LoopDesk} {e : LoopEvent} {es : List LoopEvent} (h : Quiet d (e :: es)) : Quiet (d.step e).1 es :=
  fun pre op post he => by
    have := h (e :: pre) op post (by rw [he]; rfl)
    exact this

theorem Spec.NeverShort.tail {d : ListDesk} {e : LoopEvent} {es : List LoopEvent} (h : NeverShort d (e :: es)) : NeverShort (d.step e).1 es :=
  fun pre k post he it hit => by
    have := h (e :: pre) k post (by rw [he]; rfl)
    exact this it hit

theorem run_asCursor : ∀ (es : List LoopEvent) (d : LoopDesk) (l : ListDesk), d.held.delegate = l.items → d.cursors = l.iters.map asCursor → Quiet d es →
    NeverShort l es → (d.run es).2 = (l.run es).2 ∧ (d.run es).1.held.delegate = (l.run es).1.items
  | [], _, _, h1, _, _, _ => ⟨rfl, h1⟩
  | e :: es, d, l, h1, h2, hq, hn => by
    have hstep : (d.step e).2 = (l.step e).2 ∧ (d.step e).1.held.delegate = (l.step e).1.items ∧
        (d.step e).1.cursors = (l.step e).1.iters.map asCursor := by
      cases e with
      | call op =>
        have := C99_no_exception d.held op (hq [] op es rfl)
        exact ⟨rfl, by rw [show (d.step (.call op)).1.held = (d.held.sstep op).1 from rfl, this.1, h1]; rfl, h2⟩
      | iter => exact ⟨rfl, h1, by simp [LoopDesk.step, ListDesk.step, h2, asCursor]⟩
      | reversed => exact ⟨rfl, h1, by simp [LoopDesk.step, ListDesk.step, h2, asCursor]⟩
      | next k =>
        simp only [LoopDesk.step, ListDesk.step, h2, List.getElem?_map]
        cases hk : l.iters[k]? with
        | none => exact ⟨rfl, h1, h2⟩
        | some it =>
          have hr : InReach d.held.delegate it := by rw [h1]; exact hn [] k es rfl it hk
          have hnx := next_asCursor hr
          simp only [Option.map_some]
          rw [hnx, h1]
          exact ⟨rfl, rfl, by rw [List.map_set]⟩
    obtain ⟨q1, q2, q3⟩ := hstep
    obtain ⟨r1, r2⟩ := run_asCursor es (d.step e).1 (l.step e).1 q2 q3 hq.tail hn.tail
    refine ⟨?_, r2⟩
    show (d.step e).2 :: _ = (l.step e).2 :: _
    rw [q1, r1]

/-- **C108, partial**: as long as no call on the container raises and no `reversed` iterator finds the sequence too short (or, when first asked, of another
length than when it was made), every `next` on every iterator gives what it would for iterators of a plain list changed in the same way.

Missing: `reversed` over a sequence that was shortened or grew (`C108_refuted`, `C108_reversed`). -/
theorem C108_partial (s : Matches) (es : List LoopEvent) (hq : Quiet ⟨s, []⟩ es) (hn : NeverShort ⟨s.delegate, []⟩ es) :
    (LoopDesk.run ⟨s, []⟩ es).2 = (ListDesk.run ⟨s.delegate, []⟩ es).2 ∧
    (LoopDesk.run ⟨s, []⟩ es).1.held.delegate = (ListDesk.run ⟨s.delegate, []⟩ es).1.items :=
  run_asCursor es _ _ rfl rfl hq hn

/-- The iterators made are forward ones. -/
def onlyAhead (d : ListDesk) : Prop := ∀ it ∈ d.iters, (∃ i, it = .ahead i) ∨ it = .over

theorem onlyAhead_step {d : ListDesk} (h : onlyAhead d) {e : LoopEvent} (he : e ≠ .reversed) : onlyAhead (d.step e).1 := by
  cases e with
  | call op => exact h
  | iter =>
    intro it hit
    rcases List.mem_append.1 hit with hit | hit
    · exact h it hit
    · rw [List.mem_singleton.1 hit]; exact .inl ⟨0, rfl⟩
  | reversed => exact absurd rfl he
  | next k =>
    simp only [ListDesk.step]
    cases hk : d.iters[k]? with
    | none => exact h
    | some c =>
      intro it hit
      rcases List.mem_or_eq_of_mem_set hit with hit | hit
      · exact h it hit
      · rcases h c (List.mem_of_getElem? hk) with ⟨i, rfl⟩ | rfl
        · rw [hit]
          simp only [ListIter.next]
          cases d.items[i]? with
          | none => exact .inr rfl
          | some m => exact .inl ⟨i + 1, rfl⟩
        · rw [hit]; exact .inr rfl

theorem onlyAhead_run : ∀ (es : List LoopEvent) {d : ListDesk}, onlyAhead d → LoopEvent.reversed ∉ es → onlyAhead (d.run es).1
  | [], _, h, _ => h
  | e :: es, d, h, hr => onlyAhead_run es (onlyAhead_step h (fun he => hr (by rw [he]; exact List.mem_cons_self)))
      (fun hm => hr (List.mem_cons_of_mem _ hm))

/-- **C108** for `iter` (`for m in matches`): whatever is done to the container between two `next`, and however many iterators are alive, each gives what a
list iterator would. -/
theorem C108_iter (s : Matches) (es : List LoopEvent) (hq : Quiet ⟨s, []⟩ es) (hr : LoopEvent.reversed ∉ es) :
    (LoopDesk.run ⟨s, []⟩ es).2 = (ListDesk.run ⟨s.delegate, []⟩ es).2 ∧
    (LoopDesk.run ⟨s, []⟩ es).1.held.delegate = (ListDesk.run ⟨s.delegate, []⟩ es).1.items := by
  refine C108_partial s es hq ?_
  intro pre k post he it hit
  have hpre : LoopEvent.reversed ∉ pre := fun hm => hr (by rw [he]; exact List.mem_append_left _ hm)
  have ho := onlyAhead_run pre (d := ⟨s.delegate, []⟩) (fun it hit => by cases hit) hpre
  rcases ho it (List.mem_of_getElem? hit) with ⟨i, rfl⟩ | rfl <;> exact trivial

/-! ## `reversed` -/

/-- `next` asked again and again, the container being changed in between: its successive states. -/
def nexts : Cursor → List Matches → List Yielded
  | _, [] => []
  | c, s :: ss => (c.next s).2 :: nexts (c.next s).1 ss

theorem nexts_finished : ∀ ss : List Matches, nexts .finished ss = ss.map (fun _ => .stop)
  | [] => rfl
  | s :: ss => by
    show Yielded.stop :: nexts .finished ss = _
    rw [nexts_finished ss]; rfl

theorem nexts_length : ∀ (ss : List Matches) (c : Cursor), (nexts c ss).length = ss.length
  | [], _ => rfl
  | s :: ss, c => by
    show (nexts _ ss).length + 1 = _
    rw [nexts_length ss]; rfl

theorem nexts_backward : ∀ (ss : List Matches) (n k : Nat) (now : Matches), ss[k]? = some now →
    (StillGoing n (ss.map (fun s => s.delegate)) k → (nexts (.backward n) ss)[k]? = some (readAt now.delegate (n - 1 - k))) ∧
    (¬ StillGoing n (ss.map (fun s => s.delegate)) k → (nexts (.backward n) ss)[k]? = some .stop)
  | [], _, _, _, h => by cases h
  | s :: ss, 0, k, now, h => by
    refine ⟨fun hg => absurd hg.1 (Nat.not_lt_zero _), fun _ => ?_⟩
    have : nexts (.backward 0) (s :: ss) = (s :: ss).map (fun _ => .stop) := by
      show Yielded.stop :: nexts .finished ss = _
      rw [nexts_finished]; rfl
    rw [this, List.getElem?_map, h]; rfl
  | s :: ss, n + 1, 0, now, h => by
    have hs : s = now := by simpa using h
    subst hs
    refine ⟨fun _ => ?_, fun hg => absurd ⟨Nat.succ_pos n, fun j hj => absurd hj (Nat.not_lt_zero j)⟩ hg⟩
    show some ((Cursor.nextBack s (n + 1)).2) = some (readAt s.delegate n)
    unfold readAt
    cases hn : s.delegate[n]? with
    | some m => rw [nextBack_some hn]
    | none => rw [nextBack_none hn]
  | s :: ss, n + 1, k + 1, now, h => by
    have hk : ss[k]? = some now := by simpa using h
    have hshow : (nexts (.backward (n + 1)) (s :: ss))[k + 1]? = (nexts (Cursor.nextBack s (n + 1)).1 ss)[k]? := rfl
    rw [hshow]
    cases hn : s.delegate[n]? with
    | some m =>
      rw [nextBack_some hn]
      have hlen : n < s.delegate.length := by
        by_cases hl : n < s.delegate.length
        · exact hl
        · rw [List.getElem?_eq_none (by omega)] at hn; cases hn
      have hiff : StillGoing (n + 1) ((s :: ss).map (fun s => s.delegate)) (k + 1) ↔ StillGoing n (ss.map (fun s => s.delegate)) k := by
        constructor
        · intro ⟨h1, h2⟩
          refine ⟨by omega, fun j hj l hl => ?_⟩
          have := h2 (j + 1) (by omega) l (by simpa using hl)
          omega
        · intro ⟨h1, h2⟩
          refine ⟨by omega, fun j hj l hl => ?_⟩
          cases j with
          | zero =>
            have : s.delegate = l := by simpa using hl
            rw [← this]; exact hlen
          | succ j =>
            have := h2 j (by omega) l (by simpa using hl)
            omega
      obtain ⟨q1, q2⟩ := nexts_backward ss n k now hk
      rw [hiff]
      refine ⟨fun hg => ?_, q2⟩
      rw [q1 hg]
      congr 2
      omega
    | none =>
      rw [nextBack_none hn]
      refine ⟨fun hg => ?_, fun _ => ?_⟩
      · have := hg.2 0 (Nat.succ_pos k) s.delegate rfl
        rw [List.getElem?_eq_getElem (by simpa using this)] at hn; cases hn
      · rw [nexts_finished, List.getElem?_map, hk]; rfl

/-- **C108**, what `reversed(matches)` does whatever happens to the container: the positions to read are fixed by the length found at the *first* `next`; the
`k`-th `next` gives what is then at its position, and raises `IndexError` when the container has become too short; after that, and at the end, it stops. -/
theorem C108_reversed (ss : List Matches) (first now : Matches) (k : Nat) (h0 : ss[0]? = some first) (hk : ss[k]? = some now) :
    (StillGoing first.delegate.length (ss.map (fun s => s.delegate)) k →
      (nexts .unstarted ss)[k]? = some (readAt now.delegate (first.delegate.length - 1 - k))) ∧
    (¬ StillGoing first.delegate.length (ss.map (fun s => s.delegate)) k → (nexts .unstarted ss)[k]? = some .stop) := by
  cases ss with
  | nil => cases h0
  | cons s ss =>
    have hs : s = first := by simpa using h0
    subst hs
    exact nexts_backward (s :: ss) s.delegate.length k now hk

/-- The matches of an example. -/
def loopSample : Matches := (Matches.empty false none).runOps [.append (cm 0 0 3), .append (cm 1 4 6), .append (cm 2 7 8), .append (cm 3 9 10)]

/-- Shows a `next`. -/
def yieldedId : Option Yielded → String
  | none => "-"
  | some (.item m) => toString m.id
  | some .stop => "stop"
  | some (.raised _) => "raised"

/-- **C108 is false** of `reversed`: when the container is shortened during the loop, `next` raises `IndexError` where the iterator of a list stops; and an
iterator made before a match is appended gives it, where the one of a list does not. -/
theorem C108_refuted :
    (LoopDesk.run ⟨loopSample, []⟩ [.reversed, .next 0, .call (.base .clear), .next 0]).2.map yieldedId = ["-", "3", "-", "raised"] ∧
    (ListDesk.run ⟨loopSample.delegate, []⟩ [.reversed, .next 0, .call (.base .clear), .next 0]).2.map yieldedId = ["-", "3", "-", "stop"] ∧
    (LoopDesk.run ⟨loopSample, []⟩ [.reversed, .call (.base (.append (cm 4 11 12))), .next 0]).2.map yieldedId = ["-", "-", "4"] ∧
    (ListDesk.run ⟨loopSample.delegate, []⟩ [.reversed, .call (.base (.append (cm 4 11 12))), .next 0]).2.map yieldedId = ["-", "-", "3"] := by decide

/-! ## Loops that remove -/

theorem remove_at {s : Matches} (hi : Inv s) {done rest : List Match} {m : Match} (hd : s.delegate = done ++ m :: rest) (hno : NoEqual s.delegate) :
    (s.remove m).2 = none ∧ Inv (s.remove m).1 ∧ (s.remove m).1.delegate = done ++ rest := by
  have hm : m ∈ s.delegate := by rw [hd]; exact List.mem_append_right _ List.mem_cons_self
  have hdone : ¬ Holds done m := by
    rintro ⟨x, hx, he⟩
    rw [hd] at hno
    have := (List.pairwise_append.1 hno).2.2 x hx m List.mem_cons_self
    rw [he] at this; cases this
  obtain ⟨h1, h2, _, b, x, a, h4, h5, h6, h7⟩ := remove_step hi m ⟨m, hm, Match.eqv_refl m⟩
  refine ⟨h1, h2, ?_⟩
  have e1 := cutFirst_split (a := a) h5 h6
  rw [← h4, hd, cutFirst_split hdone (Match.eqv_refl m)] at e1
  rw [h7, e1]

theorem forEach_skip (p : Match → Bool) : ∀ (n : Nat) (s : Matches) (done rest : List Match), rest.length < n → Inv s → NoEqual s.delegate →
    s.delegate = done ++ rest →
    ∃ s', forEach (removeIf p) n (.forward done.length) s = some (s', none) ∧ Inv s' ∧ s'.delegate = done ++ skipping p rest
  | 0, _, _, _, h, _, _, _ => absurd h (Nat.not_lt_zero _)
  | n + 1, s, done, [], _, hi, _, hd => by
    refine ⟨s, ?_, hi, by rw [hd]; rfl⟩
    have : s.delegate[done.length]? = none := by rw [hd]; simp
    simp only [forEach, Cursor.next, getItem_nat, this]
  | n + 1, s, done, x :: rest, hl, hi, hno, hd => by
    have hx : s.delegate[done.length]? = some x := by rw [hd]; simp
    simp only [forEach, Cursor.next, getItem_nat, hx, removeIf]
    by_cases hp : p x = true
    · obtain ⟨q1, q2, q3⟩ := remove_at hi hd hno
      have hno' : NoEqual (s.remove x).1.delegate := by rw [q3]; rw [hd] at hno; exact noEqual_remove hno
      rw [if_pos hp]
      have hr : s.remove x = ((s.remove x).1, none) := by rw [← q1]
      rw [hr]
      simp only
      cases rest with
      | nil =>
        refine ⟨(s.remove x).1, ?_, q2, by rw [q3]; simp [skipping, hp]⟩
        cases n with
        | zero => simp at hl
        | succ n =>
          have : (s.remove x).1.delegate[done.length + 1]? = none := by rw [q3]; simp
          simp only [forEach, Cursor.next, getItem_nat, this]
      | cons y rest =>
        simp only [List.length_cons] at hl
        obtain ⟨s', g1, g2, g3⟩ := forEach_skip p n (s.remove x).1 (done ++ [y]) rest (by omega) q2 hno' (by rw [q3]; simp)
        rw [show (done ++ [y]).length = done.length + 1 by simp] at g1
        exact ⟨s', g1, g2, by rw [g3]; simp [skipping, hp]⟩
    · rw [if_neg hp]
      simp only
      simp only [List.length_cons] at hl
      obtain ⟨s', g1, g2, g3⟩ := forEach_skip p n s (done ++ [x]) rest (by omega) hi hno (by rw [hd]; simp)
      rw [show (done ++ [x]).length = done.length + 1 by simp] at g1
      refine ⟨s', g1, g2, ?_⟩
      rw [g3]
      cases rest with
      | nil => simp [skipping, hp]
      | cons y rest => simp [skipping, hp]

/-- **C108**: `for m in matches: if p(m): matches.remove(m)` ends without exception and leaves every match that follows a removed one, whatever `p` says of it
(no two matches being equal). -/
theorem C108_remove_loop {b : Bool} {input : Option Str} {s : Matches} (h : Reachable b input s) (hno : NoEqual s.delegate) (p : Match → Bool) :
    ∃ n s', forEach (removeIf p) n (.forward 0) s = some (s', none) ∧ s'.delegate = skipping p s.delegate := by
  obtain ⟨s', h1, _, h3⟩ := forEach_skip p (s.delegate.length + 1) s [] s.delegate (Nat.lt_succ_self _) h.inv hno rfl
  exact ⟨_, s', h1, h3⟩

theorem forEach_back (p : Match → Bool) : ∀ (n : Nat) (s : Matches) (rest done : List Match), rest.length < n → Inv s → NoEqual s.delegate →
    s.delegate = rest ++ done →
    ∃ s', forEach (removeIf p) n (.backward rest.length) s = some (s', none) ∧ Inv s' ∧ s'.delegate = rest.filter (fun m => !p m) ++ done
  | 0, _, _, _, h, _, _, _ => absurd h (Nat.not_lt_zero _)
  | n + 1, s, rest, done, hl, hi, hno, hd => by
    rcases List.eq_nil_or_concat rest with rfl | ⟨rest, x, rfl⟩
    · exact ⟨s, rfl, hi, hd⟩
    · rw [List.concat_eq_append] at hl hd ⊢
      have hlen : (rest ++ [x]).length = rest.length + 1 := by simp
      rw [hlen] at hl ⊢
      have hx : s.delegate[rest.length]? = some x := by rw [hd]; simp
      simp only [forEach, Cursor.next]
      rw [nextBack_some hx]
      simp only [removeIf]
      by_cases hp : p x = true
      · obtain ⟨q1, q2, q3⟩ := remove_at (done := rest) (rest := done) (m := x) hi (by rw [hd]; simp) hno
        have hno' : NoEqual (s.remove x).1.delegate := by
          rw [q3]
          rw [hd, List.append_assoc] at hno; exact noEqual_remove hno
        rw [if_pos hp]
        have hr : s.remove x = ((s.remove x).1, none) := by rw [← q1]
        rw [hr]
        simp only
        obtain ⟨s', g1, g2, g3⟩ := forEach_back p n (s.remove x).1 rest done (by omega) q2 hno' q3
        exact ⟨s', g1, g2, by rw [g3]; simp [hp]⟩
      · rw [if_neg hp]
        simp only
        obtain ⟨s', g1, g2, g3⟩ := forEach_back p n s rest (x :: done) (by omega) hi hno (by rw [hd]; simp)
        exact ⟨s', g1, g2, by rw [g3]; simp [hp]⟩

/-- **C108**: `for m in reversed(matches): if p(m): matches.remove(m)` ends without exception and leaves exactly the matches of which `p` is false (no two
matches being equal). -/
theorem C108_remove_reversed {b : Bool} {input : Option Str} {s : Matches} (h : Reachable b input s) (hno : NoEqual s.delegate) (p : Match → Bool) :
    ∃ n s', forEach (removeIf p) n .unstarted s = some (s', none) ∧ s'.delegate = s.delegate.filter (fun m => !p m) := by
  obtain ⟨s', h1, _, h3⟩ := forEach_back p (s.delegate.length + 1) s s.delegate [] (Nat.lt_succ_self _) h.inv hno (by simp)
  exact ⟨s.delegate.length + 1, s', by rw [← h1]; rfl, by rw [h3]; simp⟩

/-- **C108**: a loop that appends a match at each turn never ends, unless there is nothing to begin with. -/
theorem C108_append_loop {b : Bool} {input : Option Str} {s : Matches} (h : Reachable b input s) (hne : s.delegate ≠ []) (m : Match) (hm : m.marker = b) (n : Nat) :
    forEach (fun _ s => s.append m) n (.forward 0) s = none := by
  have key : ∀ (n i : Nat) (s : Matches), Reachable b input s → i < s.delegate.length → forEach (fun _ s => s.append m) n (.forward i) s = none := by
    intro n
    induction n with
    | zero => intro i s _ _; rfl
    | succ n ih =>
      intro i s hr hi
      simp only [forEach, Cursor.next, getItem_nat, List.getElem?_eq_getElem hi]
      have hfit : (s.append m).2 = none := (inv_append hr.inv m (by rw [hm, hr.input.2])).1
      rw [show s.append m = ((s.append m).1, none) by rw [← hfit]]
      simp only
      exact ih (i + 1) _ (reachable_append hr m hm) (by rw [append_delegate]; simp; omega)
  exact key n 0 s h (List.length_pos_iff.2 hne)

/-- The hypotheses hold and the loops do what is said: removing everything, the forward loop leaves every other match and `reversed` none. -/
example : Reachable false none loopSample ∧ NoEqual loopSample.delegate ∧
    (forEach (removeIf (fun _ => true)) 9 (.forward 0) loopSample).map (fun r => r.1.delegate.map Match.id) = some [1, 3] ∧
    (skipping (fun _ => true) loopSample.delegate).map Match.id = [1, 3] ∧
    (forEach (removeIf (fun _ => true)) 9 .unstarted loopSample).map (fun r => r.1.delegate.map Match.id) = some [] ∧
    (forEach (removeIf (fun m => m.id == 0 || m.id == 3)) 9 (.forward 0) loopSample).map (fun r => r.1.delegate.map Match.id) = some [1, 2] :=
  ⟨⟨_, by decide, rfl⟩, by decide, by decide, by decide, by decide, by decide⟩

/-- A history with two iterators, removals, an insertion before the position of one of them and a lookup: nothing raises. -/
def loopEvents : List LoopEvent :=
  [.iter, .next 0, .reversed, .next 1, .call (.base (.insert 0 (cm 9 11 12))), .next 0, .next 1, .call (.base (.starting 4)),
    .call (.base (.remove (cm 3 9 10))), .next 1, .next 0, .next 0, .next 0]

example : (LoopDesk.run ⟨loopSample, []⟩ loopEvents).2.map yieldedId = ["-", "0", "-", "3", "-", "0", "1", "-", "-", "0", "1", "2", "stop"] ∧
    (ListDesk.run ⟨loopSample.delegate, []⟩ loopEvents).2.map yieldedId = ["-", "0", "-", "3", "-", "0", "1", "-", "-", "0", "1", "2", "stop"] := by decide

/-- A check of `Quiet`. -/
def quietCheck : LoopDesk → List LoopEvent → Bool
  | _, [] => true
  | d, .call op :: es => (match (d.held.sstep op).2 with | .base (.raised _) => false | _ => true) && quietCheck (d.step (.call op)).1 es
  | d, e :: es => quietCheck (d.step e).1 es

theorem quiet_of_check : ∀ (es : List LoopEvent) (d : LoopDesk), quietCheck d es = true → Quiet d es
  | [], _, _ => fun pre op post he => by cases pre <;> cases he
  | e :: es, d, h => by
    intro pre op post he
    cases pre with
    | nil =>
      cases he
      simp only [quietCheck, Bool.and_eq_true] at h
      intro hr
      have h1 := h.1
      simp only [LoopDesk.run] at hr
      cases ho : (d.held.sstep op).2 with
      | base o =>
        rw [ho] at hr h1
        cases o <;> first | exact hr | cases h1
      | container s => rw [ho] at hr; exact hr
      | items l => rw [ho] at hr; exact hr
      | num n => rw [ho] at hr; exact hr
      | flag b => rw [ho] at hr; exact hr
    | cons e' pre =>
      cases he
      refine quiet_of_check _ (d.step e).1 ?_ pre op post rfl
      cases e with
      | call op' => simp only [quietCheck, Bool.and_eq_true] at h; exact h.2
      | iter => exact h
      | reversed => exact h
      | next k => exact h

/-- A check of `InReach`. -/
def reachCheck (l : List Match) : ListIter → Bool
  | .behind n false => decide (l.length = n)
  | .behind (i + 1) true => decide (i < l.length)
  | _ => true

theorem inReach_of_check {l : List Match} {it : ListIter} (h : reachCheck l it = true) : InReach l it := by
  cases it with
  | over => exact trivial
  | ahead i => exact trivial
  | behind n b =>
    cases b with
    | false => show l.length = n; exact of_decide_eq_true h
    | true => cases n with
      | zero => exact trivial
      | succ i => show i < l.length; exact of_decide_eq_true h

/-- A check of `NeverShort`. -/
def shortCheck : ListDesk → List LoopEvent → Bool
  | _, [] => true
  | d, .next k :: es => (match d.iters[k]? with | some it => reachCheck d.items it | none => true) && shortCheck (d.step (.next k)).1 es
  | d, e :: es => shortCheck (d.step e).1 es

theorem neverShort_of_check : ∀ (es : List LoopEvent) (d : ListDesk), shortCheck d es = true → NeverShort d es
  | [], _, _ => fun pre op post he => by cases pre <;> cases he
  | e :: es, d, h => by
    intro pre k post he it hit
    cases pre with
    | nil =>
      cases he
      simp only [shortCheck, Bool.and_eq_true] at h
      have h1 := h.1
      simp only [ListDesk.run] at hit
      rw [hit] at h1
      exact inReach_of_check h1
    | cons e' pre =>
      cases he
      refine neverShort_of_check _ (d.step e).1 ?_ pre k post rfl it hit
      cases e with
      | call op' => exact h
      | iter => exact h
      | reversed => exact h
      | next k => simp only [shortCheck, Bool.and_eq_true] at h; exact h.2

/-- The history above meets the hypotheses of `C108_partial`. -/
example : Quiet ⟨loopSample, []⟩ loopEvents ∧ NeverShort ⟨loopSample.delegate, []⟩ loopEvents :=
  ⟨quiet_of_check _ _ (by decide), neverShort_of_check _ _ (by decide)⟩

end Rebulk
