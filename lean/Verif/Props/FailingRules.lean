import Verif.Spec.FailingRules
import Verif.Props.Failing
import Verif.Props.RebulkDefault
/-!
# The default rules when values cannot be read (`C124`)
-/
namespace Rebulk
open Spec Matches
variable {Ctx : Type}

/-! ## Comparisons -/

theorem SafePair.symm {broken : Match → Option Nat} {x y : Match} (h : SafePair broken x y) : SafePair broken y x := by
  rcases h with h | h | h
  · exact .inl h.symm
  · exact .inr (.inl (fun e => h e.symm))
  · exact .inr (.inr ⟨h.2, h.1⟩)

/-- The comparison of `y` with `x` gives the answer, or raises an exception of which `B` tells. -/
def Tells (broken : Match → Option Nat) (B : Nat → Prop) (x y : Match) : Prop :=
  eqvF broken x y = .ok (y.eqv x) ∨ ∃ n, B n ∧ eqvF broken x y = .error (.user n)

theorem tells_of {broken : Match → Option Nat} {B : Nat → Prop} {x y : Match} (hid : y.id = x.id → y = x)
    (hB : ¬ SafePair broken x y → ∀ n, broken x = some n ∨ broken y = some n → B n) : Tells broken B x y := by
  by_cases hi : y.id = x.id
  · left; rw [eqvF_self broken hi, hid hi, Match.eqv_refl]
  · by_cases hs : SafePair broken x y
    · left
      refine eqvF_of_safe hi (fun e => ?_)
      rcases hs with h | h | h
      · exact absurd h hi
      · exact absurd e h
      · exact h
    · right
      unfold eqvF
      rw [if_neg (by simpa using hi)]
      have hsp : y.span = x.span := by
        by_cases e : y.span = x.span
        · exact e
        · exact absurd (.inr (.inl e)) hs
      rw [if_pos (by simpa using hsp)]
      cases hy : broken y with
      | some n => exact ⟨n, hB hs n (.inr hy), rfl⟩
      | none =>
        cases hx : broken x with
        | some n => exact ⟨n, hB hs n (.inl hx), rfl⟩
        | none => exact absurd (.inr (.inr ⟨hy, hx⟩)) hs

theorem findF_tells {broken : Match → Option Nat} {B : Nat → Prop} {x : Match} : ∀ {l : List Match}, (∀ y ∈ l, Tells broken B x y) →
    findF (eqvF broken x) l = .ok (l.findIdx? (fun y => y.eqv x)) ∨ ∃ n, B n ∧ findF (eqvF broken x) l = .error (.user n)
  | [], _ => .inl rfl
  | y :: l, h => by
    rcases h y List.mem_cons_self with h1 | ⟨n, hn, h1⟩
    · cases he : y.eqv x with
      | true => left; simp only [findF, h1, he, List.findIdx?_cons, if_true]
      | false =>
        rcases findF_tells (fun z hz => h z (List.mem_cons_of_mem _ hz)) with h2 | ⟨n, hn, h2⟩
        · left; simp only [findF, h1, he, h2, List.findIdx?_cons, Bool.false_eq_true, if_false]
        · right; exact ⟨n, hn, by simp only [findF, h1, he, h2]⟩
    · right; exact ⟨n, hn, by simp only [findF, h1]⟩

theorem hasF_tells {broken : Match → Option Nat} {B : Nat → Prop} {x : Match} {l : List Match} (h : ∀ y ∈ l, Tells broken B x y) :
    hasF broken l x = .ok (l.any (fun y => y.eqv x)) ∨ ∃ n, B n ∧ hasF broken l x = .error (.user n) := by
  rcases findF_tells h with h1 | ⟨n, hn, h1⟩
  · left
    simp only [hasF, h1]
    rw [List.findIdx?_isSome]
  · right; exact ⟨n, hn, by simp only [hasF, h1]⟩

theorem removeFirstF_tells {broken : Match → Option Nat} {B : Nat → Prop} {x : Match} : ∀ {l : List Match}, (∀ y ∈ l, Tells broken B x y) →
    removeFirstF (eqvF broken x) l = .ok (removeFirst (fun y => y.eqv x) l) ∨ ∃ n, B n ∧ removeFirstF (eqvF broken x) l = .error (.user n)
  | [], _ => .inl rfl
  | y :: l, h => by
    rcases h y List.mem_cons_self with h1 | ⟨n, hn, h1⟩
    · cases he : y.eqv x with
      | true => left; simp only [removeFirstF, h1, he, removeFirst, if_true]
      | false =>
        rcases removeFirstF_tells (fun z hz => h z (List.mem_cons_of_mem _ hz)) with h2 | ⟨n, hn, h2⟩
        · left; simp only [removeFirstF, h1, he, h2, removeFirst, Bool.false_eq_true, if_false]
        · right; exact ⟨n, hn, by simp only [removeFirstF, h1, he, h2]⟩
    · right; exact ⟨n, hn, by simp only [removeFirstF, h1]⟩

/-! ## `conflicting` -/

theorem addMissing_cons (acc : List Match) (x : Match) (l : List Match) :
    addMissing acc (x :: l) = addMissing (if acc.any (fun y => y.eqv x) then acc else acc ++ [x]) l := rfl

theorem addMissingF_tells {broken : Match → Option Nat} {B : Nat → Prop} : ∀ {l acc : List Match},
    (∀ x ∈ acc ++ l, ∀ y ∈ acc ++ l, Tells broken B x y) →
    addMissingF broken acc l = .ok (addMissing acc l) ∨ ∃ n, B n ∧ addMissingF broken acc l = .error (.user n)
  | [], acc, _ => .inl rfl
  | x :: l, acc, h => by
    rw [addMissing_cons]
    rcases hasF_tells (x := x) (l := acc) (fun y hy => h x (by simp) y (List.mem_append_left _ hy)) with h1 | ⟨n, hn, h1⟩
    · cases he : acc.any (fun y => y.eqv x) with
      | true =>
        simp only [addMissingF, h1, he, if_true]
        refine addMissingF_tells (fun a ha b hb => h a ?_ b ?_)
        · rcases List.mem_append.1 ha with h | h <;> simp [h]
        · rcases List.mem_append.1 hb with h | h <;> simp [h]
      | false =>
        simp only [addMissingF, h1, he, Bool.false_eq_true, if_false]
        refine addMissingF_tells (fun a ha b hb => h a ?_ b ?_)
        · rw [List.append_assoc] at ha; exact ha
        · rw [List.append_assoc] at hb; exact hb
    · right; exact ⟨n, hn, by simp only [addMissingF, h1]⟩

theorem conflictLoopF_tells {broken : Match → Option Nat} {B : Nat → Prop} {s0 : Matches} : ∀ {is : List Int} {s : Matches} {acc : List Match}, Sim s0 s →
    (∀ x, (x ∈ acc ∨ ∃ i ∈ is, x ∈ s0.indexDict.getList i) → ∀ y, (y ∈ acc ∨ ∃ i ∈ is, y ∈ s0.indexDict.getList i) → Tells broken B x y) →
    conflictLoopF broken is s acc = ((conflictLoop is s acc).1, .ok (conflictLoop is s acc).2) ∨
      ∃ n s', B n ∧ conflictLoopF broken is s acc = (s', .error (.user n))
  | [], s, acc, _, _ => .inl rfl
  | i :: is, s, acc, hs, h => by
    have hl : (s.lookIndex i).2 = s0.indexDict.getList i := by
      show s.indexDict.getList i = _
      exact hs.index i
    have hall : ∀ x ∈ acc ++ (s.lookIndex i).2, x ∈ acc ∨ ∃ j ∈ i :: is, x ∈ s0.indexDict.getList j := by
      intro x hx
      rcases List.mem_append.1 hx with hx | hx
      · exact .inl hx
      · rw [hl] at hx; exact .inr ⟨i, List.mem_cons_self, hx⟩
    rcases addMissingF_tells (B := B) (acc := acc) (l := (s.lookIndex i).2) (fun x hx y hy => h x (hall x hx) y (hall y hy)) with h1 | ⟨n, hn, h1⟩
    · have hsub : ∀ x, (x ∈ addMissing acc (s.lookIndex i).2 ∨ ∃ j ∈ is, x ∈ s0.indexDict.getList j) → x ∈ acc ∨ ∃ j ∈ i :: is, x ∈ s0.indexDict.getList j := by
        rintro x (hx | ⟨j, hj, hx⟩)
        · rcases addMissing_subset _ _ hx with hx | hx
          · exact .inl hx
          · exact hall x (List.mem_append_right _ hx)
        · exact .inr ⟨j, List.mem_cons_of_mem _ hj, hx⟩
      have ih := conflictLoopF_tells (is := is) (s := (s.lookIndex i).1) (acc := addMissing acc (s.lookIndex i).2) (hs.trans (lookIndex_sim s i))
        (fun x hx y hy => h x (hsub x hx) y (hsub y hy))
      simp only [conflictLoopF, h1, conflictLoop]
      exact ih
    · right; exact ⟨n, (s.lookIndex i).1, hn, by simp only [conflictLoopF, h1]⟩

theorem index_covers {s : Matches} (h : Exact s) {i : Int} {x : Match} : x ∈ s.indexDict.getList i ↔ x ∈ s.delegate ∧ Covers x i := by
  rw [h.viewIndex i, filed_index]
  unfold covering
  rw [List.mem_filter]
  simp [Covers]

/-- The exception may be blamed on a formatter, and matches clash. -/
def Blame (broken : Match → Option Nat) (l : List Match) (n : Nat) : Prop := Clash broken l ∧ ∃ x ∈ l, broken x = some n

theorem tells_near {broken : Match → Option Nat} {l : List Match} (hid : OneObjectPerId l) {m x y : Match} (hm : m ∈ l) (hp : m.priv = false)
    (hx : x ∈ l) (hy : y ∈ l) (ho : x.span = y.span → Overlap x m) : Tells broken (Blame broken l) x y := by
  refine tells_of (fun h => hid y hy x hx h) (fun hn n hb => ⟨⟨x, hx, y, hy, hn, m, hm, hp, ?_⟩, ?_⟩)
  · refine ho ?_
    by_cases e : x.span = y.span
    · exact e
    · exact absurd (.inr (.inl (fun h => e h.symm))) hn
  · rcases hb with hb | hb
    · exact ⟨x, hx, hb⟩
    · exact ⟨y, hy, hb⟩

theorem overlap_span {x y m : Match} (h : y.span = x.span) (ho : Overlap y m) : Overlap x m := by
  obtain ⟨i, h1, h2⟩ := ho
  have e1 : y.start = x.start := congrArg Prod.fst h
  have e2 : y.stop = x.stop := congrArg Prod.snd h
  refine ⟨i, ?_, h2⟩
  unfold Covers at *
  rw [← e1, ← e2]; exact h1

theorem overlap_self {m : Match} (h : m.start < m.stop) : Overlap m m := ⟨m.start, ⟨by omega, by omega⟩, ⟨by omega, by omega⟩⟩

theorem conflictingF_tells {broken : Match → Option Nat} {s0 s : Matches} (ht : Tidy s0) (hs : Sim s0 s) (hid : OneObjectPerId s0.delegate) {m : Match}
    (hm : m ∈ s0.delegate) (hp : m.priv = false) :
    s.conflictingF broken m = s.conflicting m ∨ ∃ n s', Blame broken s0.delegate n ∧ s.conflictingF broken m = (s', .error (.user n)) := by
  have near : ∀ x, (x ∈ ([] : List Match) ∨ ∃ i ∈ pyRange m.start m.stop, x ∈ s0.indexDict.getList i) → x ∈ s0.delegate ∧ Overlap x m := by
    rintro x (hx | ⟨i, hi, hx⟩)
    · cases hx
    · obtain ⟨h1, h2⟩ := (index_covers ht.exact_).1 hx
      exact ⟨h1, i, h2, mem_pyRange.1 hi⟩
  rcases conflictLoopF_tells (B := Blame broken s0.delegate) (is := pyRange m.start m.stop) (acc := []) hs
      (fun x hx y hy => tells_near hid hm hp (near x hx).1 (near y hy).1 (fun _ => (near x hx).2)) with h1 | ⟨n, s', hn, h1⟩
  · have hret : ∀ y ∈ (conflictLoop (pyRange m.start m.stop) s []).2, y ∈ s0.delegate ∧ Overlap y m := by
      intro y hy
      rw [(conflictLoop_spec _ s []).2] at hy
      rcases addMissing_subset _ _ hy with hy | hy
      · cases hy
      · obtain ⟨i, hi, hy⟩ := List.mem_flatMap.1 hy
        rw [hs.index i] at hy
        exact near y (.inr ⟨i, hi, hy⟩)
    rcases removeFirstF_tells (B := Blame broken s0.delegate) (x := m) (l := (conflictLoop (pyRange m.start m.stop) s []).2)
        (fun y hy => tells_near hid hm hp hm (hret y hy).1 (fun e => overlap_span e.symm (hret y hy).2)) with h2 | ⟨n, hn, h2⟩
    · left
      simp only [conflictingF, h1, h2, conflicting]
      cases removeFirst (fun x => x.eqv m) (conflictLoop (pyRange m.start m.stop) s []).2 <;> rfl
    · right; exact ⟨n, (conflictLoop (pyRange m.start m.stop) s []).1, hn, by simp only [conflictingF, h1, h2]⟩
  · right; exact ⟨n, s', hn, by simp only [conflictingF, h1]⟩

theorem conflicting_from {s0 s : Matches} (ht : Tidy s0) (hs : Sim s0 s) {m : Match} {s' : Matches} {cs : List Match} (h : s.conflicting m = (s', .ok cs)) :
    Sim s0 s' ∧ ∀ y ∈ cs, y ∈ s0.delegate := by
  unfold conflicting at h
  obtain ⟨h1, h2⟩ := conflictLoop_spec (pyRange m.start m.stop) s []
  cases hr : removeFirst (fun x => x.eqv m) (conflictLoop (pyRange m.start m.stop) s []).2 with
  | none => simp only [hr] at h; cases h
  | some l =>
    simp only [hr] at h
    cases h
    refine ⟨hs.trans h1, ?_⟩
    intro y hy
    obtain ⟨a, z, c, e1, e2, _, _⟩ := removeFirst_some _ _ _ hr
    have hy' : y ∈ (conflictLoop (pyRange m.start m.stop) s []).2 := by
      rw [e1]; rw [e2] at hy
      rcases List.mem_append.1 hy with hy | hy
      · exact List.mem_append_left _ hy
      · exact List.mem_append_right _ (List.mem_cons_of_mem _ hy)
    rw [h2] at hy'
    rcases addMissing_subset _ _ hy' with hy' | hy'
    · cases hy'
    · obtain ⟨i, hi, hy'⟩ := List.mem_flatMap.1 hy'
      rw [hs.index i] at hy'
      exact ((index_covers ht.exact_).1 hy').1

/-! ## The conflict solver -/

/-- The answers of the solvers are among the two matches. -/
def Names (sv : Solvers) : Prop := ∀ m c r, askSolvers sv m c = .ok (.drop r) → r = m ∨ r = c

theorem own_names {custom : Nat → Match → Match → Except PyErr SolverRet} (h : Choosing custom) {x y r : Match}
    (hr : ownSolver (.withDefault custom) x y = .ok (.drop r)) : r = x ∨ r = y := by
  unfold ownSolver at hr
  cases hx : x.solver with
  | none => rw [hx] at hr; cases hr
  | some k => rw [hx] at hr; exact h k x y r hr

theorem default_names {m c r : Match} (h : defaultConflict m c = .ok (.drop r)) : r = m ∨ r = c := by
  unfold defaultConflict at h
  split at h
  · cases h
  · split at h
    · cases h; exact .inr rfl
    · split at h
      · cases h; exact .inl rfl
      · cases h

theorem names_of {custom : Nat → Match → Match → Except PyErr SolverRet} (h : Choosing custom) : Names (.withDefault custom) := by
  intro m c r hr
  unfold askSolvers at hr
  cases h1 : ownSolver (.withDefault custom) c m with
  | error e => rw [h1] at hr; cases hr
  | ok a =>
    rw [h1] at hr
    cases a with
    | keepBoth => cases hr
    | drop x => cases hr; exact (own_names h h1).symm
    | default =>
      simp only at hr
      cases h2 : ownSolver (.withDefault custom) m c with
      | error e => rw [h2] at hr; cases hr
      | ok a =>
        rw [h2] at hr
        cases a with
        | keepBoth => cases hr
        | drop x => cases hr; exact own_names h h2
        | default => exact default_names hr

theorem keeperF_tells {broken : Match → Option Nat} {B : Nat → Prop} {m c r : Match} (h1 : Tells broken B r m) (h2 : Tells broken B r c) :
    keeperF broken m c r = keeper m c r ∨ ∃ n, B n ∧ keeperF broken m c r = .error (.user n) := by
  rcases removeFirstF_tells (B := B) (x := r) (l := [m, c]) (fun y hy => by
      rcases List.mem_cons.1 hy with rfl | hy
      · exact h1
      · rw [List.mem_singleton] at hy; subst hy; exact h2) with h | ⟨n, hn, h⟩
  · left
    cases hm : m.eqv r with
    | true => simp [keeperF, h, keeper, removeFirst, hm]
    | false => cases hc : c.eqv r <;> simp [keeperF, h, keeper, removeFirst, hm, hc]
  · right; exact ⟨n, hn, by simp only [keeperF, h]⟩

theorem resolvePairF_tells {broken : Match → Option Nat} {B : Nat → Prop} {sv : Solvers} (hn : Names sv) {m c : Match} (set : List Match)
    (h : ∀ x, (x = m ∨ x = c) → ∀ y, (y = m ∨ y = c) → Tells broken B x y) :
    resolvePairF broken sv m c set = resolvePair sv m c set ∨ ∃ n, B n ∧ resolvePairF broken sv m c set = .error (.user n) := by
  unfold resolvePairF resolvePair
  cases ha : askSolvers sv m c with
  | error e => exact .inl rfl
  | ok a =>
    cases a with
    | default => exact .inl rfl
    | keepBoth => exact .inl rfl
    | drop r =>
      simp only
      unfold addRemovalF addRemoval
      cases r.truthy? with
      | error e => exact .inl rfl
      | ok t =>
        cases t with
        | false => exact .inl rfl
        | true =>
          simp only
          cases hin : inSet set r with
          | true => exact .inl rfl
          | false =>
            simp only [Bool.false_eq_true, if_false]
            have hr := hn m c r ha
            rcases keeperF_tells (h r hr m (.inl rfl)) (h r hr c (.inr rfl)) with hk | ⟨n, hb, hk⟩
            · left; rw [hk]; cases keeper m c r <;> rfl
            · right; exact ⟨n, hb, by rw [hk]⟩

theorem resolvePair_mem {sv : Solvers} (hn : Names sv) {m c : Match} {set set' : List Match} (h : resolvePair sv m c set = .ok set') :
    ∀ x ∈ set', x ∈ set ∨ x = m ∨ x = c := by
  unfold resolvePair at h
  cases ha : askSolvers sv m c with
  | error e => rw [ha] at h; cases h
  | ok a =>
    rw [ha] at h
    cases a with
    | default => cases h; exact fun x hx => .inl hx
    | keepBoth => cases h; exact fun x hx => .inl hx
    | drop r =>
      simp only at h
      unfold addRemoval at h
      cases ht : r.truthy? with
      | error e => rw [ht] at h; cases h
      | ok t =>
        rw [ht] at h
        cases t with
        | false => cases h; exact fun x hx => .inl hx
        | true =>
          simp only at h
          cases hin : inSet set r with
          | true => rw [hin] at h; cases h; exact fun x hx => .inl hx
          | false =>
            rw [hin] at h
            simp only [Bool.false_eq_true, if_false] at h
            cases hk : keeper m c r with
            | error e => rw [hk] at h; cases h
            | ok k =>
              rw [hk] at h
              simp only at h
              split at h
              · cases h; exact fun x hx => .inl hx
              · cases h
                intro x hx
                rcases List.mem_append.1 hx with hx | hx
                · exact .inl hx
                · rw [List.mem_singleton] at hx; subst hx; exact .inr (hn m c _ ha)

theorem resolvePairsF_tells {broken : Match → Option Nat} {B : Nat → Prop} {sv : Solvers} (hn : Names sv) {m : Match} : ∀ {cs : List Match} (set : List Match),
    (∀ x, (x = m ∨ x ∈ cs) → ∀ y, (y = m ∨ y ∈ cs) → Tells broken B x y) →
    resolvePairsF broken sv m cs set = resolvePairs sv m cs set ∨ ∃ n, B n ∧ resolvePairsF broken sv m cs set = .error (.user n)
  | [], set, _ => .inl rfl
  | c :: cs, set, h => by
    have h2 : ∀ x, (x = m ∨ x = c) → x = m ∨ x ∈ c :: cs := fun x hx => hx.imp id (fun e => by rw [e]; simp)
    have h3 : ∀ x, (x = m ∨ x ∈ cs) → x = m ∨ x ∈ c :: cs := fun x hx => hx.imp id (List.mem_cons_of_mem _)
    rcases resolvePairF_tells hn set (fun x hx y hy => h x (h2 x hx) y (h2 y hy)) with h1 | ⟨n, hb, h1⟩
    · simp only [resolvePairsF, resolvePairs, h1]
      cases resolvePair sv m c set with
      | error e => exact .inl rfl
      | ok set' => exact resolvePairsF_tells hn set' (fun x hx y hy => h x (h3 x hx) y (h3 y hy))
    · right; exact ⟨n, hb, by simp only [resolvePairsF, h1]⟩

theorem resolvePairs_mem {sv : Solvers} (hn : Names sv) {m : Match} : ∀ {cs set set' : List Match}, resolvePairs sv m cs set = .ok set' →
    ∀ x ∈ set', x ∈ set ∨ x = m ∨ x ∈ cs
  | [], set, _, h => by cases h; exact fun x hx => .inl hx
  | c :: cs, set, set', h => by
    unfold resolvePairs at h
    cases h1 : resolvePair sv m c set with
    | error e => rw [h1] at h; cases h
    | ok set1 =>
      rw [h1] at h
      intro x hx
      rcases resolvePairs_mem hn h x hx with hx | hx | hx
      · rcases resolvePair_mem hn h1 x hx with hx | hx | hx
        · exact .inl hx
        · exact .inr (.inl hx)
        · exact .inr (.inr (by rw [hx]; simp))
      · exact .inr (.inl hx)
      · exact .inr (.inr (List.mem_cons_of_mem _ hx))

/-- What the rules start from: a container with right indexes, of different objects, whose public matches are not empty. -/
structure Sound (s : Matches) : Prop where
  tidy : Tidy s
  objects : OneObjectPerId s.delegate
  nonEmpty : ∀ m ∈ s.delegate, m.priv = false → m.start < m.stop

theorem tells_public {broken : Match → Option Nat} {s : Matches} (h : Sound s) {x y : Match} (hx : x ∈ s.delegate) (hy : y ∈ s.delegate)
    (hp : x.priv = false ∨ y.priv = false) : Tells broken (Blame broken s.delegate) x y := by
  rcases hp with hp | hp
  · exact tells_near h.objects hx hp hx hy (fun _ => overlap_self (h.nonEmpty x hx hp))
  · exact tells_near h.objects hy hp hx hy (fun e => overlap_span e.symm (overlap_self (h.nonEmpty y hy hp)))

theorem sortByLen_perm {l r : List Match} (h : sortByLen l = .ok r) : r.Perm l := by
  unfold sortByLen at h
  split at h
  · cases h
  · cases h; exact pySorted_perm _ _

theorem resolveMatchF_tells {broken : Match → Option Nat} {sv : Solvers} (hn : Names sv) {s0 s : Matches} (h0 : Sound s0) (hs : Sim s0 s) {m : Match}
    (hm : m ∈ s0.delegate) (hp : m.priv = false) (set : List Match) :
    resolveMatchF broken sv m s set = resolveMatch sv m s set ∨
      ∃ n s', Blame broken s0.delegate n ∧ resolveMatchF broken sv m s set = (s', .error (.user n)) := by
  rcases conflictingF_tells (broken := broken) h0.tidy hs h0.objects hm hp with h1 | ⟨n, s', hb, h1⟩
  · unfold resolveMatchF resolveMatch
    rw [h1]
    cases hc : s.conflicting m with
    | mk s1 a =>
      cases a with
      | error e => exact .inl rfl
      | ok cs =>
        obtain ⟨_, hcs⟩ := conflicting_from h0.tidy hs hc
        simp only
        cases hemp : cs.isEmpty with
        | true => exact .inl rfl
        | false =>
          simp only [Bool.false_eq_true, if_false]
          cases hsort : sortByLen (publicOf cs) with
          | error e => exact .inl rfl
          | ok cs' =>
            simp only
            have hmem : ∀ x, (x = m ∨ x ∈ cs') → x ∈ s0.delegate ∧ x.priv = false := by
              rintro x (rfl | hx)
              · exact ⟨hm, hp⟩
              · obtain ⟨g1, g2⟩ := mem_publicOf.1 ((sortByLen_perm hsort).mem_iff.1 hx)
                exact ⟨hcs x g1, g2⟩
            rcases resolvePairsF_tells (B := Blame broken s0.delegate) hn set
                (fun x hx y hy => tells_public h0 (hmem x hx).1 (hmem y hy).1 (.inl (hmem x hx).2)) with h2 | ⟨n, hb, h2⟩
            · left; rw [h2]
            · right; exact ⟨n, s1, hb, by rw [h2]⟩
  · right; exact ⟨n, s', hb, by simp only [resolveMatchF, h1]⟩

theorem resolveMatch_mem {sv : Solvers} (hn : Names sv) {s0 s s' : Matches} (h0 : Sound s0) (hs : Sim s0 s) {m : Match} (hm : m ∈ s0.delegate) (hp : m.priv = false)
    {set set' : List Match} (h : resolveMatch sv m s set = (s', .ok set')) (hset : ∀ x ∈ set, x ∈ s0.delegate ∧ x.priv = false) :
    ∀ x ∈ set', x ∈ s0.delegate ∧ x.priv = false := by
  unfold resolveMatch at h
  cases hc : s.conflicting m with
  | mk s1 a =>
    rw [hc] at h
    cases a with
    | error e => cases h
    | ok cs =>
      obtain ⟨_, hcs⟩ := conflicting_from h0.tidy hs hc
      simp only at h
      cases hemp : cs.isEmpty with
      | true => rw [hemp] at h; cases h; exact hset
      | false =>
        rw [hemp] at h
        simp only [Bool.false_eq_true, if_false] at h
        cases hsort : sortByLen (publicOf cs) with
        | error e => rw [hsort] at h; cases h
        | ok cs' =>
          rw [hsort] at h
          simp only [Prod.mk.injEq] at h
          intro x hx
          rcases resolvePairs_mem hn h.2 x hx with hx | rfl | hx
          · exact hset x hx
          · exact ⟨hm, hp⟩
          · obtain ⟨g1, g2⟩ := mem_publicOf.1 ((sortByLen_perm hsort).mem_iff.1 hx)
            exact ⟨hcs x g1, g2⟩

theorem resolveMatchesF_tells {broken : Match → Option Nat} {sv : Solvers} (hn : Names sv) {s0 : Matches} (h0 : Sound s0) : ∀ {ms : List Match} {s : Matches} {set : List Match},
    Sim s0 s → (∀ m ∈ ms, m ∈ s0.delegate ∧ m.priv = false) → (∀ x ∈ set, x ∈ s0.delegate ∧ x.priv = false) →
    (resolveMatchesF broken sv ms s set = resolveMatches sv ms s set ∧
        ∀ s' set', resolveMatches sv ms s set = (s', .ok set') → ∀ x ∈ set', x ∈ s0.delegate ∧ x.priv = false) ∨
      ∃ n s', Blame broken s0.delegate n ∧ resolveMatchesF broken sv ms s set = (s', .error (.user n))
  | [], s, set, _, _, hset => .inl ⟨rfl, fun s' set' h => by cases h; exact hset⟩
  | m :: ms, s, set, hs, hms, hset => by
    obtain ⟨hm, hp⟩ := hms m List.mem_cons_self
    rcases resolveMatchF_tells (broken := broken) hn h0 hs hm hp set with h1 | ⟨n, s', hb, h1⟩
    · simp only [resolveMatchesF, resolveMatches, h1]
      have hsim := resolveMatch_sim sv m s set
      cases hr : resolveMatch sv m s set with
      | mk s1 a =>
        rw [hr] at hsim
        cases a with
        | error e => exact .inl ⟨rfl, fun s' set' h => by cases h⟩
        | ok set1 =>
          exact resolveMatchesF_tells hn h0 (hs.trans hsim) (fun x hx => hms x (List.mem_cons_of_mem _ hx)) (resolveMatch_mem hn h0 hs hm hp hr hset)
    · right; exact ⟨n, s', hb, by simp only [resolveMatchesF, h1]⟩

theorem conflictWhenF_tells {broken : Match → Option Nat} {sv : Solvers} (hn : Names sv) {s : Matches} (h0 : Sound s) :
    (conflictWhenF broken sv s = conflictWhen sv s ∧ ∀ s' set, conflictWhen sv s = (s', .ok set) → ∀ x ∈ set, x ∈ s.delegate ∧ x.priv = false) ∨
      ∃ n s', Blame broken s.delegate n ∧ conflictWhenF broken sv s = (s', .error (.user n)) := by
  unfold conflictWhenF conflictWhen
  cases hsort : sortByLen (publicOf s.delegate) with
  | error e => exact .inl ⟨rfl, fun s' set h => by cases h⟩
  | ok ms =>
    simp only
    exact resolveMatchesF_tells hn h0 (Sim.refl s) (fun m hm => mem_publicOf.1 ((sortByLen_perm hsort).mem_iff.1 hm)) (fun x hx => by cases hx)

/-! ## Removing matches -/

theorem findF_reach {broken : Match → Option Nat} {B : Nat → Prop} {x : Match} : ∀ {A : List Match} (R : List Match), (∀ y ∈ A, Tells broken B x y) →
    findF (eqvF broken x) (A ++ x :: R) = .ok ((A ++ x :: R).findIdx? (fun y => y.eqv x)) ∨ ∃ n, B n ∧ findF (eqvF broken x) (A ++ x :: R) = .error (.user n)
  | [], R, _ => .inl (by simp only [List.nil_append, findF, eqvF_self broken rfl, List.findIdx?_cons, Match.eqv_refl, if_true])
  | y :: A, R, h => by
    rw [List.cons_append]
    rcases h y List.mem_cons_self with h1 | ⟨n, hn, h1⟩
    · cases he : y.eqv x with
      | true => left; simp only [findF, h1, he, List.findIdx?_cons, if_true]
      | false =>
        rcases findF_reach R (fun z hz => h z (List.mem_cons_of_mem _ hz)) with h2 | ⟨n, hn, h2⟩
        · left; simp only [findF, h1, he, h2, List.findIdx?_cons, Bool.false_eq_true, if_false]
        · right; exact ⟨n, hn, by simp only [findF, h1, he, h2]⟩
    · right; exact ⟨n, hn, by simp only [findF, h1]⟩

/-- When the search for the match did not raise, the removal does not. -/
theorem removeF_found {broken : Match → Option Nat} {s : Matches} (ht : Tidy s) {m : Match} (hid : OneObjectPerId (m :: s.delegate)) {r : Option Nat}
    (hf : findF (eqvF broken m) s.delegate = .ok r) : s.removeF broken m = s.remove m := by
  rcases findF_spec (broken := broken) (m := m) s.delegate with ⟨e, before, y, after, h1, _, _, _⟩ | ⟨before, y, after, h1, h2, h3, h4⟩ | ⟨h1, h2⟩
  · rw [hf] at h1; cases h1
  · have hy : y.eqv m = true := by
      by_cases hi : y.id = m.id
      · rw [hid y (List.mem_cons_of_mem _ (by rw [h2]; simp)) m List.mem_cons_self hi]; exact Match.eqv_refl m
      · exact (eqvF_ok h4 hi).1.symm
    have hfind : s.delegate.findIdx? (fun x => x.eqv m) = some before.length := by
      rw [h2]
      exact findIdx_split (fun x hx => (ok_false (h3 x hx)).2.1) hy
    simp only [removeF, h1, Matches.remove, hfind]
    refine delItemF_pass ht.exact_ h2 ?_ ?_
    · intro z hz
      obtain ⟨k1, k2, k3⟩ := ok_false (h3 z hz)
      have hzy : z.eqv y = false := by
        have : z.eqv y = z.eqv m := by
          rw [Match.eqv_eq_decide, Match.eqv_eq_decide, (Match.eqv_iff y m).1 hy]
        rw [this]; exact k2
      have hne : z.id ≠ y.id := by
        intro hi
        have := hid z (List.mem_cons_of_mem _ (by rw [h2]; exact List.mem_append_left _ hz)) y (List.mem_cons_of_mem _ (by rw [h2]; simp)) hi
        rw [this, Match.eqv_refl] at hzy; cases hzy
      refine ⟨?_, hzy⟩
      rw [← hzy]
      refine eqvF_of_safe hne (fun hs => ?_)
      have hsm : z.span = m.span := by rw [hs]; exact eqv_same_span hy
      obtain ⟨b1, b2⟩ := (eqvF_ok (h3 z hz) k3).2 hsm
      refine ⟨b1, ?_⟩
      by_cases hi : y.id = m.id
      · rw [hid y (List.mem_cons_of_mem _ (by rw [h2]; simp)) m List.mem_cons_self hi]; exact b2
      · exact ((eqvF_ok h4 hi).2 (eqv_same_span hy)).1
    · rw [h2]
      unfold normIdx
      rw [if_pos (by omega), if_pos (by simp; omega)]
      rfl
  · have hfind : s.delegate.findIdx? (fun x => x.eqv m) = none := by
      rw [List.findIdx?_eq_none_iff]
      intro x hx
      exact (ok_false (h2 x hx)).2.1
    simp only [removeF, h1, Matches.remove, hfind]

theorem oneObject_sub {l l' : List Match} (h : OneObjectPerId l) (hs : ∀ x ∈ l', x ∈ l) : OneObjectPerId l' :=
  fun a ha b hb => h a (hs a ha) b (hs b hb)

/-- One step of the loop of `RemoveMatch.then`. -/
theorem removeStepF {broken : Match → Option Nat} {B : Nat → Prop} {s : Matches} (ht : Tidy s) {m : Match} (hid : OneObjectPerId (m :: s.delegate)) (ms : List Match)
    (hf : findF (eqvF broken m) s.delegate = .ok (s.delegate.findIdx? (fun y => y.eqv m)) ∨ ∃ n, B n ∧ findF (eqvF broken m) s.delegate = .error (.user n))
    (next : ∀ s1 : Matches, Tidy s1 → (¬ Holds s.delegate m ∧ s1 = s ∨
        (∃ before x after, s.delegate = before ++ x :: after ∧ ¬ Holds before m ∧ x.eqv m = true ∧ s1.delegate = before ++ after)) →
      removeEachF broken ms s1 = removeEach ms s1 ∨ ∃ n s', B n ∧ removeEachF broken ms s1 = (s', .error (.user n))) :
    removeEachF broken (m :: ms) s = removeEach (m :: ms) s ∨ ∃ n s', B n ∧ removeEachF broken (m :: ms) s = (s', .error (.user n)) := by
  rcases hf with hf | ⟨n, hb, hf⟩
  · have hh : hasF broken s.delegate m = .ok (s.has m) := by
      simp only [hasF, hf, Matches.has]
      rw [List.findIdx?_isSome]
    cases hc : s.has m with
    | true =>
      have hh' := (has_iff s m).1 hc
      obtain ⟨h1, h2, _, h4⟩ := remove_step ht.inv m hh'
      have h5 := exact_remove ht.inv ht.exact_ m
      rw [hc] at hh
      simp only [removeEachF, removeEach, hh, hc, if_true, removeF_found ht hid hf]
      cases hr : s.remove m with
      | mk s1 e =>
        rw [hr] at h1 h2 h4 h5
        simp only at h1; subst h1
        simp only
        rcases next s1 ⟨h2, h5⟩ (.inr h4) with h6 | ⟨n, s', hb, h6⟩
        · left; rw [h6]; rfl
        · right; exact ⟨n, s', hb, by rw [h6]⟩
    | false =>
      rw [hc] at hh
      simp only [removeEachF, removeEach, hh, hc, Bool.false_eq_true, if_false]
      exact next s ht (.inl ⟨fun h => (by rw [(has_iff s m).2 h] at hc; cases hc), rfl⟩)
  · right; exact ⟨n, s, hb, by simp only [removeEachF, hasF, hf]⟩

/-- The matches removed by the conflict solver. -/
theorem removeEachF_public {broken : Match → Option Nat} {s0 : Matches} (h0 : Sound s0) : ∀ {ms : List Match} {s : Matches}, Tidy s →
    (∀ x ∈ s.delegate, x ∈ s0.delegate) → (∀ m ∈ ms, m ∈ s0.delegate ∧ m.priv = false) →
    removeEachF broken ms s = removeEach ms s ∨ ∃ n s', Blame broken s0.delegate n ∧ removeEachF broken ms s = (s', .error (.user n))
  | [], _, _, _, _ => .inl rfl
  | m :: ms, s, ht, hsub, hms => by
    obtain ⟨hm, hp⟩ := hms m List.mem_cons_self
    refine removeStepF ht (oneObject_sub h0.objects ?_) ms (findF_tells (fun y hy => tells_public h0 hm (hsub y hy) (.inl hp))) ?_
    · intro x hx
      rcases List.mem_cons.1 hx with rfl | hx
      · exact hm
      · exact hsub x hx
    · rintro s1 ht1 hs1
      refine removeEachF_public h0 ht1 ?_ (fun x hx => hms x (List.mem_cons_of_mem _ hx))
      intro x hx
      rcases hs1 with ⟨_, rfl⟩ | ⟨b, z, a, e1, _, _, e2⟩
      · exact hsub x hx
      · refine hsub x ?_
        rw [e1]; rw [e2] at hx
        rcases List.mem_append.1 hx with hx | hx
        · exact List.mem_append_left _ hx
        · exact List.mem_append_right _ (List.mem_cons_of_mem _ hx)

/-- Private matches, from the left: those already met and still there have the span of a public one. -/
theorem removeEachF_private {broken : Match → Option Nat} {s0 : Matches} (h0 : Sound s0) : ∀ {rest met : List Match} {s : Matches}, Tidy s →
    s.delegate = met ++ rest → (∀ x ∈ met ++ rest, x ∈ s0.delegate) →
    (∀ y ∈ met, ∃ q ∈ s0.delegate, q.priv = false ∧ q.span = y.span) →
    removeEachF broken (rest.filter (fun m => m.priv)) s = removeEach (rest.filter (fun m => m.priv)) s ∨
      ∃ n s', Blame broken s0.delegate n ∧ removeEachF broken (rest.filter (fun m => m.priv)) s = (s', .error (.user n))
  | [], _, _, _, _, _, _ => .inl rfl
  | m :: rest, met, s, ht, hd, hsub, hmate => by
    have hm : m ∈ s0.delegate := hsub m (by simp)
    cases hp : m.priv with
    | false =>
      rw [List.filter_cons_of_neg (by simp [hp])]
      refine removeEachF_private h0 (met := met ++ [m]) ht (by rw [hd]; simp) (fun x hx => hsub x (by simpa using hx)) ?_
      intro y hy
      rcases List.mem_append.1 hy with hy | hy
      · exact hmate y hy
      · rw [List.mem_singleton] at hy; subst hy; exact ⟨y, hm, hp, rfl⟩
    | true =>
      rw [List.filter_cons_of_pos (by simp [hp])]
      refine removeStepF ht (oneObject_sub h0.objects ?_) _ ?_ ?_
      · intro x hx
        rcases List.mem_cons.1 hx with rfl | hx
        · exact hm
        · exact hsub x (by rw [← hd]; exact hx)
      · rw [hd]
        refine findF_reach rest (fun y hy => ?_)
        obtain ⟨q, hq, hqp, hqs⟩ := hmate y hy
        exact tells_near h0.objects hq hqp hm (hsub y (List.mem_append_left _ hy))
          (fun e => overlap_span (hqs.trans e.symm) (overlap_self (h0.nonEmpty q hq hqp)))
      · rintro s1 ht1 (⟨hno, _⟩ | ⟨b, x, a, e1, e2, e3, e4⟩)
        · exact absurd ⟨m, by rw [hd]; simp, Match.eqv_refl m⟩ hno
        · rw [hd] at e1
          rcases List.append_eq_append_iff.1 e1 with ⟨c, c1, c2⟩ | ⟨c, c1, c2⟩
          · -- the removed one is not before `m`
            cases c with
            | nil =>
              simp only [List.append_nil, List.nil_append, List.cons.injEq] at c1 c2
              obtain ⟨rfl, rfl⟩ := c2
              subst c1
              refine removeEachF_private h0 (met := b) ht1 e4 (fun x hx => hsub x ?_) hmate
              rcases List.mem_append.1 hx with hx | hx <;> simp [hx]
            | cons z c =>
              simp only [List.cons_append, List.cons.injEq] at c2
              obtain ⟨rfl, _⟩ := c2
              exact absurd ⟨m, by rw [c1]; simp, Match.eqv_refl m⟩ e2
          · cases c with
            | nil =>
              simp only [List.append_nil, List.nil_append, List.cons.injEq] at c1 c2
              obtain ⟨rfl, rfl⟩ := c2
              subst c1
              refine removeEachF_private h0 (met := met) ht1 e4 (fun x hx => hsub x ?_) hmate
              rcases List.mem_append.1 hx with hx | hx <;> simp [hx]
            | cons z c =>
              simp only [List.cons_append, List.cons.injEq] at c2
              obtain ⟨rfl, rfl⟩ := c2
              -- a match met before is removed in its place
              refine removeEachF_private h0 (met := b ++ c ++ [m]) ht1 (by rw [e4]; simp) (fun y hy => hsub y ?_) ?_
              · rw [c1]
                simp only [List.append_assoc, List.cons_append, List.nil_append, List.mem_append, List.mem_cons] at hy ⊢
                rcases hy with h | h | h | h <;> simp [h]
              · intro y hy
                rcases List.mem_append.1 hy with hy | hy
                · refine hmate y ?_
                  rw [c1]
                  rcases List.mem_append.1 hy with hy | hy <;> simp [hy]
                · rw [List.mem_singleton] at hy; subst hy
                  obtain ⟨q, hq, hqp, hqs⟩ := hmate x (by rw [c1]; simp)
                  exact ⟨q, hq, hqp, hqs.trans (eqv_same_span e3)⟩

/-! ## The rules -/

theorem conflictRuleF_tells {broken : Match → Option Nat} {sv : Solvers} (hn : Names sv) {order : List Match → List Match} (ho : ∀ l, (order l).Perm l) {s : Matches}
    (h0 : Sound s) (r : RuleRef) :
    (executeRule listTruthy (conflictRuleF broken sv order) r s = executeRule listTruthy (conflictRule sv order) r s ∧
      ((executeRule listTruthy (conflictRule sv order) r s).err = none → Tidy (executeRule listTruthy (conflictRule sv order) r s).state ∧
        ∀ x ∈ (executeRule listTruthy (conflictRule sv order) r s).state.delegate, x ∈ s.delegate)) ∨
    ∃ n, Blame broken s.delegate n ∧ (executeRule listTruthy (conflictRuleF broken sv order) r s).err = some (.user n) := by
  have hwF : (conflictRuleF broken sv order).when_ s = conflictWhenF broken sv s := rfl
  have hw : (conflictRule sv order).when_ s = conflictWhen sv s := rfl
  unfold executeRule
  rw [if_pos (show (conflictRuleF broken sv order).enabled s = true from rfl), if_pos (show (conflictRule sv order).enabled s = true from rfl), hwF, hw]
  rcases conflictWhenF_tells (broken := broken) hn h0 with ⟨h1, hmem⟩ | ⟨n, s', hb, h1⟩
  · rw [h1]
    have hsim := conflictWhen_sim sv s
    cases hc : conflictWhen sv s with
    | mk s1 a =>
      rw [hc] at hsim
      have ht1 := h0.tidy.sim hsim
      cases a with
      | error e => exact .inl ⟨rfl, fun h => by cases h⟩
      | ok set =>
        simp only
        cases htr : listTruthy set with
        | false => exact .inl ⟨rfl, fun _ => ⟨ht1, fun x hx => by rw [← hsim.delegate]; exact hx⟩⟩
        | true =>
          simp only [if_true]
          have htF : (conflictRuleF broken sv order).then_ s1 set = dropAnswer (answerMany (removeEachF broken (order set) s1)) := rfl
          have ht : (conflictRule sv order).then_ s1 set = dropAnswer (answerMany (removeEach (order set) s1)) := rfl
          rw [htF, ht]
          have hset : ∀ x ∈ order set, x ∈ s.delegate ∧ x.priv = false := fun x hx => hmem s1 set hc x ((ho set).mem_iff.1 hx)
          rcases removeEachF_public (broken := broken) h0 ht1 (fun x hx => by rw [← hsim.delegate]; exact hx) hset with h2 | ⟨n, s', hb, h2⟩
          · left
            rw [h2]
            refine ⟨rfl, fun _ => ?_⟩
            obtain ⟨ret, r1, r2, _, r4, _⟩ := removeEach_spec (order set) ht1.inv
            have r5 := exact_removeEach (order set) ht1.inv ht1.exact_
            cases hr : removeEach (order set) s1 with
            | mk s2 e =>
              rw [hr] at r1 r2 r4 r5
              simp only at r1; subst r1
              refine ⟨⟨r2, r5⟩, fun x hx => ?_⟩
              rw [← hsim.delegate]
              exact (removes_sublist r4).1.subset hx
          · right
            refine ⟨n, hb, ?_⟩
            rw [h2]; rfl
  · right
    exact ⟨n, hb, by rw [h1]⟩

theorem privateRuleF_tells {broken : Match → Option Nat} {s0 s : Matches} (h0 : Sound s0) (ht : Tidy s) (hsub : ∀ x ∈ s.delegate, x ∈ s0.delegate) (r : RuleRef) :
    executeRule listTruthy (privateRuleF broken) r s = executeRule listTruthy privateRule r s ∨
    ∃ n, Blame broken s0.delegate n ∧ (executeRule listTruthy (privateRuleF broken) r s).err = some (.user n) := by
  have hwF : (privateRuleF broken).when_ s = (s, .ok (privateWhen s)) := rfl
  have hw : privateRule.when_ s = (s, .ok (privateWhen s)) := rfl
  unfold executeRule
  rw [if_pos (show (privateRuleF broken).enabled s = true from rfl), if_pos (show privateRule.enabled s = true from rfl), hwF, hw]
  simp only
  cases htr : listTruthy (privateWhen s) with
  | false => exact .inl rfl
  | true =>
    simp only [if_true]
    have htF : (privateRuleF broken).then_ s (privateWhen s) = dropAnswer (answerMany (removeEachF broken (privateWhen s) s)) := rfl
    have ht' : privateRule.then_ s (privateWhen s) = dropAnswer (answerMany (removeEach (privateWhen s) s)) := rfl
    rw [htF, ht']
    rcases removeEachF_private (broken := broken) h0 (rest := s.delegate) (met := []) ht rfl hsub (fun y hy => by cases hy) with h2 | ⟨n, s', hb, h2⟩
    · left
      have h2 : removeEachF broken (privateWhen s) s = removeEach (privateWhen s) s := h2
      rw [h2]
    · right
      have h2 : removeEachF broken (privateWhen s) s = (s', .error (.user n)) := h2
      refine ⟨n, hb, ?_⟩
      rw [h2]; rfl

/-! ## A clash is met -/

/-- The matches compared so far can all be compared: each is in the list, or could be read and has the span of one in the list that could. -/
structure Compared (broken : Match → Option Nat) (acc seen : List Match) : Prop where
  sub : ∀ x ∈ acc, x ∈ seen
  stand : ∀ x ∈ seen, ∃ y ∈ acc, y.id = x.id ∨ (y.span = x.span ∧ broken x = none ∧ broken y = none)
  safe : ∀ x ∈ seen, ∀ y ∈ seen, SafePair broken x y

theorem compared_add {broken : Match → Option Nat} {acc seen : List Match} (h : Compared broken acc seen) {x : Match} (hid : OneObjectPerId (x :: seen)) {b : Bool}
    (hh : hasF broken acc x = .ok b) : Compared broken (if b then acc else acc ++ [x]) (seen ++ [x]) := by
  unfold hasF at hh
  have key : ∀ {P : Prop}, (b = true → (∃ y ∈ acc, y.id = x.id ∨ (y.span = x.span ∧ broken x = none ∧ broken y = none)) → (∀ y ∈ acc, SafePair broken x y) → P) →
      (b = false → (∀ y ∈ acc, SafePair broken x y) → P) → P := by
    intro P k1 k2
    rcases findF_spec (broken := broken) (m := x) acc with ⟨e, _, _, _, g1, _, _, _⟩ | ⟨before, y, after, g1, g2, g3, g4⟩ | ⟨g1, g2⟩
    · rw [g1] at hh; cases hh
    · rw [g1] at hh
      cases hh
      have hy : y ∈ acc := by rw [g2]; simp
      have hst : y.id = x.id ∨ (y.span = x.span ∧ broken x = none ∧ broken y = none) := by
        by_cases hi : y.id = x.id
        · exact .inl hi
        · obtain ⟨e1, e2⟩ := eqvF_ok g4 hi
          have hs := eqv_same_span e1.symm
          exact .inr ⟨hs, (e2 hs).2, (e2 hs).1⟩
      refine k1 rfl ⟨y, hy, hst⟩ (fun z hz => ?_)
      have hyz := h.safe y (h.sub y hy) z (h.sub z hz)
      rcases hst with hst | ⟨s1, s2, s3⟩
      · have : y = x := hid y (List.mem_cons_of_mem _ (h.sub y hy)) x List.mem_cons_self hst
        rw [← this]; exact hyz
      · rcases hyz with e | e | e
        · have : z = y := hid z (List.mem_cons_of_mem _ (h.sub z hz)) y (List.mem_cons_of_mem _ (h.sub y hy)) e
          rw [this]; exact .inr (.inr ⟨s3, s2⟩)
        · exact .inr (.inl (by rw [← s1]; exact e))
        · exact .inr (.inr ⟨e.1, s2⟩)
    · rw [g1] at hh
      cases hh
      exact k2 rfl (fun y hy => (ok_false (g2 y hy)).1)
  -- `x` can be compared with all those seen, as it can with those in the list
  have ext : (∀ y ∈ acc, SafePair broken x y) → ∀ z ∈ seen, SafePair broken x z := by
    intro ha z hz
    obtain ⟨y, hy, hst⟩ := h.stand z hz
    have hxy := ha y hy
    rcases hst with hst | ⟨s1, s2, s3⟩
    · have : y = z := hid y (List.mem_cons_of_mem _ (h.sub y hy)) z (List.mem_cons_of_mem _ hz) hst
      rw [← this]; exact hxy
    · rcases hxy with e | e | e
      · have : y = x := hid y (List.mem_cons_of_mem _ (h.sub y hy)) x List.mem_cons_self e
        rw [← this]
        exact .inr (.inr ⟨s2, s3⟩)
      · exact .inr (.inl (by rw [← s1]; exact e))
      · exact .inr (.inr ⟨s2, e.2⟩)
  have all : (∀ y ∈ acc, SafePair broken x y) → ∀ a ∈ seen ++ [x], ∀ c ∈ seen ++ [x], SafePair broken a c := by
    intro ha a hx c hy
    rcases List.mem_append.1 hx with hx' | hx' <;> rcases List.mem_append.1 hy with hy' | hy'
    · exact h.safe a hx' c hy'
    · rw [List.mem_singleton] at hy'; rw [hy']; exact SafePair.symm (ext ha a hx')
    · rw [List.mem_singleton] at hx'; rw [hx']; exact ext ha c hy'
    · rw [List.mem_singleton] at hx' hy'; rw [hx', hy']; exact .inl rfl
  refine key ?_ ?_
  · rintro rfl hst ha
    simp only [if_true]
    refine ⟨fun y hy => List.mem_append_left _ (h.sub y hy), ?_, all ha⟩
    intro z hz
    rcases List.mem_append.1 hz with hz | hz
    · exact h.stand z hz
    · rw [List.mem_singleton] at hz; subst hz; exact hst
  · rintro rfl ha
    simp only [Bool.false_eq_true, if_false]
    refine ⟨?_, ?_, all ha⟩
    · intro y hy
      rcases List.mem_append.1 hy with hy | hy
      · exact List.mem_append_left _ (h.sub y hy)
      · exact List.mem_append_right _ hy
    · intro z hz
      rcases List.mem_append.1 hz with hz | hz
      · obtain ⟨y, hy, hst⟩ := h.stand z hz
        exact ⟨y, List.mem_append_left _ hy, hst⟩
      · exact ⟨x, by simp, by rw [List.mem_singleton] at hz; subst hz; exact .inl rfl⟩

theorem compared_all {broken : Match → Option Nat} : ∀ {l acc seen acc' : List Match}, Compared broken acc seen → OneObjectPerId (seen ++ l) →
    addMissingF broken acc l = .ok acc' → Compared broken acc' (seen ++ l)
  | [], acc, seen, acc', h, _, hr => by cases hr; rw [List.append_nil]; exact h
  | x :: l, acc, seen, acc', h, hid, hr => by
    unfold addMissingF at hr
    have hid1 : OneObjectPerId (x :: seen) := oneObject_sub hid (fun y hy => by
      rcases List.mem_cons.1 hy with rfl | hy
      · simp
      · exact List.mem_append_left _ hy)
    have hid2 : OneObjectPerId (seen ++ [x] ++ l) := by rw [List.append_assoc]; exact hid
    cases hh : hasF broken acc x with
    | error e => rw [hh] at hr; cases hr
    | ok b =>
      rw [hh] at hr
      have h1 := compared_add h hid1 hh
      rw [show seen ++ x :: l = seen ++ [x] ++ l by simp]
      cases b with
      | true => exact compared_all h1 hid2 hr
      | false => exact compared_all h1 hid2 hr

theorem compared_loop {broken : Match → Option Nat} {s0 : Matches} (ht : Tidy s0) (hid : OneObjectPerId s0.delegate) : ∀ {is : List Int} {s s' : Matches} {acc seen acc' : List Match},
    Sim s0 s → Compared broken acc seen → (∀ x ∈ seen, x ∈ s0.delegate) → conflictLoopF broken is s acc = (s', .ok acc') →
    Compared broken acc' (seen ++ is.flatMap (fun i => s0.indexDict.getList i))
  | [], s, s', acc, seen, acc', _, h, _, hr => by cases hr; rw [List.flatMap_nil, List.append_nil]; exact h
  | i :: is, s, s', acc, seen, acc', hs, h, hsub, hr => by
    have hl : (s.lookIndex i).2 = s0.indexDict.getList i := by
      show s.indexDict.getList i = _
      exact hs.index i
    have hsub2 : ∀ x ∈ seen ++ s0.indexDict.getList i, x ∈ s0.delegate := by
      intro x hx
      rcases List.mem_append.1 hx with hx | hx
      · exact hsub x hx
      · exact ((index_covers ht.exact_).1 hx).1
    unfold conflictLoopF at hr
    cases ha : addMissingF broken acc (s.lookIndex i).2 with
    | error e => rw [ha] at hr; cases hr
    | ok acc1 =>
      rw [ha] at hr
      rw [hl] at ha
      have h1 := compared_all h (oneObject_sub hid hsub2) ha
      have := compared_loop ht hid (hs.trans (lookIndex_sim s i)) h1 hsub2 hr
      rw [List.flatMap_cons, ← List.append_assoc]
      exact this

/-- `conflicting` of a public match raises when matches around it cannot be compared. -/
theorem conflictingF_raises {broken : Match → Option Nat} {s0 s : Matches} (h0 : Sound s0) (hs : Sim s0 s) {m a b : Match} (hm : m ∈ s0.delegate)
    (ha : a ∈ s0.delegate) (hb : b ∈ s0.delegate) (hab : ¬ SafePair broken a b) (ho : Overlap a m) : ∃ s' e, s.conflictingF broken m = (s', .error e) := by
  obtain ⟨i, hi1, hi2⟩ := ho
  have hspan : b.span = a.span := by
    by_cases e : b.span = a.span
    · exact e
    · exact absurd (.inr (.inl e)) hab
  have hi3 : Covers b i := by
    have e1 : b.start = a.start := congrArg Prod.fst hspan
    have e2 : b.stop = a.stop := congrArg Prod.snd hspan
    unfold Covers at *
    rw [e1, e2]; exact hi1
  have hir : i ∈ pyRange m.start m.stop := mem_pyRange.2 hi2
  unfold conflictingF
  cases hr : conflictLoopF broken (pyRange m.start m.stop) s [] with
  | mk s' r =>
    cases r with
    | error e => exact ⟨s', e, rfl⟩
    | ok ret =>
      have h1 := compared_loop h0.tidy h0.objects (acc := []) (seen := []) hs ⟨fun x hx => (by cases hx), fun x hx => (by cases hx), fun x hx => (by cases hx)⟩ (fun x hx => (by cases hx)) hr
      refine absurd (h1.safe a ?_ b ?_) hab
      · exact List.mem_append_right _ (List.mem_flatMap.2 ⟨i, hir, (index_covers h0.tidy.exact_).2 ⟨ha, hi1⟩⟩)
      · exact List.mem_append_right _ (List.mem_flatMap.2 ⟨i, hir, (index_covers h0.tidy.exact_).2 ⟨hb, hi3⟩⟩)

theorem conflictLoopF_sim {broken : Match → Option Nat} : ∀ (is : List Int) (s : Matches) (acc : List Match), Sim s (conflictLoopF broken is s acc).1
  | [], s, _ => Sim.refl s
  | i :: is, s, acc => by
    unfold conflictLoopF
    cases addMissingF broken acc (s.lookIndex i).2 with
    | error e => exact lookIndex_sim s i
    | ok acc1 => exact (lookIndex_sim s i).trans (conflictLoopF_sim is _ acc1)

theorem resolveMatchF_sim {broken : Match → Option Nat} (sv : Solvers) (m : Match) (s : Matches) (set : List Match) : Sim s (resolveMatchF broken sv m s set).1 := by
  have hc : Sim s (s.conflictingF broken m).1 := by
    have := conflictLoopF_sim (broken := broken) (pyRange m.start m.stop) s []
    unfold conflictingF
    cases hr : conflictLoopF broken (pyRange m.start m.stop) s [] with
    | mk s' r =>
      rw [hr] at this
      cases r with
      | error e => exact this
      | ok ret =>
        simp only
        cases removeFirstF (eqvF broken m) ret with
        | error e => exact this
        | ok o => cases o <;> exact this
  unfold resolveMatchF
  cases hr : s.conflictingF broken m with
  | mk s' r =>
    rw [hr] at hc
    cases r with
    | error e => exact hc
    | ok cs =>
      simp only
      cases cs.isEmpty with
      | true => exact hc
      | false =>
        simp only [Bool.false_eq_true, if_false]
        cases sortByLen (publicOf cs) <;> exact hc

theorem resolveMatchesF_raises {broken : Match → Option Nat} {sv : Solvers} {s0 : Matches} (h0 : Sound s0) {m a b : Match} (hm : m ∈ s0.delegate)
    (ha : a ∈ s0.delegate) (hb : b ∈ s0.delegate) (hab : ¬ SafePair broken a b) (ho : Overlap a m) : ∀ {ms : List Match} {s : Matches} {set : List Match},
    Sim s0 s → m ∈ ms → ∃ s' e, resolveMatchesF broken sv ms s set = (s', .error e)
  | [], _, _, _, hin => by cases hin
  | x :: ms, s, set, hs, hin => by
    have hsim := resolveMatchF_sim (broken := broken) sv x s set
    unfold resolveMatchesF
    cases hr : resolveMatchF broken sv x s set with
    | mk s' r =>
      rw [hr] at hsim
      cases r with
      | error e => exact ⟨s', e, rfl⟩
      | ok set' =>
        simp only
        rcases List.mem_cons.1 hin with rfl | hin
        · obtain ⟨s1, e, h1⟩ := conflictingF_raises h0 hs hm ha hb hab ho
          unfold resolveMatchF at hr
          rw [h1] at hr
          cases hr
        · exact resolveMatchesF_raises h0 hm ha hb hab ho (hs.trans hsim) hin

theorem conflictWhenF_raises {broken : Match → Option Nat} {sv : Solvers} {s : Matches} (h0 : Sound s) (hc : Clash broken s.delegate) :
    ∃ s' e, conflictWhenF broken sv s = (s', .error e) := by
  obtain ⟨a, ha, b, hb, hab, m, hm, hp, ho⟩ := hc
  unfold conflictWhenF
  cases hsort : sortByLen (publicOf s.delegate) with
  | error e => exact ⟨s, e, rfl⟩
  | ok ms => exact resolveMatchesF_raises h0 hm ha hb hab ho (Sim.refl s) ((sortByLen_perm hsort).mem_iff.2 (mem_publicOf.2 ⟨hm, hp⟩))

/-! ## The whole call -/

variable {Ctx : Type}

theorem clash_raises {broken : Match → Option Nat} {sv : Solvers} {order : List Match → List Match} {s : Matches} (h0 : Sound s) (hc : Clash broken s.delegate)
    (x : RuleRef) : ∃ e, (executeRule listTruthy (conflictRuleF broken sv order) x s).err = some e := by
  obtain ⟨s', e, h⟩ := conflictWhenF_raises (sv := sv) h0 hc
  have hw : (conflictRuleF broken sv order).when_ s = (s', .error e) := h
  refine ⟨e, ?_⟩
  unfold executeRule
  rw [if_pos (show (conflictRuleF broken sv order).enabled s = true from rfl), hw]

/-- The two default rules, one after the other. -/
theorem executeRules_two {env : Env (List Match)} {B : RuleRef → Behaviour Found (List Match)} {b1 b2 : Behaviour Matches (List Match)} (hr : env.rule = B)
    (h1 : ∀ n, B ⟨n, 0⟩ = onMatches b1) (h2 : ∀ n, B ⟨n, 1⟩ = onMatches b2) (ht : env.truthy = listTruthy) {r : RebulkObj Ctx} {a b : Nat} {ctx : Ctx}
    (hab : r.effectiveRules ctx = [conflictSolverRule a, privateRemoverRule b]) (hd : r.disabled ctx = false) (f : Found) :
    r.executeRules env ctx f = (match (executeRule listTruthy b1 ⟨a, 0⟩ f.found).err with
      | some e => .error e
      | none => match (executeRule listTruthy b2 ⟨b, 1⟩ (executeRule listTruthy b1 ⟨a, 0⟩ f.found).state).err with
        | some e => .error e
        | none => .ok { f with found := (executeRule listTruthy b2 ⟨b, 1⟩ (executeRule listTruthy b1 ⟨a, 0⟩ f.found).state).state }) := by
  unfold RebulkObj.executeRules
  rw [if_pos (by simp [hd]), hab, ht, hr]
  simp only [List.map_cons, List.map_nil]
  unfold executeAll
  rw [default_schedule]
  simp only [executeList, h1, h2]
  obtain ⟨q1, q2⟩ := executeRule_onMatches listTruthy b1 ⟨a, 0⟩ f
  rw [q2]
  cases he : (executeRule listTruthy b1 ⟨a, 0⟩ f.found).err with
  | some e => simp only [q2, he]
  | none =>
    simp only
    rw [q1]
    obtain ⟨q3, q4⟩ := executeRule_onMatches listTruthy b2 ⟨b, 1⟩ { f with found := (executeRule listTruthy b1 ⟨a, 0⟩ f.found).state }
    simp only at q3 q4
    rw [q4, q3]
    cases he2 : (executeRule listTruthy b2 ⟨b, 1⟩ (executeRule listTruthy b1 ⟨a, 0⟩ f.found).state).err with
    | some e => simp only [q4, he2]
    | none => rfl

theorem default_dichotomy {broken : Match → Option Nat} {env envF : Env (List Match)} (h : OnlyFormattersDiffer broken env envF) {r : RebulkObj Ctx}
    (hr : DefaultRulesOnly r) (ctx : Ctx) (hd : r.disabled ctx = false) {f : Found} (h0 : Sound f.found) :
    (r.executeRules envF ctx f = r.executeRules env ctx f ∨ ∃ n, Blame broken f.found.delegate n ∧ r.executeRules envF ctx f = .error (.user n)) ∧
    (Clash broken f.found.delegate → ∃ e, r.executeRules envF ctx f = .error e) := by
  obtain ⟨custom, order, hrule, hF, hcu, hord⟩ := h.rules
  obtain ⟨a, b, hab⟩ := defaultRules_effective hr ctx
  have q := executeRules_two (env := env) (b1 := conflictRule (.withDefault custom) order) (b2 := privateRule) hrule (fun n => rfl) (fun n => rfl) h.truthy hab hd f
  have qF := executeRules_two (env := envF) (B := defaultRuleF broken (.withDefault custom) order) (b1 := conflictRuleF broken (.withDefault custom) order)
    (b2 := privateRuleF broken) (by rw [hF]) (fun n => rfl) (fun n => rfl) (by rw [hF]; exact h.truthy) hab hd f
  constructor
  · rcases conflictRuleF_tells (broken := broken) (names_of hcu) hord h0 ⟨a, 0⟩ with ⟨e1, e2⟩ | ⟨n, hb, e1⟩
    · rw [e1] at qF
      cases he : (executeRule listTruthy (conflictRule (.withDefault custom) order) ⟨a, 0⟩ f.found).err with
      | some e => left; rw [q, qF, he]
      | none =>
        obtain ⟨ht, hsub⟩ := e2 he
        rcases privateRuleF_tells (broken := broken) h0 ht hsub ⟨b, 1⟩ with e3 | ⟨n, hb, e3⟩
        · left; rw [q, qF, e3]
        · right; refine ⟨n, hb, ?_⟩; rw [qF, he]; simp only [e3]
    · right; exact ⟨n, hb, by rw [qF, e1]⟩
  · intro hc
    obtain ⟨e, h1⟩ := clash_raises (sv := .withDefault custom) (order := order) h0 hc ⟨a, 0⟩
    exact ⟨e, by rw [qF, h1]⟩

theorem matches_found {env : Env (List Match)} (hk : env.checkKeys = false) {r : RebulkObj Ctx} {input : Str} {ctx : Ctx} (hd : r.disabled ctx = false) {f : Found}
    (h : searchPatterns env.lower ctx input (r.effectivePatterns ctx) { Found.empty input with keys := r.effectiveKeys ctx } = .ok f) :
    r.matches_ env input ctx = r.executeRules env ctx f := by
  rw [C73_then_rules, withoutRules_found hk hd h]

theorem content_span {a b : Match} (h : content a = content b) : a.span = b.span := by
  have : (content a).span = (content b).span := by rw [h]
  exact this

theorem content_at {l l' : List Match} (h : l.map content = l'.map content) {i : Nat} {a : Match} (ha : l[i]? = some a) :
    ∃ a', l'[i]? = some a' ∧ content a' = content a := by
  have h1 : (l.map content)[i]? = some (content a) := by rw [List.getElem?_map, ha]; rfl
  rw [h, List.getElem?_map] at h1
  cases h2 : l'[i]? with
  | none => rw [h2] at h1; cases h1
  | some a' => rw [h2] at h1; exact ⟨a', rfl, by injection h1⟩

theorem clashAt_content {broken : Match → Option Nat} (hb : ByContent broken) {l l' : List Match} (h : l.map content = l'.map content) (hc : ClashAt broken l) :
    ClashAt broken l' := by
  obtain ⟨i, j, a, b, hij, ha, hb1, hs, hbr, m, hm, hp, ho⟩ := hc
  obtain ⟨a', ha', ea⟩ := content_at h ha
  obtain ⟨b', hb', eb⟩ := content_at h hb1
  obtain ⟨m', hm', em⟩ := content_mem h hm
  refine ⟨i, j, a', b', hij, ha', hb', ?_, ?_, m', hm', (content_priv em).trans hp, content_overlap ea.symm em.symm ho⟩
  · rw [content_span ea, content_span eb]; exact hs
  · rw [hb _ _ ea, hb _ _ eb]; exact hbr

theorem clash_at {broken : Match → Option Nat} {l : List Match} (hid : (l.map Match.id).Nodup) : Clash broken l ↔ ClashAt broken l := by
  constructor
  · rintro ⟨a, ha, b, hb, hab, m, hm, hp, ho⟩
    obtain ⟨i, hi, ei⟩ := List.getElem_of_mem ha
    obtain ⟨j, hj, ej⟩ := List.getElem_of_mem hb
    have hsp : b.span = a.span := by
      by_cases e : b.span = a.span
      · exact e
      · exact absurd (.inr (.inl e)) hab
    refine ⟨i, j, a, b, ?_, by rw [List.getElem?_eq_getElem hi, ei], by rw [List.getElem?_eq_getElem hj, ej], hsp.symm, ?_, m, hm, hp, ho⟩
    · intro e
      subst e
      exact hab (.inl (by rw [← ei, ← ej]))
    · cases h1 : broken a with
      | some n => exact .inl (by simp)
      | none =>
        cases h2 : broken b with
        | some n => exact .inr (by simp)
        | none => exact absurd (.inr (.inr ⟨h2, h1⟩)) hab
  · rintro ⟨i, j, a, b, hij, ha, hb, hs, hbr, m, hm, hp, ho⟩
    refine ⟨a, List.mem_of_getElem? ha, b, List.mem_of_getElem? hb, ?_, m, hm, hp, ho⟩
    rintro (e | e | e)
    · obtain ⟨hi, ei⟩ := List.getElem?_eq_some_iff.1 ha
      obtain ⟨hj, ej⟩ := List.getElem?_eq_some_iff.1 hb
      have hp := List.pairwise_iff_getElem.1 (List.pairwise_map.1 hid)
      rcases Nat.lt_trichotomy i j with hlt | heq | hgt
      · exact hp i j hi hj hlt (by rw [ei, ej, e])
      · exact hij heq
      · exact hp j i hj hi hgt (by rw [ei, ej, e])
    · exact e hs.symm
    · rcases hbr with h | h
      · exact h e.2
      · exact h e.1

/-- What the call does, and whose formatter is to blame. -/
theorem failing_call {broken : Match → Option Nat} {env envF : Env (List Match)} (h : OnlyFormattersDiffer broken env envF) (hb : ByContent broken)
    {r : RebulkObj Ctx} (hr : DefaultRulesOnly r) (input : Str) (ctx : Ctx) (hd : r.disabled ctx = false) {ts : List MTree}
    (hc : Collects env.lower ctx input (r.effectivePatterns ctx) ts) (hne : ∀ m ∈ rootsOf false ts, m.priv = false → m.start < m.stop) :
    (r.matches_ envF input ctx = r.matches_ env input ctx ∨
      ∃ n, ClashAt broken (rootsOf false ts) ∧ (∃ m ∈ rootsOf false ts, broken m = some n) ∧ r.matches_ envF input ctx = .error (.user n)) ∧
    (ClashAt broken (rootsOf false ts) → ∃ e, r.matches_ envF input ctx = .error e) := by
  obtain ⟨f, h1, h2, h3, h4, h5⟩ := searchPatterns_collects hc (gathering_empty input (r.effectiveKeys ctx))
  have h4 : f.found.delegate.map content = (rootsOf false ts).map content := h4
  have hid : (f.found.delegate.map Match.id).Nodup := (List.nodup_append.1 h2.nodup).1
  obtain ⟨custom, order, hrule, hF, hcu, hord⟩ := h.rules
  have m1 := matches_found h.unchecked hd h1
  have m2 : r.matches_ envF input ctx = r.executeRules envF ctx f := matches_found (env := envF) (by rw [hF]; exact h.unchecked) hd (by rw [hF]; exact h1)
  have h0 : Sound f.found := ⟨h2.foundTidy, fun a ha b hb he => ids_eq hid ha hb he, fun m hm hp => by
    obtain ⟨x, hx, he⟩ := content_mem h4 hm
    rw [← content_start he, ← content_stop he]; exact hne x hx ((content_priv he).trans hp)⟩
  obtain ⟨q1, q2⟩ := default_dichotomy h hr ctx hd h0
  rw [m1, m2]
  refine ⟨?_, fun hcl => q2 ((clash_at hid).2 (clashAt_content hb h4.symm hcl))⟩
  rcases q1 with q1 | ⟨n, ⟨hcl, x, hx, hbx⟩, q1⟩
  · exact .inl q1
  · obtain ⟨y, hy, he⟩ := content_mem h4 hx
    exact .inr ⟨n, clashAt_content hb h4 ((clash_at hid).1 hcl), ⟨y, hy, by rw [hb _ _ he]; exact hbx⟩, q1⟩

/-- **C124**: formatters that raise change nothing, unless two different matches of one span, one of them with such a formatter, share a character with a
public match. -/
theorem C124_partial {broken : Match → Option Nat} {env envF : Env (List Match)} (h : OnlyFormattersDiffer broken env envF) (hb : ByContent broken)
    {r : RebulkObj Ctx} (hr : DefaultRulesOnly r) (input : Str) (ctx : Ctx) (hd : r.disabled ctx = false) {ts : List MTree}
    (hc : Collects env.lower ctx input (r.effectivePatterns ctx) ts) (hne : ∀ m ∈ rootsOf false ts, m.priv = false → m.start < m.stop)
    (hno : ¬ ClashAt broken (rootsOf false ts)) : r.matches_ envF input ctx = r.matches_ env input ctx := by
  rcases (failing_call h hb hr input ctx hd hc hne).1 with h1 | ⟨n, hcl, _⟩
  · exact h1
  · exact absurd hcl hno

/-- **C124**: in that case the call raises. -/
theorem C124_raises {broken : Match → Option Nat} {env envF : Env (List Match)} (h : OnlyFormattersDiffer broken env envF) (hb : ByContent broken)
    {r : RebulkObj Ctx} (hr : DefaultRulesOnly r) (input : Str) (ctx : Ctx) (hd : r.disabled ctx = false) {ts : List MTree}
    (hc : Collects env.lower ctx input (r.effectivePatterns ctx) ts) (hne : ∀ m ∈ rootsOf false ts, m.priv = false → m.start < m.stop)
    (hcl : ClashAt broken (rootsOf false ts)) : ∃ e, r.matches_ envF input ctx = .error e :=
  (failing_call h hb hr input ctx hd hc hne).2 hcl

/-- **C124**: and what is raised comes from the formatter of a match that was found, when the call without raising formatters does not raise. -/
theorem C124_whose {broken : Match → Option Nat} {env envF : Env (List Match)} (h : OnlyFormattersDiffer broken env envF) (hb : ByContent broken)
    {r : RebulkObj Ctx} (hr : DefaultRulesOnly r) (input : Str) (ctx : Ctx) (hd : r.disabled ctx = false) {ts : List MTree}
    (hc : Collects env.lower ctx input (r.effectivePatterns ctx) ts) (hne : ∀ m ∈ rootsOf false ts, m.priv = false → m.start < m.stop)
    {f : Found} (hf : r.matches_ env input ctx = .ok f) {e : PyErr} (he : r.matches_ envF input ctx = .error e) :
    ∃ n, e = .user n ∧ ∃ m ∈ rootsOf false ts, broken m = some n := by
  rcases (failing_call h hb hr input ctx hd hc hne).1 with h1 | ⟨n, _, hm, h1⟩
  · rw [h1, hf] at he; cases he
  · rw [h1] at he; cases he; exact ⟨n, rfl, hm⟩

/-! ## Concrete cases -/

/-- The formatter of the pattern named `n` raises. -/
def brokenName (n : String) (m : Match) : Option Nat := if m.name = some n then some 7 else none

/-- `exEnv` where the formatter of the pattern named `n` raises. -/
def exEnvF (n : String) : Env (List Match) :=
  { exEnv with rule := defaultRuleF (brokenName n) (.withDefault (fun _ _ _ => .ok .default)) (fun l => l) }

theorem exEnvF_differs (n : String) : OnlyFormattersDiffer (brokenName n) exEnv (exEnvF n) :=
  ⟨⟨_, _, rfl, rfl, fun _ _ _ _ h => (by cases h), fun _ => List.Perm.refl _⟩, rfl, rfl⟩

theorem brokenName_content (n : String) : ByContent (brokenName n) := by
  intro m m' h
  have : (content m).name = (content m').name := by rw [h]
  have h2 : m.name = m'.name := this
  unfold brokenName
  rw [h2]

/-- A raising formatter that changes nothing: the match of the pattern overlaps another one, longer. -/
example : let r := exRebulk [exPattern 1 { name := some "bad" } ["ab"]] [exPattern 2 {} ["bcd", "f"]]
    ∃ ts, Collects exEnv.lower () "abcdef".toList (r.effectivePatterns ()) ts ∧ (∀ m ∈ rootsOf false ts, m.priv = false → m.start < m.stop) ∧
      (∃ m ∈ rootsOf false ts, brokenName "bad" m ≠ none) ∧ ¬ ClashAt (brokenName "bad") (rootsOf false ts) ∧
      ∃ f, r.matches_ (exEnvF "bad") "abcdef".toList () = .ok f ∧ f.found.delegate.map Match.span = [(1, 4), (5, 6)] := by
  refine ⟨_, .enabled rfl rfl (.enabled rfl rfl .nil), by decide, by decide, ?_, _, rfl, by decide⟩
  rintro ⟨i, j, a, b, hij, ha, hb, hs, -⟩
  match i, j with
  | 0, 0 => exact hij rfl
  | 1, 1 => exact hij rfl
  | 2, 2 => exact hij rfl
  | 0, 1 => cases ha; cases hb; revert hs; decide
  | 0, 2 => cases ha; cases hb; revert hs; decide
  | 1, 0 => cases ha; cases hb; revert hs; decide
  | 1, 2 => cases ha; cases hb; revert hs; decide
  | 2, 0 => cases ha; cases hb; revert hs; decide
  | 2, 1 => cases ha; cases hb; revert hs; decide
  | i + 3, _ => cases ha
  | 0, j + 3 => cases hb
  | 1, j + 3 => cases hb
  | 2, j + 3 => cases hb

/-- **C124** fails when two patterns find the same span: the call without the raising formatter gives a result, the call with it raises. -/
theorem C124_refuted : ∃ (broken : Match → Option Nat) (env envF : Env (List Match)) (r : RebulkObj Unit) (input : Str) (ts : List MTree) (f : Found),
    OnlyFormattersDiffer broken env envF ∧ ByContent broken ∧ DefaultRulesOnly r ∧ Collects env.lower () input (r.effectivePatterns ()) ts ∧
    (∀ m ∈ rootsOf false ts, m.priv = false → m.start < m.stop) ∧ ClashAt broken (rootsOf false ts) ∧
    r.matches_ env input () = .ok f ∧ r.matches_ envF input () = .error (.user 7) :=
  ⟨brokenName "bad", exEnv, exEnvF "bad", exRebulk [exPattern 1 { name := some "bad" } ["ab"]] [exPattern 2 {} ["ab"]], "abc".toList, _, _,
    exEnvF_differs _, brokenName_content _, exRebulk_default _ _, .enabled rfl rfl (.enabled rfl rfl .nil), by decide,
    ⟨0, 1, _, _, by decide, rfl, rfl, rfl, by decide, _, List.mem_cons_self, rfl, 0, by unfold Covers; decide, by unfold Covers; decide⟩, rfl, rfl⟩

end Rebulk
