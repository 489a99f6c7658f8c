import Verif.Spec.Locality
import Verif.Props.FailingRules
import Verif.Props.RulesObjects
/-!
# The default rules act locally (`C125`)
-/
namespace Rebulk
open Spec Matches
variable {Ctx : Type}

/-! ## Taking a group of matches, with other identities -/

/-- The same match as another object. -/
def reId (f : Nat → Nat) (m : Match) : Match := { m with id := f m.id }

/-- The matches of a group, as other objects. -/
def pick (G : Match → Bool) (f : Nat → Nat) (l : List Match) : List Match := (l.filter G).map (reId f)

theorem reId_eqv (f : Nat → Nat) (a b : Match) : (reId f a).eqv (reId f b) = a.eqv b := rfl

theorem pick_append (G : Match → Bool) (f : Nat → Nat) (l l' : List Match) : pick G f (l ++ l') = pick G f l ++ pick G f l' := by
  unfold pick; rw [List.filter_append, List.map_append]

theorem pick_cons_pos {G : Match → Bool} (f : Nat → Nat) {x : Match} (h : G x = true) (l : List Match) : pick G f (x :: l) = reId f x :: pick G f l := by
  unfold pick; rw [List.filter_cons_of_pos h, List.map_cons]

theorem pick_cons_neg {G : Match → Bool} (f : Nat → Nat) {x : Match} (h : G x = false) (l : List Match) : pick G f (x :: l) = pick G f l := by
  unfold pick; rw [List.filter_cons_of_neg (by simp [h])]

theorem pick_all {G : Match → Bool} (f : Nat → Nat) {l : List Match} (h : ∀ x ∈ l, G x = true) : pick G f l = l.map (reId f) := by
  unfold pick; rw [List.filter_eq_self.2 h]

theorem pick_none {G : Match → Bool} (f : Nat → Nat) {l : List Match} (h : ∀ x ∈ l, G x = false) : pick G f l = [] := by
  unfold pick; rw [List.filter_eq_nil_iff.2 (fun x hx => by simp [h x hx])]; rfl

theorem addMissing_re (f : Nat → Nat) : ∀ (l acc : List Match), addMissing (acc.map (reId f)) (l.map (reId f)) = (addMissing acc l).map (reId f)
  | [], acc => rfl
  | x :: l, acc => by
    rw [List.map_cons, addMissing_cons, addMissing_cons]
    have h : (acc.map (reId f)).any (fun y => y.eqv (reId f x)) = acc.any (fun y => y.eqv x) := by
      rw [List.any_map]; rfl
    rw [h]
    cases acc.any (fun y => y.eqv x) with
    | true => simp only [if_true]; exact addMissing_re f l acc
    | false =>
      simp only [Bool.false_eq_true, if_false]
      have := addMissing_re f l (acc ++ [x])
      rw [List.map_append] at this
      exact this

theorem removeFirst_re (f : Nat → Nat) (m : Match) : ∀ l : List Match,
    removeFirst (fun x => x.eqv (reId f m)) (l.map (reId f)) = (removeFirst (fun x => x.eqv m) l).map (List.map (reId f))
  | [] => rfl
  | x :: l => by
    simp only [List.map_cons, removeFirst]
    by_cases h : x.eqv m = true
    · rw [if_pos (c := (reId f x).eqv (reId f m) = true) h, if_pos h]; rfl
    · rw [if_neg (c := (reId f x).eqv (reId f m) = true) h, if_neg h, removeFirst_re f m l]
      cases removeFirst (fun x => x.eqv m) l <;> rfl

/-- A group of the matches `l0` and its other identities: no match of the group shares a character with one outside, or is equal to it. -/
structure View (G : Match → Bool) (f : Nat → Nat) (l0 : List Match) : Prop where
  objects : OneObjectPerId l0
  apart : ∀ a ∈ l0, ∀ b ∈ l0, G a ≠ G b → ¬ Overlap a b ∧ a.eqv b = false
  inj : ∀ a ∈ l0, ∀ b ∈ l0, G a = true → G b = true → f a.id = f b.id → a.id = b.id

/-- A container and the one holding the group only. -/
structure Held (G : Match → Bool) (f : Nat → Nat) (s s1 : Matches) : Prop where
  whole : Tidy s
  part : Tidy s1
  same : s1.delegate = pick G f s.delegate

theorem index_covering {s : Matches} (h : Tidy s) (i : Int) : s.indexDict.getList i = covering s.delegate i := by
  rw [h.exact_.viewIndex i, filed_index]

theorem covering_pick {G : Match → Bool} {f : Nat → Nat} {l0 : List Match} (v : View G f l0) {m : Match} (hm : m ∈ l0) (hg : G m = true) {i : Int}
    (hi : Covers m i) : covering (pick G f l0) i = (covering l0 i).map (reId f) := by
  have key : ∀ l : List Match, (∀ x ∈ l, x ∈ l0) → covering (pick G f l) i = (covering l i).map (reId f) := by
    intro l
    induction l with
    | nil => intro _; rfl
    | cons x l ih =>
      intro hl
      have ih := ih (fun y hy => hl y (List.mem_cons_of_mem _ hy))
      unfold covering at *
      cases hx : G x with
      | true =>
        rw [pick_cons_pos f hx, List.filter_cons, List.filter_cons]
        have : decide ((reId f x).start ≤ i ∧ i < (reId f x).stop) = decide (x.start ≤ i ∧ i < x.stop) := rfl
        rw [this]
        split
        · rw [List.map_cons, ih]
        · exact ih
      | false =>
        rw [pick_cons_neg f hx, List.filter_cons_of_neg, ih]
        intro hc
        exact (v.apart m hm x (hl x List.mem_cons_self) (by rw [hg, hx]; simp)).1 ⟨i, hi, by simpa [Covers] using hc⟩
  exact key l0 (fun _ h => h)

/-- The matches `conflicting` looks at. -/
def around (s : Matches) (m : Match) : List Match := (pyRange m.start m.stop).flatMap (fun i => s.indexDict.getList i)

theorem conflicting_val (s : Matches) (m : Match) : (s.conflicting m).2 =
    (match removeFirst (fun x => x.eqv m) (addMissing [] (around s m)) with | some l => .ok l | none => .error .valueError) := by
  have h := (conflictLoop_spec (pyRange m.start m.stop) s []).2
  unfold conflicting around
  rw [← h]
  cases conflictLoop (pyRange m.start m.stop) s [] with
  | mk s' ret =>
    simp only
    cases removeFirst (fun x => x.eqv m) ret <;> rfl

theorem around_pick {G : Match → Bool} {f : Nat → Nat} {s s1 : Matches} (v : View G f s.delegate) (h : Held G f s s1) {m : Match} (hm : m ∈ s.delegate)
    (hg : G m = true) : around s1 (reId f m) = (around s m).map (reId f) := by
  unfold around
  have : ∀ is : List Int, (∀ i ∈ is, Covers m i) → is.flatMap (fun i => s1.indexDict.getList i) = (is.flatMap (fun i => s.indexDict.getList i)).map (reId f) := by
    intro is
    induction is with
    | nil => intro _; rfl
    | cons i is ih =>
      intro hi
      rw [List.flatMap_cons, List.flatMap_cons, List.map_append, ih (fun j hj => hi j (List.mem_cons_of_mem _ hj)), index_covering h.part, index_covering h.whole,
        h.same, covering_pick v hm hg (hi i List.mem_cons_self)]
  exact this _ (fun i hi => mem_pyRange.1 hi)

theorem conflicting_pick {G : Match → Bool} {f : Nat → Nat} {s s1 : Matches} (v : View G f s.delegate) (h : Held G f s s1) {m : Match} (hm : m ∈ s.delegate)
    (hg : G m = true) : (s1.conflicting (reId f m)).2 = (s.conflicting m).2.map (List.map (reId f)) := by
  rw [conflicting_val, conflicting_val, around_pick v h hm hg]
  have : addMissing [] ((around s m).map (reId f)) = (addMissing [] (around s m)).map (reId f) := addMissing_re f (around s m) []
  rw [this, removeFirst_re]
  cases removeFirst (fun x => x.eqv m) (addMissing [] (around s m)) <;> rfl

theorem addMissing_sub : ∀ (l acc : List Match), ∀ x ∈ addMissing acc l, x ∈ acc ∨ x ∈ l
  | [], acc, x, hx => .inl hx
  | y :: l, acc, x, hx => by
    rw [addMissing_cons] at hx
    cases hb : acc.any (fun z => z.eqv y) with
    | true =>
      rw [hb] at hx
      rcases addMissing_sub l acc x hx with h | h
      · exact .inl h
      · exact .inr (List.mem_cons_of_mem _ h)
    | false =>
      rw [hb] at hx
      rcases addMissing_sub l (acc ++ [y]) x hx with h | h
      · rcases List.mem_append.1 h with h | h
        · exact .inl h
        · rw [List.mem_singleton] at h; exact .inr (by rw [h]; exact List.mem_cons_self)
      · exact .inr (List.mem_cons_of_mem _ h)

theorem removeFirst_sub {p : Match → Bool} : ∀ {l l' : List Match}, removeFirst p l = some l' → ∀ x ∈ l', x ∈ l
  | [], _, h, _, _ => by cases h
  | y :: l, l', h, x, hx => by
    simp only [removeFirst] at h
    cases hp : p y with
    | true => rw [hp] at h; cases h; exact List.mem_cons_of_mem _ hx
    | false =>
      rw [hp] at h
      simp only [Bool.false_eq_true, if_false] at h
      cases hr : removeFirst p l with
      | none => rw [hr] at h; cases h
      | some r =>
        rw [hr] at h; cases h
        rcases List.mem_cons.1 hx with rfl | hx
        · exact List.mem_cons_self
        · exact List.mem_cons_of_mem _ (removeFirst_sub hr x hx)

/-- Conflicting matches are in one group. -/
theorem conflicting_group {G : Match → Bool} {f : Nat → Nat} {s : Matches} (v : View G f s.delegate) (h : Tidy s) {m : Match} (hm : m ∈ s.delegate)
    {cs : List Match} (hc : (s.conflicting m).2 = .ok cs) : ∀ x ∈ cs, x ∈ s.delegate ∧ G x = G m := by
  intro x hx
  rw [conflicting_val] at hc
  cases hr : removeFirst (fun x => x.eqv m) (addMissing [] (around s m)) with
  | none => rw [hr] at hc; cases hc
  | some l =>
    rw [hr] at hc; cases hc
    rcases addMissing_sub _ _ x (removeFirst_sub hr x hx) with h1 | h1
    · cases h1
    · obtain ⟨i, hi, h2⟩ := List.mem_flatMap.1 h1
      obtain ⟨h3, h4⟩ := (index_covers h.exact_).1 h2
      refine ⟨h3, ?_⟩
      by_cases e : G x = G m
      · exact e
      · exact absurd ⟨i, h4, mem_pyRange.1 hi⟩ (v.apart x h3 m hm e).1

/-! ## Solvers -/

/-- The answer about the other objects. -/
def SolverRet.re (f : Nat → Nat) : SolverRet → SolverRet
  | .default => .default
  | .keepBoth => .keepBoth
  | .drop m => .drop (reId f m)

theorem verdict_re (f : Nat → Nat) (a b : Match) (v : Verdict) : v.answer (reId f a) (reId f b) = (v.answer a b).re f := by cases v <;> rfl

theorem content_re (f : Nat → Nat) (m : Match) : content (reId f m) = content m := rfl

theorem choosing_of {custom : Nat → Match → Match → Except PyErr SolverRet} (h : Impartial custom) : Choosing custom := by
  obtain ⟨v, h1, _⟩ := h
  intro k a b r hr
  rw [h1] at hr
  cases hv : v k a b with
  | error e => rw [hv] at hr; cases hr
  | ok x => rw [hv] at hr; cases x <;> cases hr <;> simp

theorem ownSolver_re {custom : Nat → Match → Match → Except PyErr SolverRet} (h : Impartial custom) (f : Nat → Nat) (x y : Match) :
    ownSolver (.withDefault custom) (reId f x) (reId f y) = (ownSolver (.withDefault custom) x y).map (SolverRet.re f) := by
  obtain ⟨v, h1, h2⟩ := h
  unfold ownSolver
  have hs : (reId f x).solver = x.solver := rfl
  rw [hs]
  cases x.solver with
  | none => rfl
  | some k =>
    show custom k (reId f x) (reId f y) = (custom k x y).map (SolverRet.re f)
    rw [h1, h1, h2 k (reId f x) (reId f y) x y (content_re f x) (content_re f y)]
    cases v k x y with
    | error e => rfl
    | ok w => exact congrArg Except.ok (verdict_re f x y w)

theorem default_re (f : Nat → Nat) (m c : Match) : defaultConflict (reId f m) (reId f c) = (defaultConflict m c).map (SolverRet.re f) := by
  unfold defaultConflict
  have h1 : (reId f m).initLen = m.initLen := rfl
  have h2 : (reId f c).initLen = c.initLen := rfl
  rw [h1, h2]
  split
  · rfl
  · split
    · rfl
    · split <;> rfl

theorem askSolvers_re {custom : Nat → Match → Match → Except PyErr SolverRet} (h : Impartial custom) (f : Nat → Nat) (m c : Match) :
    askSolvers (.withDefault custom) (reId f m) (reId f c) = (askSolvers (.withDefault custom) m c).map (SolverRet.re f) := by
  unfold askSolvers
  rw [ownSolver_re h f c m, ownSolver_re h f m c]
  cases ownSolver (.withDefault custom) c m with
  | error e => rfl
  | ok a =>
    cases a with
    | keepBoth => rfl
    | drop r => rfl
    | default =>
      simp only [Except.map, SolverRet.re]
      cases ownSolver (.withDefault custom) m c with
      | error e => rfl
      | ok b =>
        cases b with
        | keepBoth => rfl
        | drop r => rfl
        | default => exact default_re f m c

/-! ## One pair -/

theorem inSet_pick {G : Match → Bool} {f : Nat → Nat} {l0 : List Match} (v : View G f l0) {set : List Match} (hs : ∀ x ∈ set, x ∈ l0) {r : Match} (hr : r ∈ l0)
    (hg : G r = true) : inSet (pick G f set) (reId f r) = inSet set r := by
  rw [Bool.eq_iff_iff]
  unfold inSet
  rw [List.any_eq_true, List.any_eq_true]
  constructor
  · rintro ⟨y, hy, he⟩
    obtain ⟨x, hx, rfl⟩ := List.mem_map.1 hy
    obtain ⟨hx, hgx⟩ := List.mem_filter.1 hx
    have he : f x.id = f r.id := by simpa [reId] using he
    exact ⟨x, hx, by simpa using v.inj x (hs x hx) r hr hgx hg he⟩
  · rintro ⟨x, hx, he⟩
    have he : x.id = r.id := by simpa using he
    have : x = r := v.objects x (hs x hx) r hr he
    subst this
    exact ⟨reId f x, List.mem_map.2 ⟨x, List.mem_filter.2 ⟨hx, hg⟩, rfl⟩, by simp⟩

theorem keeper_re (f : Nat → Nat) (m c r : Match) : keeper (reId f m) (reId f c) (reId f r) = (keeper m c r).map (reId f) := by
  unfold keeper
  rw [reId_eqv, reId_eqv]
  split
  · rfl
  · split <;> rfl

theorem keeper_mem {m c r k : Match} (h : keeper m c r = .ok k) : k = m ∨ k = c := by
  unfold keeper at h
  split at h
  · cases h; exact .inr rfl
  · split at h
    · cases h; exact .inl rfl
    · cases h

theorem addRemoval_pick {G : Match → Bool} {f : Nat → Nat} {l0 : List Match} (v : View G f l0) {set : List Match} (hs : ∀ x ∈ set, x ∈ l0) {m c r : Match}
    (hm : m ∈ l0) (hc : c ∈ l0) (hgm : G m = true) (hgc : G c = true) (hr : r = m ∨ r = c) :
    addRemoval (pick G f set) (reId f m) (reId f c) (reId f r) = (addRemoval set m c r).map (pick G f) := by
  have hrl : r ∈ l0 := by rcases hr with rfl | rfl <;> assumption
  have hrg : G r = true := by rcases hr with rfl | rfl <;> assumption
  unfold addRemoval
  have ht : (reId f r).truthy? = r.truthy? := rfl
  rw [ht, keeper_re, inSet_pick v hs hrl hrg]
  cases r.truthy? with
  | error e => rfl
  | ok b =>
    cases b with
    | false => rfl
    | true =>
      simp only
      cases inSet set r with
      | true => rfl
      | false =>
        simp only [Bool.false_eq_true, if_false]
        cases hk : keeper m c r with
        | error e => rfl
        | ok k =>
          have hkm := keeper_mem hk
          have hkl : k ∈ l0 := by rcases hkm with rfl | rfl <;> assumption
          have hkg : G k = true := by rcases hkm with rfl | rfl <;> assumption
          simp only [Except.map]
          rw [inSet_pick v hs hkl hkg]
          cases inSet set k with
          | true => rfl
          | false =>
            simp only [Bool.false_eq_true, if_false]
            rw [pick_append, pick_cons_pos f hrg]; rfl

theorem resolvePair_pick {custom : Nat → Match → Match → Except PyErr SolverRet} (hi : Impartial custom) {G : Match → Bool} {f : Nat → Nat} {l0 : List Match}
    (v : View G f l0) {set : List Match} (hs : ∀ x ∈ set, x ∈ l0) {m c : Match} (hm : m ∈ l0) (hc : c ∈ l0) (hgm : G m = true) (hgc : G c = true) :
    resolvePair (.withDefault custom) (reId f m) (reId f c) (pick G f set) = (resolvePair (.withDefault custom) m c set).map (pick G f) := by
  unfold resolvePair
  rw [askSolvers_re hi]
  cases ha : askSolvers (.withDefault custom) m c with
  | error e => rfl
  | ok a =>
    cases a with
    | default => rfl
    | keepBoth => rfl
    | drop r => exact addRemoval_pick v hs hm hc hgm hgc (names_of (choosing_of hi) m c r ha)

theorem resolvePair_added {sv : Solvers} (hn : Names sv) {m c : Match} {set set' : List Match} (h : resolvePair sv m c set = .ok set') :
    ∃ more, set' = set ++ more ∧ ∀ x ∈ more, x = m ∨ x = c := by
  have none : ∃ more, set = set ++ more ∧ ∀ x ∈ more, x = m ∨ x = c := ⟨[], by simp, fun x hx => (by cases hx)⟩
  unfold resolvePair at h
  cases ha : askSolvers sv m c with
  | error e => rw [ha] at h; cases h
  | ok a =>
    rw [ha] at h
    cases a with
    | default => cases h; exact none
    | keepBoth => cases h; exact none
    | drop r =>
      simp only at h
      unfold addRemoval at h
      split at h
      · cases h
      · cases h; exact none
      · split at h
        · cases h; exact none
        · split at h
          · cases h
          · split at h
            · cases h; exact none
            · cases h; exact ⟨[r], rfl, fun x hx => by rw [List.mem_singleton] at hx; rw [hx]; exact hn m c r ha⟩

theorem resolvePairs_added {sv : Solvers} (hn : Names sv) {m : Match} : ∀ {cs set set' : List Match}, resolvePairs sv m cs set = .ok set' →
    ∃ more, set' = set ++ more ∧ ∀ x ∈ more, x = m ∨ x ∈ cs
  | [], set, set', h => by cases h; exact ⟨[], by simp, fun x hx => (by cases hx)⟩
  | c :: cs, set, set', h => by
    unfold resolvePairs at h
    cases h1 : resolvePair sv m c set with
    | error e => rw [h1] at h; cases h
    | ok set1 =>
      rw [h1] at h
      obtain ⟨a, rfl, ha⟩ := resolvePair_added hn h1
      obtain ⟨b, rfl, hb⟩ := resolvePairs_added hn h
      refine ⟨a ++ b, by simp, fun x hx => ?_⟩
      rcases List.mem_append.1 hx with hx | hx
      · rcases ha x hx with e | e
        · exact .inl e
        · exact .inr (by rw [e]; exact List.mem_cons_self)
      · rcases hb x hx with e | e
        · exact .inl e
        · exact .inr (List.mem_cons_of_mem _ e)

theorem resolvePairs_pick {custom : Nat → Match → Match → Except PyErr SolverRet} (hi : Impartial custom) {G : Match → Bool} {f : Nat → Nat} {l0 : List Match}
    (v : View G f l0) {m : Match} (hm : m ∈ l0) (hgm : G m = true) : ∀ {cs set : List Match}, (∀ x ∈ set, x ∈ l0) → (∀ x ∈ cs, x ∈ l0 ∧ G x = true) →
    resolvePairs (.withDefault custom) (reId f m) (cs.map (reId f)) (pick G f set) = (resolvePairs (.withDefault custom) m cs set).map (pick G f)
  | [], _, _, _ => rfl
  | c :: cs, set, hs, hcs => by
    have hc := hcs c List.mem_cons_self
    simp only [List.map_cons, resolvePairs]
    rw [resolvePair_pick hi v hs hm hc.1 hgm hc.2]
    cases h1 : resolvePair (.withDefault custom) m c set with
    | error e => rfl
    | ok set1 =>
      simp only [Except.map]
      refine resolvePairs_pick hi v hm hgm ?_ (fun x hx => hcs x (List.mem_cons_of_mem _ hx))
      intro x hx
      rcases resolvePair_mem (names_of (choosing_of hi)) h1 x hx with h | h | h
      · exact hs x h
      · rw [h]; exact hm
      · rw [h]; exact hc.1

/-! ## Sorting -/

/-- `key=len`. -/
def byLen (a b : Match) : Bool := decide (a.stop - a.start < b.stop - b.start)

theorem byLen_sorted : ∀ l : List Match, (pySorted byLen l).Pairwise (fun a b => a.stop - a.start ≤ b.stop - b.start)
  | [] => List.Pairwise.nil
  | x :: l => insertSorted_sorted byLen (fun a b : Int => a ≤ b) (fun m : Match => m.stop - m.start) (fun a b h => by
      have := of_decide_eq_true h; omega) (fun a b h => by have := of_decide_eq_false h; omega) (fun a b c h1 h2 => by omega) x _ (byLen_sorted l)

theorem insertSorted_first {x : Match} : ∀ {l : List Match}, (∀ z ∈ l, byLen z x = false) → insertSorted byLen x l = x :: l
  | [], _ => rfl
  | y :: l, h => by simp only [insertSorted]; rw [if_neg (by rw [h y List.mem_cons_self]; simp)]

theorem insertSorted_keep (p : Match → Bool) (x : Match) : ∀ {l : List Match}, l.Pairwise (fun a b => a.stop - a.start ≤ b.stop - b.start) →
    (insertSorted byLen x l).filter p = if p x then insertSorted byLen x (l.filter p) else l.filter p
  | [], _ => by
    simp only [insertSorted, List.filter_nil]
    cases h : p x <;> simp [h]
  | y :: l, hs => by
    rw [List.pairwise_cons] at hs
    simp only [insertSorted]
    by_cases h : byLen y x = true
    · rw [if_pos h, List.filter_cons, insertSorted_keep p x hs.2, List.filter_cons]
      cases hy : p y with
      | true =>
        simp only [if_true]
        cases hx : p x with
        | true => simp only [if_true, insertSorted]; rw [if_pos h]
        | false => simp
      | false => simp
    · rw [if_neg h, List.filter_cons]
      cases hx : p x with
      | false => simp
      | true =>
        simp only [if_true]
        rw [insertSorted_first]
        intro z hz
        have hz := (List.mem_filter.1 hz).1
        have h1 : ¬ (y.stop - y.start < x.stop - x.start) := fun hl => h (decide_eq_true hl)
        refine decide_eq_false ?_
        rcases List.mem_cons.1 hz with rfl | hz
        · exact h1
        · have := hs.1 z hz; omega

theorem pySorted_keep (p : Match → Bool) : ∀ l : List Match, (pySorted byLen l).filter p = pySorted byLen (l.filter p)
  | [] => rfl
  | x :: l => by
    simp only [pySorted]
    rw [insertSorted_keep p x (byLen_sorted l), pySorted_keep p l, List.filter_cons]
    cases p x <;> rfl

theorem pySorted_pick (G : Match → Bool) (f : Nat → Nat) (l : List Match) : pick G f (pySorted byLen l) = pySorted byLen (pick G f l) := by
  unfold pick
  rw [pySorted_keep, pySorted_map byLen (reId f) (fun _ _ => rfl)]

theorem publicOf_pick (G : Match → Bool) (f : Nat → Nat) (l : List Match) : pick G f (publicOf l) = publicOf (pick G f l) := by
  unfold pick publicOf
  rw [List.filter_map, List.filter_filter, List.filter_filter]
  congr 1
  exact List.filter_congr (fun x _ => Bool.and_comm _ _)

theorem publicOf_re (f : Nat → Nat) (l : List Match) : publicOf (l.map (reId f)) = (publicOf l).map (reId f) := by
  unfold publicOf; rw [List.filter_map]; rfl

theorem sortByLen_re (f : Nat → Nat) (l : List Match) : sortByLen (l.map (reId f)) = (sortByLen l).map (List.map (reId f)) := by
  unfold sortByLen
  have h : (l.map (reId f)).any (fun m => decide (m.stop - m.start < 0)) = l.any (fun m => decide (m.stop - m.start < 0)) := by rw [List.any_map]; rfl
  rw [h]
  cases l.any (fun m => decide (m.stop - m.start < 0)) with
  | true => rfl
  | false => exact congrArg Except.ok (pySorted_map byLen (reId f) (fun _ _ => rfl) l)

/-! ## The matches of one group and of the other -/

/-- The whole does what the two parts do: it fails when and as one of them does. -/
def Agree (p1 p2 : List Match → List Match) (whole part1 part2 : Except PyErr (List Match)) : Prop :=
  (∀ x, whole = .ok x → part1 = .ok (p1 x) ∧ part2 = .ok (p2 x)) ∧ ∀ e, whole = .error e → part1 = .error e ∨ part2 = .error e

theorem sortByLen_agree (G : Match → Bool) (f g : Nat → Nat) (l : List Match) :
    Agree (pick G f) (pick (fun m => !G m) g) (sortByLen l) (sortByLen (pick G f l)) (sortByLen (pick (fun m => !G m) g l)) := by
  have hp : ∀ (H : Match → Bool) (h : Nat → Nat), (pick H h l).any (fun m => decide (m.stop - m.start < 0)) = true ↔
      ∃ m ∈ l, H m = true ∧ m.stop - m.start < 0 := by
    intro H h
    rw [List.any_eq_true]
    constructor
    · rintro ⟨y, hy, hl⟩
      obtain ⟨x, hx, rfl⟩ := List.mem_map.1 hy
      exact ⟨x, (List.mem_filter.1 hx).1, (List.mem_filter.1 hx).2, of_decide_eq_true hl⟩
    · rintro ⟨x, hx, hH, hl⟩
      exact ⟨reId h x, List.mem_map.2 ⟨x, List.mem_filter.2 ⟨hx, hH⟩, rfl⟩, decide_eq_true hl⟩
  have ok : ∀ (H : Match → Bool) (h : Nat → Nat), (∀ m ∈ l, ¬ (m.stop - m.start < 0)) → sortByLen (pick H h l) = .ok (pick H h (pySorted byLen l)) := by
    intro H h hl
    unfold sortByLen
    rw [if_neg (fun he => by
      obtain ⟨m, hm, _, h1⟩ := (hp H h).1 he
      exact hl m hm h1), pySorted_pick]
    rfl
  have bad : ∀ (H : Match → Bool) (h : Nat → Nat) (m : Match), m ∈ l → H m = true → m.stop - m.start < 0 → sortByLen (pick H h l) = .error .valueError := by
    intro H h m hm hH hl
    unfold sortByLen
    rw [if_pos ((hp H h).2 ⟨m, hm, hH, hl⟩)]
  by_cases hl : l.any (fun m => decide (m.stop - m.start < 0)) = true
  · constructor
    · intro x hx; unfold sortByLen at hx; rw [if_pos hl] at hx; cases hx
    · intro e he
      unfold sortByLen at he; rw [if_pos hl] at he; cases he
      obtain ⟨m, hm, h1⟩ := List.any_eq_true.1 hl
      have h1 := of_decide_eq_true h1
      cases hG : G m with
      | true => exact .inl (bad G f m hm hG h1)
      | false => exact .inr (bad _ g m hm (by simp [hG]) h1)
  · have hl' : ∀ m ∈ l, ¬ (m.stop - m.start < 0) := fun m hm h1 => hl (List.any_eq_true.2 ⟨m, hm, decide_eq_true h1⟩)
    constructor
    · intro x hx
      unfold sortByLen at hx; rw [if_neg hl] at hx; cases hx
      exact ⟨ok G f hl', ok _ g hl'⟩
    · intro e he; unfold sortByLen at he; rw [if_neg hl] at he; cases he

theorem resolveMatch_val (sv : Solvers) (m : Match) (s : Matches) (set : List Match) : (resolveMatch sv m s set).2 =
    (match (s.conflicting m).2 with
      | .error e => .error e
      | .ok cs => if cs.isEmpty then .ok set else match sortByLen (publicOf cs) with
        | .error e => .error e
        | .ok cs => resolvePairs sv m cs set) := by
  unfold resolveMatch
  cases s.conflicting m with
  | mk s' r =>
    cases r with
    | error e => rfl
    | ok cs =>
      simp only
      cases cs.isEmpty with
      | true => rfl
      | false =>
        simp only [Bool.false_eq_true, if_false]
        cases sortByLen (publicOf cs) <;> rfl

theorem sorted_public {cs r : List Match} (h : sortByLen (publicOf cs) = .ok r) : ∀ x ∈ r, x ∈ cs := fun x hx =>
  (mem_publicOf.1 ((sortByLen_perm h).subset hx)).1

theorem resolveMatch_pick {custom : Nat → Match → Match → Except PyErr SolverRet} (hi : Impartial custom) {G : Match → Bool} {f : Nat → Nat} {s s1 t t1 : Matches}
    (v : View G f s.delegate) (h : Held G f s s1) (ht : Sim s t) (ht1 : Sim s1 t1) {m : Match} (hm : m ∈ s.delegate) (hg : G m = true) {set : List Match}
    (hs : ∀ x ∈ set, x ∈ s.delegate) :
    (resolveMatch (.withDefault custom) (reId f m) t1 (pick G f set)).2 = (resolveMatch (.withDefault custom) m t set).2.map (pick G f) := by
  rw [resolveMatch_val, resolveMatch_val, conflicting_sim_eq ht1, conflicting_sim_eq ht, conflicting_pick v h hm hg]
  cases hc : (s.conflicting m).2 with
  | error e => rfl
  | ok cs =>
    have hgr := conflicting_group v h.whole hm hc
    simp only [Except.map]
    have he : (cs.map (reId f)).isEmpty = cs.isEmpty := by cases cs <;> rfl
    rw [he]
    cases cs.isEmpty with
    | true => rfl
    | false =>
      simp only [Bool.false_eq_true, if_false]
      rw [publicOf_re, sortByLen_re]
      cases hsort : sortByLen (publicOf cs) with
      | error e => rfl
      | ok r =>
        simp only [Except.map]
        have := resolvePairs_pick hi v hm hg (cs := r) hs (fun x hx => ⟨(hgr x (sorted_public hsort x hx)).1, (hgr x (sorted_public hsort x hx)).2.trans hg⟩)
        exact this

/-- What is added to the set are matches of the group of `m`. -/
theorem resolveMatch_adds {sv : Solvers} (hn : Names sv) {G : Match → Bool} {f : Nat → Nat} {s t : Matches} (v : View G f s.delegate) (h : Tidy s) (ht : Sim s t)
    {m : Match} (hm : m ∈ s.delegate) {set set' : List Match} (hr : (resolveMatch sv m t set).2 = .ok set') :
    ∃ more, set' = set ++ more ∧ ∀ x ∈ more, x ∈ s.delegate ∧ G x = G m := by
  rw [resolveMatch_val, conflicting_sim_eq ht] at hr
  cases hc : (s.conflicting m).2 with
  | error e => rw [hc] at hr; cases hr
  | ok cs =>
    have hgr := conflicting_group v h hm hc
    rw [hc] at hr
    simp only at hr
    cases he : cs.isEmpty with
    | true => rw [he] at hr; cases hr; exact ⟨[], by simp, fun x hx => (by cases hx)⟩
    | false =>
      rw [he] at hr
      simp only [Bool.false_eq_true, if_false] at hr
      cases hsort : sortByLen (publicOf cs) with
      | error e => rw [hsort] at hr; cases hr
      | ok r =>
        rw [hsort] at hr
        simp only at hr
        obtain ⟨more, h1, h2⟩ := resolvePairs_added hn hr
        refine ⟨more, h1, fun x hx => ?_⟩
        rcases h2 x hx with e | e
        · rw [e]; exact ⟨hm, rfl⟩
        · exact hgr x (sorted_public hsort x e)

theorem pick_adds_same {G : Match → Bool} (f : Nat → Nat) {set more : List Match} (h : ∀ x ∈ more, G x = false) : pick G f (set ++ more) = pick G f set := by
  rw [pick_append, pick_none f h, List.append_nil]

theorem resolveMatches_cons (sv : Solvers) (m : Match) (ms : List Match) (s : Matches) (set : List Match) :
    (resolveMatches sv (m :: ms) s set).2 = (match (resolveMatch sv m s set).2 with
      | .error e => .error e
      | .ok set1 => (resolveMatches sv ms (resolveMatch sv m s set).1 set1).2) := by
  conv => lhs; unfold resolveMatches
  cases resolveMatch sv m s set with
  | mk s' r => cases r <;> rfl

theorem resolveMatches_agree {custom : Nat → Match → Match → Except PyErr SolverRet} (hi : Impartial custom) {G : Match → Bool} {f g : Nat → Nat}
    {s s1 s2 : Matches} (v1 : View G f s.delegate) (v2 : View (fun m => !G m) g s.delegate) (h1 : Held G f s s1) (h2 : Held (fun m => !G m) g s s2) :
    ∀ {ms set : List Match} {t t1 t2 : Matches}, Sim s t → Sim s1 t1 → Sim s2 t2 → (∀ x ∈ ms, x ∈ s.delegate) → (∀ x ∈ set, x ∈ s.delegate) →
    Agree (pick G f) (pick (fun m => !G m) g) (resolveMatches (.withDefault custom) ms t set).2
      (resolveMatches (.withDefault custom) (pick G f ms) t1 (pick G f set)).2
      (resolveMatches (.withDefault custom) (pick (fun m => !G m) g ms) t2 (pick (fun m => !G m) g set)).2 ∧
    ∀ set', (resolveMatches (.withDefault custom) ms t set).2 = .ok set' → ∀ x ∈ set', x ∈ s.delegate
  | [], set, t, t1, t2, _, _, _, _, hset => by
    refine ⟨⟨fun x hx => ?_, fun e he => by cases he⟩, fun x hx => ?_⟩
    · cases hx; exact ⟨rfl, rfl⟩
    · cases hx; exact hset
  | m :: ms, set, t, t1, t2, ht, ht1, ht2, hms, hset => by
    have hm := hms m List.mem_cons_self
    have hms' : ∀ x ∈ ms, x ∈ s.delegate := fun x hx => hms x (List.mem_cons_of_mem _ hx)
    have hsim := resolveMatch_sim (.withDefault custom) m t set
    rw [resolveMatches_cons]
    cases hr : (resolveMatch (.withDefault custom) m t set).2 with
    | error e =>
      simp only
      refine ⟨⟨fun x hx => (by cases hx), fun e' he => ?_⟩, fun x hx => (by cases hx)⟩
      cases he
      cases hg : G m with
      | true =>
        left
        rw [pick_cons_pos f hg, resolveMatches_cons, resolveMatch_pick hi v1 h1 ht ht1 hm hg hset, hr]
        rfl
      | false =>
        right
        rw [pick_cons_pos g (by simp [hg]), resolveMatches_cons, resolveMatch_pick hi v2 h2 ht ht2 hm (by simp [hg]) hset, hr]
        rfl
    | ok set1 =>
      simp only
      obtain ⟨more, hmore, hgm⟩ := resolveMatch_adds (names_of (choosing_of hi)) v1 h1.whole ht hm hr
      have hset1 : ∀ x ∈ set1, x ∈ s.delegate := by
        intro x hx
        rw [hmore] at hx
        rcases List.mem_append.1 hx with hx | hx
        · exact hset x hx
        · exact (hgm x hx).1
      cases hg : G m with
      | true =>
        have hp := resolveMatch_pick hi v1 h1 ht ht1 hm hg hset
        rw [hr] at hp
        have hsim1 := resolveMatch_sim (.withDefault custom) (reId f m) t1 (pick G f set)
        have e2 : pick (fun m => !G m) g set = pick (fun m => !G m) g set1 := by
          rw [hmore]; exact (pick_adds_same g (fun x hx => by simp [(hgm x hx).2, hg])).symm
        rw [pick_cons_pos f hg, resolveMatches_cons, hp, pick_cons_neg g (by simp [hg]), e2]
        exact resolveMatches_agree hi v1 v2 h1 h2 (ht.trans hsim) (ht1.trans hsim1) ht2 hms' hset1
      | false =>
        have hg' : (fun m => !G m) m = true := by simp [hg]
        have hp := resolveMatch_pick hi v2 h2 ht ht2 hm hg' hset
        rw [hr] at hp
        have hsim2 := resolveMatch_sim (.withDefault custom) (reId g m) t2 (pick (fun m => !G m) g set)
        have e1 : pick G f set = pick G f set1 := by
          rw [hmore]; exact (pick_adds_same f (fun x hx => (hgm x hx).2.trans hg)).symm
        rw [pick_cons_pos g hg', resolveMatches_cons, hp, pick_cons_neg f hg, e1]
        exact resolveMatches_agree hi v1 v2 h1 h2 (ht.trans hsim) ht1 (ht2.trans hsim2) hms' hset1

theorem conflictWhen_val (sv : Solvers) (s : Matches) : (conflictWhen sv s).2 = (match sortByLen (publicOf s.delegate) with
    | .error e => .error e
    | .ok ms => (resolveMatches sv ms s []).2) := by
  unfold conflictWhen
  cases sortByLen (publicOf s.delegate) <;> rfl

theorem conflictWhen_agree {custom : Nat → Match → Match → Except PyErr SolverRet} (hi : Impartial custom) {G : Match → Bool} {f g : Nat → Nat}
    {s s1 s2 : Matches} (v1 : View G f s.delegate) (v2 : View (fun m => !G m) g s.delegate) (h1 : Held G f s s1) (h2 : Held (fun m => !G m) g s s2) :
    Agree (pick G f) (pick (fun m => !G m) g) (conflictWhen (.withDefault custom) s).2 (conflictWhen (.withDefault custom) s1).2
      (conflictWhen (.withDefault custom) s2).2 ∧
    ∀ set', (conflictWhen (.withDefault custom) s).2 = .ok set' → ∀ x ∈ set', x ∈ s.delegate := by
  rw [conflictWhen_val, conflictWhen_val, conflictWhen_val, h1.same, h2.same, ← publicOf_pick, ← publicOf_pick]
  obtain ⟨a1, a2⟩ := sortByLen_agree G f g (publicOf s.delegate)
  cases hs : sortByLen (publicOf s.delegate) with
  | error e =>
    refine ⟨⟨fun x hx => (by cases hx), fun e' he => ?_⟩, fun x hx => (by cases hx)⟩
    cases he
    rcases a2 e hs with h | h
    · left; rw [h]
    · right; rw [h]
  | ok ms =>
    obtain ⟨b1, b2⟩ := a1 ms hs
    rw [b1, b2]
    have hms : ∀ x ∈ ms, x ∈ s.delegate := fun x hx => (mem_publicOf.1 ((sortByLen_perm hs).subset hx)).1
    exact resolveMatches_agree hi v1 v2 h1 h2 (Sim.refl s) (Sim.refl s1) (Sim.refl s2) hms (fun x hx => by cases hx)

/-! ## Removals -/

theorem cutFirst_pick {G : Match → Bool} {f : Nat → Nat} {l0 : List Match} (v : View G f l0) {m : Match} (hm : m ∈ l0) : ∀ {l : List Match}, (∀ x ∈ l, x ∈ l0) →
    pick G f (cutFirst l m) = if G m then cutFirst (pick G f l) (reId f m) else pick G f l
  | [], _ => by cases G m <;> rfl
  | x :: l, hl => by
    have hx := hl x List.mem_cons_self
    have ih := cutFirst_pick v hm (fun y hy => hl y (List.mem_cons_of_mem _ hy))
    rw [cutFirst_cons]
    by_cases he : x.eqv m = true
    · rw [if_pos he]
      have hg : G x = G m := by
        by_cases e : G x = G m
        · exact e
        · have := (v.apart x hx m hm e).2
          rw [he] at this; cases this
      cases hgm : G m with
      | true =>
        rw [if_pos rfl, pick_cons_pos f (hg.trans hgm), cutFirst_cons, if_pos (c := (reId f x).eqv (reId f m) = true) he]
      | false => rw [pick_cons_neg f (hg.trans hgm)]; simp
    · rw [if_neg he]
      cases hgx : G x with
      | true =>
        rw [pick_cons_pos f hgx, pick_cons_pos f hgx, ih, cutFirst_cons, if_neg (c := (reId f x).eqv (reId f m) = true) he]
        cases G m <;> rfl
      | false => rw [pick_cons_neg f hgx, pick_cons_neg f hgx, ih]

theorem cutFirst_sub (l : List Match) (m : Match) : ∀ x ∈ cutFirst l m, x ∈ l := by
  induction l with
  | nil => intro x hx; exact hx
  | cons y l ih =>
    intro x hx
    rw [cutFirst_cons] at hx
    split at hx
    · exact List.mem_cons_of_mem _ hx
    · rcases List.mem_cons.1 hx with rfl | hx
      · exact List.mem_cons_self
      · exact List.mem_cons_of_mem _ (ih x hx)

theorem cutAll_sub : ∀ (ms l : List Match), ∀ x ∈ ms.foldl cutFirst l, x ∈ l
  | [], _, _, hx => hx
  | m :: ms, l, x, hx => cutFirst_sub l m x (cutAll_sub ms (cutFirst l m) x hx)

theorem cutAll_pick {G : Match → Bool} {f : Nat → Nat} {l0 : List Match} (v : View G f l0) : ∀ {ms l : List Match}, (∀ x ∈ ms, x ∈ l0) → (∀ x ∈ l, x ∈ l0) →
    pick G f (ms.foldl cutFirst l) = (pick G f ms).foldl cutFirst (pick G f l)
  | [], _, _, _ => rfl
  | m :: ms, l, hms, hl => by
    rw [List.foldl_cons, cutAll_pick v (fun x hx => hms x (List.mem_cons_of_mem _ hx)) (fun x hx => hl x (cutFirst_sub l m x hx)),
      cutFirst_pick v (hms m List.mem_cons_self) hl]
    cases hg : G m with
    | true => rw [pick_cons_pos f hg]; rfl
    | false => rw [pick_cons_neg f hg]; rfl

theorem removeEach_cut (ms : List Match) {s : Matches} (h : Tidy s) :
    (dropAnswer (thenRemove (.many ms) s)).2 = none ∧ (dropAnswer (thenRemove (.many ms) s)).1.delegate = ms.foldl cutFirst s.delegate ∧
    Tidy (dropAnswer (thenRemove (.many ms) s)).1 := by
  obtain ⟨ret, h1, h2, _, h4, _⟩ := removeEach_spec ms h.inv
  rw [thenRemove_many_ok h1]
  exact ⟨rfl, removes_cutFirst h4, h2, exact_removeEach ms h.inv h.exact_⟩

theorem conflict_exec (sv : Solvers) {order : List Match → List Match} (ho : ∀ l, (order l).Perm l) {s : Matches} (h : Tidy s) (x : RuleRef) :
    (∀ set, (conflictWhen sv s).2 = .ok set → (executeRule listTruthy (conflictRule sv order) x s).err = none ∧
      (executeRule listTruthy (conflictRule sv order) x s).state.delegate = set.foldl cutFirst s.delegate ∧
      Tidy (executeRule listTruthy (conflictRule sv order) x s).state) ∧
    ∀ e, (conflictWhen sv s).2 = .error e → (executeRule listTruthy (conflictRule sv order) x s).err = some e := by
  have hsim := conflictWhen_sim sv s
  have hw : (conflictRule sv order).when_ s = conflictWhen sv s := rfl
  unfold executeRule
  rw [if_pos (show (conflictRule sv order).enabled s = true from rfl), hw]
  cases hc : conflictWhen sv s with
  | mk s' r =>
    rw [hc] at hsim
    have ht := h.sim hsim
    have hd : s'.delegate = s.delegate := hsim.delegate
    cases r with
    | error e => exact ⟨fun set h => (by cases h), fun e' he => (by cases he; rfl)⟩
    | ok set =>
      refine ⟨fun set' hs => ?_, fun e he => by cases he⟩
      cases hs
      simp only
      cases htr : listTruthy set with
      | false =>
        simp only [Bool.false_eq_true, if_false]
        have : set = [] := by cases set with
          | nil => rfl
          | cons a l => cases htr
        subst this
        exact ⟨trivial, hd, ht⟩
      | true =>
        simp only [if_true]
        obtain ⟨q1, q2, q3⟩ := removeEach_cut (order set) ht
        have hth : (conflictRule sv order).then_ s' set = dropAnswer (thenRemove (.many (order set)) s') := rfl
        rw [hth]
        rw [cutFirst_perm (ho set), hd] at q2
        cases hdrop : dropAnswer (thenRemove (.many (order set)) s') with
        | mk s'' e =>
          rw [hdrop] at q1 q2 q3
          simp only at q1
          subst q1
          exact ⟨rfl, q2, q3⟩

theorem private_exec {s : Matches} (h : Tidy s) (x : RuleRef) : (executeRule listTruthy privateRule x s).err = none ∧
    (executeRule listTruthy privateRule x s).state.delegate = (privateWhen s).foldl cutFirst s.delegate ∧
    Tidy (executeRule listTruthy privateRule x s).state := by
  have hw : privateRule.when_ s = (s, .ok (privateWhen s)) := rfl
  unfold executeRule
  rw [if_pos (show privateRule.enabled s = true from rfl), hw]
  simp only
  cases htr : listTruthy (privateWhen s) with
  | false =>
    simp only [Bool.false_eq_true, if_false]
    have : privateWhen s = [] := by
      cases hp : privateWhen s with
      | nil => rfl
      | cons a l => rw [hp] at htr; cases htr
    rw [this]; exact ⟨trivial, rfl, h⟩
  | true =>
    simp only [if_true]
    obtain ⟨q1, q2, q3⟩ := removeEach_cut (privateWhen s) h
    have hth : privateRule.then_ s (privateWhen s) = dropAnswer (thenRemove (.many (privateWhen s)) s) := rfl
    rw [hth]
    cases hdrop : dropAnswer (thenRemove (.many (privateWhen s)) s) with
    | mk s'' e =>
      rw [hdrop] at q1 q2 q3
      simp only at q1
      subst q1
      exact ⟨rfl, q2, q3⟩

theorem private_pick {G : Match → Bool} {f : Nat → Nat} {s s1 : Matches} (h : s1.delegate = pick G f s.delegate) : privateWhen s1 = pick G f (privateWhen s) := by
  unfold privateWhen
  rw [h]
  unfold pick
  rw [List.filter_map, List.filter_filter, List.filter_filter]
  congr 1
  exact List.filter_congr (fun x _ => Bool.and_comm _ _)

end Rebulk
