import Verif.Lemmas.Queries
import Verif.Spec.Holes
/-!
# Lemmas on `holes`
-/
namespace Rebulk
open Spec
namespace Matches

/-- The matches at `r` that count. -/
def curAt (s : Matches) (ignore : Match → Bool) (r : Int) : Bool := (s.indexDict.getList r).any (fun m => !ignore m)

/-- The loop without lookups. -/
def holesFold (start : Int) (cur sep : Int → Bool) (rs : List Int) (h : HoleSt) : HoleSt :=
  rs.foldl (fun h r => holeStep start (cur r) (sep r) h r) h

/-- The separator test as the loop performs it. -/
def sepAt (seps : Option Str) (input : Option Str) (r : Int) : Bool :=
  match seps, input with
  | some sp, some str =>
    match pyGet str r with
    | some c => sp.contains c
    | none => false
  | _, _ => false

theorem curAt_sim {s s' : Matches} (h : Sim s s') (ignore : Match → Bool) : s'.curAt ignore = s.curAt ignore := by
  funext r; unfold curAt; rw [h.index]

theorem holeStep_isSep (start : Int) (c b b' : Bool) (h : HoleSt) (r : Int) (hn : h.openAt = none) :
    holeStep start c b h r = holeStep start c b' h r := by
  unfold holeStep; rw [hn]

theorem holesLoop_eq (start : Int) (seps : Option Str) (ignore : Match → Bool) (rs : List Int) (s : Matches) (h : HoleSt)
    (hin : seps = none ∨ ∃ str, s.inputString = some str ∧ ∀ r ∈ rs, ∃ c, pyGet str r = some c) :
    (holesLoop start seps ignore rs s h).2 = .ok (holesFold start (s.curAt ignore) (sepAt seps s.inputString) rs h) := by
  induction rs generalizing s h with
  | nil => rfl
  | cons r rs ih =>
    have hs := lookIndex_sim s r
    have hv : (s.lookIndex r).2 = s.indexDict.getList r := rfl
    have hin' : seps = none ∨ ∃ str, (s.lookIndex r).1.inputString = some str ∧ ∀ r ∈ rs, ∃ c, pyGet str r = some c := by
      rcases hin with h1 | ⟨str, h1, h2⟩
      · exact Or.inl h1
      · exact Or.inr ⟨str, by rw [hs.input]; exact h1, fun r hr => h2 r (List.mem_cons_of_mem _ hr)⟩
    have hrec := fun h => ih (s.lookIndex r).1 h hin'
    rw [curAt_sim hs, hs.input] at hrec
    have hfold : ∀ h, holesFold start (s.curAt ignore) (sepAt seps s.inputString) (r :: rs) h =
        holesFold start (s.curAt ignore) (sepAt seps s.inputString) rs
          (holeStep start (s.curAt ignore r) (sepAt seps s.inputString r) h r) := fun _ => rfl
    have hcur : ((s.lookIndex r).2.any fun m => !ignore m) = s.curAt ignore r := rfl
    rw [hfold]
    unfold holesLoop
    simp only [hcur]
    rcases hin with h1 | ⟨str, h1, h2⟩
    · subst h1
      simp only
      rw [hrec]; rfl
    · obtain ⟨c, hc⟩ := h2 r List.mem_cons_self
      cases seps with
      | none => simp only; rw [hrec]; rfl
      | some sp =>
        have hsep : sepAt (some sp) s.inputString r = sp.contains c := by simp only [sepAt, h1, hc]
        cases ho : h.openAt with
        | none =>
          simp only
          rw [hrec, holeStep_isSep start _ false (sepAt (some sp) s.inputString r) h r ho]
        | some a =>
          simp only [h1]
          have hstr : str.isEmpty = false := by
            cases str with
            | nil => simp [pyGet, normIdx] at hc; split at hc <;> simp_all
            | cons x xs => rfl
          rw [hstr]
          by_cases hsp : sp.isEmpty = true
          · rw [hsp]; simp only [Bool.or_false, if_true]
            rw [hrec, ← h1, hsep]
            have : sp = [] := by simpa using hsp
            subst this; rfl
          · simp only [hsp, Bool.or_false]
            rw [if_neg (by simp), hc]
            simp only
            rw [hrec, ← h1, hsep]

/-! ### The scans -/

theorem holeScan_eq (ignore : Match → Bool) (is : List Int) (s : Matches) :
    (holeScan ignore is s).2 = is.find? (fun i => (s.startDict.getList i).any (fun m => !ignore m)) := by
  induction is generalizing s with
  | nil => rfl
  | cons i is ih =>
    have hs := lookStart_sim s i
    have hv : (s.lookStart i).2 = s.startDict.getList i := rfl
    unfold holeScan
    simp only [hv]
    by_cases h : (s.startDict.getList i).any (fun m => !ignore m) = true
    · rw [if_pos h, List.find?_cons, h]
    · rw [if_neg h, ih, List.find?_cons]
      simp only [Bool.not_eq_true] at h
      rw [h]
      congr 1; funext j; rw [hs.start]

theorem startsAt_iff {s : Matches} (hi : Inv s) {ignore : Match → Bool} (hp : RespectsEq ignore) (i : Int) :
    (s.startDict.getList i).any (fun m => !ignore m) = true ↔ ∃ x ∈ s.delegate, ignore x = false ∧ x.start = i := by
  have hmem := fun e => sameUpToEq_mem (hi.seesStart i) e
  rw [List.any_eq_true]
  constructor
  · rintro ⟨x, hx, hix⟩
    obtain ⟨y, hy, hyx⟩ := (hmem x).1 ⟨x, hx, x.eqv_refl⟩
    simp only [Spec.starting, List.mem_filter, decide_eq_true_eq] at hy
    refine ⟨y, hy.1, ?_, hy.2⟩
    rw [hp y x hyx]; simpa using hix
  · rintro ⟨y, hy, h1, h2⟩
    obtain ⟨x, hx, hxy⟩ := (hmem y).2 ⟨y, by simp [Spec.starting, hy, h2], y.eqv_refl⟩
    exact ⟨x, hx, by rw [hp x y hxy, h1]; rfl⟩

theorem curAt_iff {s : Matches} (hi : Inv s) {ignore : Match → Bool} (hp : RespectsEq ignore) (i : Int) :
    s.curAt ignore i = false ↔ Free s.delegate ignore i := by
  have hp' : RespectsEq (fun m => !ignore m) := fun a b h => by simp only [hp a b h]
  have hne := filtered_index_ne hi hp' i
  have hc : s.curAt ignore i = true ↔ (s.indexDict.getList i).filter (fun m => !ignore m) ≠ [] := by
    unfold curAt
    rw [List.any_eq_true]
    constructor
    · rintro ⟨x, hx, h⟩ hc
      have : x ∈ (s.indexDict.getList i).filter (fun m => !ignore m) := List.mem_filter.2 ⟨hx, h⟩
      rw [hc] at this; cases this
    · intro h
      obtain ⟨x, hx⟩ := List.exists_mem_of_ne_nil _ h
      rw [List.mem_filter] at hx
      exact ⟨x, hx.1, hx.2⟩
  constructor
  · intro h x hx h1 h2
    have : s.curAt ignore i = true := hc.2 (hne.2 ⟨x, hx, by simp [h1], h2.1, h2.2⟩)
    rw [h] at this; cases this
  · intro h
    cases hcur : s.curAt ignore i with
    | false => rfl
    | true =>
      obtain ⟨x, hx, h1, h2⟩ := hne.1 (hc.1 hcur)
      exact absurd h2 (h x hx (by simpa using h1))

/-! ### The loop invariant -/

/-- Invariant of the loop on `[lo, r)`, with the bad spans closed before `lo` set apart in `junk`. -/
structure HInv (cur sep : Int → Bool) (junk : List (Int × Int)) (lo r : Int) (h : HoleSt) : Prop where
  le : lo ≤ r
  split : ∃ c, h.closed = junk ++ c ∧
    (∀ x ∈ c, lo ≤ x.1 ∧ x.1 < x.2 ∧ x.2 < r) ∧
    (∀ x ∈ c, ∀ i, x.1 ≤ i → i < x.2 → cur i = false) ∧
    (∀ x ∈ c, ∀ i, x.1 < i → i < x.2 → sep i = false) ∧
    (∀ x ∈ c, x.1 = lo ∨ cur (x.1 - 1) = true ∨ sep (x.1 - 1) = true) ∧
    (∀ x ∈ c, cur x.2 = true ∨ sep x.2 = true) ∧
    c.Pairwise (fun x y => x.2 < y.1) ∧
    (∀ a, h.openAt = some a → (lo ≤ a ∧ a < r) ∧ (∀ i, a ≤ i → i < r → cur i = false) ∧ (∀ i, a < i → i < r → sep i = false) ∧
      (a = lo ∨ cur (a - 1) = true ∨ sep (a - 1) = true) ∧ ∀ x ∈ c, x.2 < a) ∧
    (h.openAt = none → r = lo ∨ cur (r - 1) = true ∨ sep (r - 1) = true) ∧
    (∀ i, lo ≤ i → i < r → cur i = false → sep i = false →
      (∃ x ∈ c, x.1 ≤ i ∧ i < x.2) ∨ ∃ a, h.openAt = some a ∧ a ≤ i)
  idx : lo < r → h.rindex = r - 1

theorem HInv.step {start : Int} {cur sep : Int → Bool} {junk : List (Int × Int)} {lo r : Int} {h : HoleSt}
    (hi : HInv cur sep junk lo r h) (hst : start ≤ lo) : HInv cur sep junk lo (r + 1) (holeStep start (cur r) (sep r) h r) := by
  obtain ⟨hle, ⟨c, hc, h1, h2, h3, h4, h5, h6, h7, h8, h9⟩, hidx⟩ := hi
  cases ho : h.openAt with
  | none =>
    cases hcur : cur r with
    | true =>
      have : holeStep start true (sep r) h r = { h with rindex := r } := by simp [holeStep, ho]
      rw [this]
      refine ⟨by omega, ⟨c, hc, ?_, h2, h3, h4, h5, h6, ?_, ?_, ?_⟩, fun _ => by simp⟩
      · intro x hx; have := h1 x hx; omega
      · intro a ha; simp only [ho] at ha; cases ha
      · intro _; right; left; simpa using hcur
      · intro i hi1 hi2 hi3 hi4
        have : i ≠ r := by rintro rfl; rw [hcur] at hi3; cases hi3
        rcases h9 i hi1 (by omega) hi3 hi4 with h | ⟨a, ha, _⟩
        · exact Or.inl h
        · rw [ho] at ha; cases ha
    | false =>
      have hmax : max r start = r := by omega
      have : holeStep start false (sep r) h r = ⟨h.closed, some r, r⟩ := by simp [holeStep, ho, hmax]
      rw [this]
      refine ⟨by omega, ⟨c, hc, ?_, h2, h3, h4, h5, h6, ?_, ?_, ?_⟩, fun _ => by simp⟩
      · intro x hx; have := h1 x hx; omega
      · intro a ha
        simp only [Option.some.injEq] at ha; subst ha
        refine ⟨by omega, ?_, ?_, h8 ho, ?_⟩
        · intro i hi1 hi2; have : i = r := by omega
          rw [this]; exact hcur
        · intro i hi1 hi2; omega
        · intro x hx; exact (h1 x hx).2.2
      · intro hn; cases hn
      · intro i hi1 hi2 hi3 hi4
        by_cases hir : i = r
        · exact Or.inr ⟨r, rfl, by omega⟩
        · rcases h9 i hi1 (by omega) hi3 hi4 with h | ⟨a, ha, _⟩
          · exact Or.inl h
          · rw [ho] at ha; cases ha
  | some a =>
    obtain ⟨o1, o2, o3, o4, o5⟩ := h7 a ho
    by_cases hclose : sep r = true ∨ cur r = true
    · have : holeStep start (cur r) (sep r) h r = ⟨h.closed ++ [(a, r)], none, r⟩ := by
        rcases hclose with hh | hh <;> simp [holeStep, ho, hh]
      rw [this]
      refine ⟨by omega, ⟨c ++ [(a, r)], by rw [hc]; simp, ?_, ?_, ?_, ?_, ?_, ?_, ?_, ?_, ?_⟩, fun _ => by simp⟩
      · intro x hx
        rcases List.mem_append.1 hx with hx | hx
        · have := h1 x hx; omega
        · simp only [List.mem_singleton] at hx; subst hx; simp only; omega
      · intro x hx
        rcases List.mem_append.1 hx with hx | hx
        · exact h2 x hx
        · simp only [List.mem_singleton] at hx; subst hx; exact o2
      · intro x hx
        rcases List.mem_append.1 hx with hx | hx
        · exact h3 x hx
        · simp only [List.mem_singleton] at hx; subst hx; exact o3
      · intro x hx
        rcases List.mem_append.1 hx with hx | hx
        · exact h4 x hx
        · simp only [List.mem_singleton] at hx; subst hx; exact o4
      · intro x hx
        rcases List.mem_append.1 hx with hx | hx
        · exact h5 x hx
        · simp only [List.mem_singleton] at hx; subst hx; exact hclose.symm
      · rw [List.pairwise_append]
        refine ⟨h6, by simp, ?_⟩
        intro x hx y hy
        simp only [List.mem_singleton] at hy; subst hy; exact o5 x hx
      · intro a' ha'; cases ha'
      · intro _; right; simpa using hclose.symm
      · intro i hi1 hi2 hi3 hi4
        have : i ≠ r := by
          rintro rfl
          rcases hclose with hh | hh
          · rw [hh] at hi4; cases hi4
          · rw [hh] at hi3; cases hi3
        rcases h9 i hi1 (by omega) hi3 hi4 with ⟨x, hx, h⟩ | ⟨a', ha', h⟩
        · exact Or.inl ⟨x, List.mem_append_left _ hx, h⟩
        · rw [ho] at ha'; cases ha'
          exact Or.inl ⟨(a, r), by simp, by simp only; omega⟩
    · have hs : sep r = false := by cases hx : sep r <;> simp_all
      have hcu : cur r = false := by cases hx : cur r <;> simp_all
      have : holeStep start (cur r) (sep r) h r = { h with rindex := r } := by simp [holeStep, ho, hs, hcu]
      rw [this]
      refine ⟨by omega, ⟨c, hc, ?_, h2, h3, h4, h5, h6, ?_, ?_, ?_⟩, fun _ => by simp⟩
      · intro x hx; have := h1 x hx; omega
      · intro a' ha'
        simp only [ho, Option.some.injEq] at ha'; subst ha'
        refine ⟨by omega, ?_, ?_, o4, o5⟩
        · intro i hi1 hi2
          by_cases hir : i = r
          · rw [hir]; exact hcu
          · exact o2 i hi1 (by omega)
        · intro i hi1 hi2
          by_cases hir : i = r
          · rw [hir]; exact hs
          · exact o3 i hi1 (by omega)
      · intro hn; simp only [ho] at hn; cases hn
      · intro i hi1 hi2 hi3 hi4
        by_cases hir : i = r
        · exact Or.inr ⟨a, ho, by omega⟩
        · exact h9 i hi1 (by omega) hi3 hi4

theorem HInv.run {start : Int} {cur sep : Int → Bool} {junk : List (Int × Int)} {lo r : Int} {h : HoleSt}
    (hi : HInv cur sep junk lo r h) (hst : start ≤ lo) (n : Nat) :
    HInv cur sep junk lo (r + n) (holesFold start cur sep (pyRange r (r + n)) h) := by
  induction n with
  | zero => rw [pyRange_eq_nil (by omega)]; simpa [holesFold] using hi
  | succ n ih =>
    have : r + ((n + 1 : Nat) : Int) = (r + n) + 1 := by omega
    rw [this, pyRange_snoc (by omega)]
    unfold holesFold at ih ⊢
    rw [List.foldl_append]
    exact ih.step hst

theorem HInv.run' {start : Int} {cur sep : Int → Bool} {junk : List (Int × Int)} {lo r e : Int} {h : HoleSt}
    (hi : HInv cur sep junk lo r h) (hst : start ≤ lo) (he : r ≤ e) :
    HInv cur sep junk lo e (holesFold start cur sep (pyRange r e) h) := by
  have := hi.run hst (e - r).toNat
  have heq : r + ((e - r).toNat : Int) = e := by omega
  rwa [heq] at this

theorem hinv_fresh (cur sep : Int → Bool) (junk : List (Int × Int)) (lo : Int) (h : HoleSt) (hc : h.closed = junk)
    (ho : h.openAt = none) : HInv cur sep junk lo lo h := by
  refine ⟨by omega, ⟨[], by simp [hc], by simp, by simp, by simp, by simp, by simp, by simp, ?_, fun _ => Or.inl rfl, ?_⟩,
    fun h => by omega⟩
  · intro a ha; rw [ho] at ha; cases ha
  · intro i h1 h2; omega

/-- The first step when a hole opened before `start` is still open at `start`. -/
theorem hinv_first (cur sep : Int → Bool) (junk : List (Int × Int)) (start : Int) (h : HoleSt) (hc : h.closed = junk)
    (ho : h.openAt = some start) :
    HInv cur sep (if cur start || sep start then junk ++ [(start, start)] else junk) start (start + 1)
      (holeStep start (cur start) (sep start) h start) := by
  by_cases hclose : sep start = true ∨ cur start = true
  · have : holeStep start (cur start) (sep start) h start = ⟨h.closed ++ [(start, start)], none, start⟩ := by
      rcases hclose with hh | hh <;> simp [holeStep, ho, hh]
    rw [this, if_pos (by simpa using hclose.symm)]
    refine ⟨by omega, ⟨[], by simp [hc], by simp, by simp, by simp, by simp, by simp, by simp, ?_, ?_, ?_⟩, fun _ => by simp⟩
    · intro a ha; cases ha
    · intro _; right; simpa using hclose.symm
    · intro i h1 h2 h3 h4
      have : i = start := by omega
      subst this
      rcases hclose with hh | hh
      · rw [hh] at h4; cases h4
      · rw [hh] at h3; cases h3
  · have hs : sep start = false := by cases hx : sep start <;> simp_all
    have hcu : cur start = false := by cases hx : cur start <;> simp_all
    have : holeStep start (cur start) (sep start) h start = { h with rindex := start } := by simp [holeStep, ho, hs, hcu]
    rw [this, if_neg (by simp [hs, hcu])]
    refine ⟨by omega, ⟨[], by simp [hc], by simp, by simp, by simp, by simp, by simp, by simp, ?_, ?_, ?_⟩, fun _ => by simp⟩
    · intro a ha
      simp only [ho, Option.some.injEq] at ha; subst ha
      refine ⟨by omega, ?_, ?_, Or.inl rfl, by simp⟩
      · intro i h1 h2; have : i = start := by omega
        rw [this]; exact hcu
      · intro i h1 h2; omega
    · intro hn; simp only [ho] at hn; cases hn
    · intro i h1 h2 _ _
      exact Or.inr ⟨start, ho, by omega⟩

/-! ### Before `start` -/

/-- State before `start`: only spans `(start, b)` with `b < start` were closed, an open hole is recorded at `start`. -/
structure PInv (cur : Int → Bool) (start r : Int) (h : HoleSt) : Prop where
  junk : ∀ x ∈ h.closed, x.1 = start ∧ x.2 < r
  opened : ∀ a, h.openAt = some a → a = start ∧ cur (r - 1) = false
  idx : h.openAt ≠ none → h.rindex = r - 1

theorem PInv.step {cur sep : Int → Bool} {start r : Int} {h : HoleSt} (hp : PInv cur start r h) (hr : r < start) :
    PInv cur start (r + 1) (holeStep start (cur r) (sep r) h r) := by
  obtain ⟨h1, h2, h3⟩ := hp
  have e1 : r + 1 - 1 = r := by omega
  cases ho : h.openAt with
  | none =>
    cases hcur : cur r with
    | true =>
      have : holeStep start true (sep r) h r = { h with rindex := r } := by simp [holeStep, ho]
      rw [this]
      refine ⟨fun x hx => ⟨(h1 x hx).1, by have := (h1 x hx).2; omega⟩, ?_, ?_⟩
      · intro a ha; simp only [ho] at ha; cases ha
      · intro hn; simp [e1]
    | false =>
      have : holeStep start false (sep r) h r = ⟨h.closed, some (max r start), r⟩ := by simp [holeStep, ho]
      rw [this]
      refine ⟨fun x hx => ⟨(h1 x hx).1, by have := (h1 x hx).2; omega⟩, ?_, ?_⟩
      · intro a ha
        simp only [Option.some.injEq] at ha
        refine ⟨by omega, by rw [e1]; exact hcur⟩
      · intro _; simp [e1]
  | some a =>
    by_cases hclose : sep r = true ∨ cur r = true
    · have : holeStep start (cur r) (sep r) h r = ⟨h.closed ++ [(a, r)], none, r⟩ := by
        rcases hclose with hh | hh <;> simp [holeStep, ho, hh]
      rw [this]
      refine ⟨?_, ?_, ?_⟩
      · intro x hx
        rcases List.mem_append.1 hx with hx | hx
        · exact ⟨(h1 x hx).1, by have := (h1 x hx).2; omega⟩
        · simp only [List.mem_singleton] at hx; subst hx
          exact ⟨(h2 a ho).1, by simp only; omega⟩
      · intro a' ha'; cases ha'
      · intro hn; simp at hn
    · have hs : sep r = false := by cases hx : sep r <;> simp_all
      have hcu : cur r = false := by cases hx : cur r <;> simp_all
      have : holeStep start (cur r) (sep r) h r = { h with rindex := r } := by simp [holeStep, ho, hs, hcu]
      rw [this]
      refine ⟨fun x hx => ⟨(h1 x hx).1, by have := (h1 x hx).2; omega⟩, ?_, ?_⟩
      · intro a' ha'
        exact ⟨(h2 a' ha').1, by rw [e1]; exact hcu⟩
      · intro _; simp [e1]

theorem PInv.run {cur sep : Int → Bool} {start r : Int} {h : HoleSt} (hp : PInv cur start r h) (hr : r ≤ start) :
    PInv cur start start (holesFold start cur sep (pyRange r start) h) := by
  suffices H : ∀ n : Nat, r + n ≤ start → PInv cur start (r + n) (holesFold start cur sep (pyRange r (r + n)) h) by
    have := H (start - r).toNat (by omega)
    have heq : r + ((start - r).toNat : Int) = start := by omega
    rwa [heq] at this
  intro n
  induction n with
  | zero => intro _; rw [pyRange_eq_nil (by omega)]; simpa [holesFold] using hp
  | succ n ih =>
    intro hle
    have : r + ((n + 1 : Nat) : Int) = (r + n) + 1 := by omega
    rw [this, pyRange_snoc (by omega)]
    unfold holesFold at ih ⊢
    rw [List.foldl_append]
    exact (ih (by omega)).step (by omega)

/-- Without separators nothing is closed before `start` when coverage of `[r, start)` is a prefix; a hole is open exactly after an uncovered index. -/
theorem noJunk {cur : Int → Bool} {start r u : Int} (hr : r ≤ u) (hu : u ≤ start)
    (hpre : ∀ i j, r ≤ i → i ≤ j → j < start → cur i = false → cur j = false) :
    (holesFold start cur (fun _ => false) (pyRange r u) { rindex := start }).closed = [] ∧
    (holesFold start cur (fun _ => false) (pyRange r u) { rindex := start }).openAt = (if r < u ∧ cur (u - 1) = false then some start else none) ∧
    (r < u → (holesFold start cur (fun _ => false) (pyRange r u) { rindex := start }).rindex = u - 1) := by
  suffices H : ∀ n : Nat, r + n ≤ start →
      (holesFold start cur (fun _ => false) (pyRange r (r + n)) { rindex := start }).closed = [] ∧
      (holesFold start cur (fun _ => false) (pyRange r (r + n)) { rindex := start }).openAt = (if r < r + n ∧ cur (r + n - 1) = false then some start else none) ∧
      (r < r + n → (holesFold start cur (fun _ => false) (pyRange r (r + n)) { rindex := start }).rindex = r + n - 1) by
    have := H (u - r).toNat (by omega)
    have heq : r + ((u - r).toNat : Int) = u := by omega
    rwa [heq] at this
  intro n
  induction n with
  | zero => intro _; rw [pyRange_eq_nil (by omega)]; simp [holesFold]
  | succ n ih =>
    intro hle
    have : r + ((n + 1 : Nat) : Int) = (r + n) + 1 := by omega
    rw [this, pyRange_snoc (by omega)]
    obtain ⟨ih1, ih2, ih3⟩ := ih (by omega)
    unfold holesFold at ih1 ih2 ih3 ⊢
    rw [List.foldl_append]
    simp only [List.foldl_cons, List.foldl_nil]
    generalize hg : List.foldl (fun h r => holeStep start (cur r) false h r) { rindex := start } (pyRange r (r + n)) = g at ih1 ih2 ih3
    have e1 : r + (n : Int) + 1 - 1 = r + n := by omega
    rw [e1]
    by_cases hc : r < r + (n : Int) ∧ cur (r + n - 1) = false
    · rw [if_pos hc] at ih2
      have hcur : cur (r + n) = false := hpre _ (r + n) (by omega) (by omega) (by omega) hc.2
      rw [hcur, if_pos ⟨by omega, rfl⟩]
      simp only [holeStep, ih2, ih1]
      exact ⟨rfl, rfl, fun _ => rfl⟩
    · rw [if_neg hc] at ih2
      cases hcur : cur (r + n) with
      | true =>
        rw [if_neg (by simp)]
        simp only [holeStep, ih2, ih1]
        exact ⟨rfl, rfl, fun _ => rfl⟩
      | false =>
        rw [if_pos ⟨by omega, rfl⟩]
        simp only [holeStep, ih2, ih1]
        refine ⟨rfl, ?_, fun _ => rfl⟩
        show some (max (r + (n : Int)) start) = some start
        rw [show max (r + (n : Int)) start = start by omega]

/-! ### Assembling -/

theorem pyRange_reverse_find_none {p : Int → Bool} {a b : Int} (h : (pyRange a b).reverse.find? p = none) :
    ∀ i, a ≤ i → i < b → p i = false := by
  intro i h1 h2
  have := List.find?_eq_none.1 h i (by rw [List.mem_reverse, mem_pyRange]; exact ⟨h1, h2⟩)
  simpa using this

theorem find?_sorted {R : Int → Int → Prop} {l : List Int} (hl : l.Pairwise R) {p : Int → Bool} {x : Int}
    (h : l.find? p = some x) : x ∈ l ∧ p x = true ∧ ∀ y ∈ l, p y = true → y = x ∨ R x y := by
  rw [List.find?_eq_some_iff_append] at h
  obtain ⟨hp, a, b, hab, ha⟩ := h
  refine ⟨by rw [hab]; simp, hp, ?_⟩
  intro y hy hpy
  rw [hab] at hy hl
  rw [List.pairwise_append] at hl
  rcases List.mem_append.1 hy with hy | hy
  · have := ha y hy; rw [hpy] at this; cases this
  · rcases List.mem_cons.1 hy with rfl | hy
    · exact Or.inl rfl
    · exact Or.inr ((List.pairwise_cons.1 hl.2.1).1 y hy)

theorem le_clamp {s : Matches} (stop : Option Int) : s.clampEnd stop ≤ s.maxEndP := by
  cases stop with
  | none => exact Int.le_refl _
  | some e => have : s.clampEnd (some e) = min s.maxEndP e := rfl
              rw [this]; omega

/-- The start of the scan, and what is known between it and `start`. -/
theorem holeStart_spec {s : Matches} (hi : Inv s) {ignore : Match → Bool} (hp : RespectsEq ignore) {start : Int}
    (h0 : 0 ≤ start) : 0 ≤ (s.holeStart start ignore).2 ∧ (s.holeStart start ignore).2 ≤ start ∧
      ((s.holeStart start ignore).2 = start → start = 0) ∧
      ∀ x ∈ s.delegate, ignore x = false → (s.holeStart start ignore).2 < x.start → start ≤ x.start := by
  unfold holeStart
  simp only [holeScan_eq]
  cases hf : (pyRange 0 start).reverse.find? (fun i => (s.startDict.getList i).any (fun m => !ignore m)) with
  | none =>
    simp only [Option.getD_none]
    refine ⟨by omega, h0, fun h => h.symm, ?_⟩
    intro x hx hix hlt
    rcases Int.lt_or_le x.start start with h | h
    · have h1 := pyRange_reverse_find_none hf x.start (by omega) h
      have h2 := (startsAt_iff hi hp x.start).2 ⟨x, hx, hix, rfl⟩
      rw [h2] at h1; cases h1
    · exact h
  | some k =>
    simp only [Option.getD_some]
    have hpw : ((pyRange 0 start).reverse).Pairwise (fun a b => b < a) := by
      rw [List.pairwise_reverse]; exact pyRange_pairwise _ _
    obtain ⟨h1, h2, h3⟩ := find?_sorted hpw hf
    rw [List.mem_reverse, mem_pyRange] at h1
    refine ⟨by omega, by omega, by omega, ?_⟩
    intro x hx hix hlt
    rcases Int.lt_or_le x.start start with h | h
    · have := h3 x.start (by rw [List.mem_reverse, mem_pyRange]; omega) ((startsAt_iff hi hp x.start).2 ⟨x, hx, hix, rfl⟩)
      omega
    · exact h

/-- `_hole_end` from an uncovered position: not before the next position, when counted matches are not empty. -/
theorem holeEnd_spec {s : Matches} (hi : Inv s) {ignore : Match → Bool} (hp : RespectsEq ignore) {r e : Int}
    (hne : ∀ x ∈ s.delegate, ignore x = false → x.start < x.stop) (hfree : Free s.delegate ignore r) (he : e ≤ s.maxEndP)
    (hr : e ≤ r + 1) : min (s.holeEnd r ignore).2 e = e := by
  unfold holeEnd
  simp only [holeScan_eq]
  cases hf : (pyRange r s.maxEndP).find? (fun i => (s.startDict.getList i).any (fun m => !ignore m)) with
  | none => simp only [Option.getD_none]; omega
  | some k =>
    simp only [Option.getD_some]
    obtain ⟨h1, h2, _⟩ := find?_sorted (pyRange_pairwise _ _) hf
    rw [mem_pyRange] at h1
    obtain ⟨x, hx, hix, hxs⟩ := (startsAt_iff hi hp k).1 h2
    have hkr : k ≠ r := by
      rintro rfl
      exact hfree x hx hix ⟨by omega, by have := hne x hx hix; omega⟩
    omega

theorem HInv.result {F : Int → Prop} {cur : Int → Bool} (hcF : ∀ i, cur i = false ↔ F i) {sep : Int → Bool}
    {junk : List (Int × Int)} {lo e : Int} {h : HoleSt} (hh : HInv cur sep junk lo e h)
    {he : Int} (hhe : ∀ a, h.openAt = some a → min he e = e) :
    ∃ c, (match h.openAt with | none => h.closed | some a => h.closed ++ [(a, min he e)]) = junk ++ c ∧
      HolesWithSeps F (fun i => sep i = true) lo e c := by
  obtain ⟨hle, ⟨c, hc, h1, h2, h3, h4, h5, h6, h7, h8, h9⟩, hidx⟩ := hh
  have hF : ∀ i, cur i = true → ¬ F i := by
    intro i hcu hfr
    rw [(hcF i).2 hfr] at hcu; cases hcu
  have hS : ∀ i, sep i = false → ¬ sep i = true := by intro i h; rw [h]; simp
  cases ho : h.openAt with
  | none =>
    refine ⟨c, hc, ⟨?_, ?_, ?_, ?_, ?_, h6, ?_⟩⟩
    · intro x hx; have := h1 x hx; omega
    · intro x hx i hi1 hi2; exact (hcF i).1 (h2 x hx i hi1 hi2)
    · intro x hx i hi1 hi2; exact hS i (h3 x hx i hi1 hi2)
    · intro x hx; exact (h4 x hx).imp id (Or.imp (hF _) id)
    · intro x hx; exact Or.inr ((h5 x hx).imp (hF _) id)
    · intro i hi1 hi2 hi3 hi4
      rcases h9 i hi1 hi2 ((hcF i).2 hi3) (by simpa using hi4) with h | ⟨a, ha, _⟩
      · exact h
      · rw [ho] at ha; cases ha
  | some a =>
    obtain ⟨o1, o2, o3, o4, o5⟩ := h7 a ho
    simp only [hhe a ho]
    refine ⟨c ++ [(a, e)], by rw [hc]; simp, ⟨?_, ?_, ?_, ?_, ?_, ?_, ?_⟩⟩
    · intro x hx
      rcases List.mem_append.1 hx with hx | hx
      · have := h1 x hx; omega
      · simp only [List.mem_singleton] at hx; subst hx; simp only; omega
    · intro x hx i hi1 hi2
      rcases List.mem_append.1 hx with hx | hx
      · exact (hcF i).1 (h2 x hx i hi1 hi2)
      · simp only [List.mem_singleton] at hx; subst hx; exact (hcF i).1 (o2 i hi1 hi2)
    · intro x hx i hi1 hi2
      rcases List.mem_append.1 hx with hx | hx
      · exact hS i (h3 x hx i hi1 hi2)
      · simp only [List.mem_singleton] at hx; subst hx; exact hS i (o3 i hi1 hi2)
    · intro x hx
      rcases List.mem_append.1 hx with hx | hx
      · exact (h4 x hx).imp id (Or.imp (hF _) id)
      · simp only [List.mem_singleton] at hx; subst hx; exact o4.imp id (Or.imp (hF _) id)
    · intro x hx
      rcases List.mem_append.1 hx with hx | hx
      · exact Or.inr ((h5 x hx).imp (hF _) id)
      · simp only [List.mem_singleton] at hx; subst hx; exact Or.inl rfl
    · rw [List.pairwise_append]
      refine ⟨h6, by simp, ?_⟩
      intro x hx y hy
      simp only [List.mem_singleton] at hy; subst hy; exact o5 x hx
    · intro i hi1 hi2 hi3 hi4
      rcases h9 i hi1 hi2 ((hcF i).2 hi3) (by simpa using hi4) with ⟨x, hx, h⟩ | ⟨a', ha', h⟩
      · exact ⟨x, List.mem_append_left _ hx, h⟩
      · rw [ho] at ha'; cases ha'
        exact ⟨(a, e), by simp, h, hi2⟩

/-- `holes` in terms of the pure loop. -/
theorem holes_eq {s : Matches} {start : Int} {stop : Option Int} {ignore : Match → Bool} {seps : Option Str}
    (hin : seps = none ∨ ∃ str, s.inputString = some str ∧ str ≠ [] ∧
      ∀ r, (s.holeStart start ignore).2 ≤ r → r < s.clampEnd stop → ∃ c, pyGet str r = some c) :
    ∃ s', Sim s s' ∧
    (s.holes start stop ignore seps).2 =
      let h := holesFold start (s.curAt ignore) (sepAt seps s.inputString)
        (pyRange (s.holeStart start ignore).2 (s.clampEnd stop)) { rindex := start }
      .ok (match h.openAt with
        | none => h.closed
        | some a => h.closed ++ [(a, min (s'.holeEnd h.rindex ignore).2 (s.clampEnd stop))]) := by
  have hs1 := holeScan_sim ignore (pyRange 0 start).reverse s
  have hs1' : Sim s (s.holeStart start ignore).1 := hs1
  have hguard : (strTruthy seps && !strTruthy s.inputString) = false := by
    rcases hin with h | ⟨str, h, hne, _⟩
    · subst h; rfl
    · rw [h]; simp [strTruthy, hne]
  have hloop := holesLoop_eq start seps ignore (pyRange (s.holeStart start ignore).2 (s.clampEnd stop))
    (s.holeStart start ignore).1 { rindex := start } (by
      rcases hin with h | ⟨str, h, _, h2⟩
      · exact Or.inl h
      · refine Or.inr ⟨str, by rw [hs1'.input]; exact h, ?_⟩
        intro r hr; rw [mem_pyRange] at hr; exact h2 r hr.1 hr.2)
  rw [curAt_sim hs1', hs1'.input] at hloop
  have hs2 := holesLoop_sim start seps ignore (pyRange (s.holeStart start ignore).2 (s.clampEnd stop))
    (s.holeStart start ignore).1 { rindex := start }
  refine ⟨(holesLoop start seps ignore (pyRange (s.holeStart start ignore).2 (s.clampEnd stop))
    (s.holeStart start ignore).1 { rindex := start }).1, hs1'.trans hs2, ?_⟩
  unfold holes
  rw [hguard]
  simp only [Bool.false_eq_true, if_false]
  generalize hg : holesLoop start seps ignore (pyRange (s.holeStart start ignore).2 (s.clampEnd stop))
    (s.holeStart start ignore).1 { rindex := start } = g at hloop
  obtain ⟨g1, g2⟩ := g
  simp only at hloop
  subst hloop
  simp only
  split <;> simp_all

/-- The general result on `holes`: junk spans `(start, b)`, `b ≤ start`, then good holes. -/
theorem holes_spec {s : Matches} (hi : Inv s) {start : Int} {stop : Option Int} {ignore : Match → Bool} (hp : RespectsEq ignore)
    {seps : Option Str} (h0 : 0 ≤ start) (hse : start ≤ s.clampEnd stop)
    (hne : ∀ x ∈ s.delegate, ignore x = false → x.start < x.stop)
    (hin : seps = none ∨ ∃ str, s.inputString = some str ∧ str ≠ [] ∧ s.clampEnd stop ≤ str.length) :
    ∃ junk good, (s.holes start stop ignore seps).2 = .ok (junk ++ good) ∧
      (∀ x ∈ junk, x.1 = start ∧ x.2 ≤ start) ∧ (start = 0 → junk = []) ∧ (seps = none → (junk = [] ∧ ¬ EmptyFirst (Free s.delegate ignore) start (s.clampEnd stop)) ∨
        (junk = [(start, start)] ∧ EmptyFirst (Free s.delegate ignore) start (s.clampEnd stop))) ∧
      HolesWithSeps (Free s.delegate ignore) (fun i => sepAt seps s.inputString i = true) start (s.clampEnd stop) good := by
  obtain ⟨ls0, lsle, lseq, lsm⟩ := holeStart_spec hi hp (ignore := ignore) h0
  have hin' : seps = none ∨ ∃ str, s.inputString = some str ∧ str ≠ [] ∧
      ∀ r, (s.holeStart start ignore).2 ≤ r → r < s.clampEnd stop → ∃ c, pyGet str r = some c := by
    rcases hin with h | ⟨str, h, h1, h2⟩
    · exact Or.inl h
    · refine Or.inr ⟨str, h, h1, ?_⟩
      intro r hr1 hr2
      have hlt : r.toNat < str.length := by omega
      refine ⟨str[r.toNat], ?_⟩
      unfold pyGet normIdx
      rw [if_pos (by omega), if_pos (by omega)]
      exact List.getElem?_eq_getElem hlt
  obtain ⟨s', hsim, heq⟩ := holes_eq hin'
  rw [heq]
  simp only
  generalize hls : (s.holeStart start ignore).2 = ls at *
  generalize hcur : s.curAt ignore = cur
  generalize hsep : sepAt seps s.inputString = sep
  have hsplit : holesFold start cur sep (pyRange ls (s.clampEnd stop)) { rindex := start } =
      holesFold start cur sep (pyRange start (s.clampEnd stop)) (holesFold start cur sep (pyRange ls start) { rindex := start }) := by
    rw [pyRange_append lsle hse]; unfold holesFold; rw [List.foldl_append]
  rw [hsplit]
  have hP0 : PInv cur start ls { rindex := start } := ⟨by simp, by simp, by simp⟩
  have hP := hP0.run (sep := sep) lsle
  have hnj : seps = none → (holesFold start cur sep (pyRange ls start) { rindex := start }).closed = [] ∧
      ((holesFold start cur sep (pyRange ls start) { rindex := start }).openAt = none → start = 0 ∨ ¬ Free s.delegate ignore (start - 1)) := by
    intro hsn
    have : sep = fun _ => false := by rw [← hsep, hsn]; rfl
    rw [this]
    have key := noJunk (cur := cur) (start := start) (r := ls) (u := start) lsle (Int.le_refl _) ?_
    · refine ⟨key.1, fun ho => ?_⟩
      rw [key.2.1] at ho
      split at ho
      · cases ho
      · rename_i hn
        by_cases h : ls < start
        · refine Or.inr (fun hf => hn ⟨h, ?_⟩)
          rw [← hcur]
          exact (curAt_iff hi hp _).2 hf
        · exact Or.inl (lseq (by omega))
    intro i j hi1 hij hj hc
    rw [← hcur] at hc ⊢
    rw [curAt_iff hi hp] at hc ⊢
    intro x hx hix hcov
    by_cases hst : x.start ≤ ls
    · exact hc x hx hix ⟨by omega, by have := hcov.2; omega⟩
    · have := lsm x hx hix (by omega)
      have := hcov.1; omega
  have hstart0 : start = 0 → ls = start := by intro h; omega
  have h00 : ls = start → holesFold start cur sep (pyRange ls start) { rindex := start } = { rindex := start } := by
    intro h; rw [h, pyRange_eq_nil (by omega)]; rfl
  generalize hg : holesFold start cur sep (pyRange ls start) { rindex := start } = g at *
  have hfree_of : ∀ i, cur i = false → Free s'.delegate ignore i := by
    intro i h; rw [hsim.delegate]; rw [← hcur] at h; exact (curAt_iff hi hp i).1 h
  have hne' : ∀ x ∈ s'.delegate, ignore x = false → x.start < x.stop := by rw [hsim.delegate]; exact hne
  have hclampP : s.clampEnd stop ≤ s'.maxEndP := by rw [hsim.maxEndP]; exact le_clamp stop
  have finish : ∀ {junk : List (Int × Int)} {h : HoleSt}, HInv cur sep junk start (s.clampEnd stop) h → start < s.clampEnd stop →
      ∃ c, (match h.openAt with
        | none => h.closed
        | some a => h.closed ++ [(a, min (s'.holeEnd h.rindex ignore).2 (s.clampEnd stop))]) = junk ++ c ∧
        HolesWithSeps (Free s.delegate ignore) (fun i => sep i = true) start (s.clampEnd stop) c := by
    intro junk h hh hlt
    rw [← hcur] at hh
    refine hh.result (curAt_iff hi hp) ?_
    intro a ha
    obtain ⟨_, ⟨c, _, _, _, _, _, _, _, h7, _, _⟩, hidx⟩ := hh
    rw [hidx hlt]
    obtain ⟨o1, o2, _⟩ := h7 a ha
    apply holeEnd_spec (hi.sim hsim) hp hne' _ hclampP (by omega)
    rw [hcur] at o2
    exact hfree_of _ (o2 _ (by omega) (by omega))
  cases hgo : g.openAt with
  | none =>
    have hI := (hinv_fresh cur sep g.closed start g rfl hgo).run' (start := start) (by omega) hse
    have hjunk : ∀ x ∈ g.closed, x.1 = start ∧ x.2 ≤ start := fun x hx => ⟨(hP.junk x hx).1, by have := (hP.junk x hx).2; omega⟩
    rcases Int.lt_or_eq_of_le hse with hlt | heq'
    · obtain ⟨c, h1, h2⟩ := finish hI hlt
      refine ⟨g.closed, c, by rw [h1], hjunk, ?_, fun h => Or.inl ⟨(hnj h).1, fun hx => ?_⟩, h2⟩
      rotate_left
      · rcases (hnj h).2 hgo with h1 | h1
        · have := hx.1; omega
        · exact h1 hx.2.1
      intro h; rw [h00 (hstart0 h)]
    · rw [← heq', pyRange_eq_nil (by omega)]
      simp only [holesFold, List.foldl_nil, hgo]
      refine ⟨g.closed, [], by simp, hjunk, ?_, fun h => Or.inl ⟨(hnj h).1, fun hx => ?_⟩, ?_⟩
      rotate_left
      · rcases (hnj h).2 hgo with h1 | h1
        · have := hx.1; omega
        · exact h1 hx.2.1
      rotate_left
      · intro h; rw [h00 (hstart0 h)]
      · exact ⟨by simp, by simp, by simp, by simp, by simp, by simp, fun i h1 h2 => by omega⟩
  | some a =>
    obtain ⟨ha, hcs⟩ := hP.opened a hgo
    subst ha
    have hne0 : ¬ (a = 0) := by
      intro h; rw [h00 (hstart0 h)] at hgo; cases hgo
    rcases Int.lt_or_eq_of_le hse with hlt | heq'
    · have hI := (hinv_first cur sep g.closed a g rfl hgo).run' (start := a) (by omega) (show a + 1 ≤ s.clampEnd stop by omega)
      have hfold : holesFold a cur sep (pyRange a (s.clampEnd stop)) g =
          holesFold a cur sep (pyRange (a + 1) (s.clampEnd stop)) (holeStep a (cur a) (sep a) g a) := by
        rw [pyRange_cons hlt]; rfl
      rw [← hfold] at hI
      obtain ⟨c, h1, h2⟩ := finish hI hlt
      refine ⟨_, c, by rw [h1], ?_, fun h => absurd h hne0, ?_, h2⟩
      · intro x hx
        split at hx
        · rcases List.mem_append.1 hx with hx | hx
          · exact ⟨(hP.junk x hx).1, by have := (hP.junk x hx).2; omega⟩
          · simp only [List.mem_singleton] at hx; subst hx; simp
        · exact ⟨(hP.junk x hx).1, by have := (hP.junk x hx).2; omega⟩
      · intro h
        rw [(hnj h).1]
        have hsa : sep a = false := by rw [← hsep, h]; rfl
        have hfa : Free s.delegate ignore (a - 1) := by rw [← hcur] at hcs; exact (curAt_iff hi hp _).1 hcs
        rw [hsa, Bool.or_false]
        split
        · rename_i hca
          refine Or.inr ⟨rfl, by omega, hfa, Or.inr (fun hf => ?_)⟩
          rw [← hcur, (curAt_iff hi hp _).2 hf] at hca
          cases hca
        · rename_i hca
          refine Or.inl ⟨rfl, fun hx => ?_⟩
          rcases hx.2.2 with h1 | h1
          · omega
          · refine h1 ((curAt_iff hi hp _).1 ?_)
            rw [hcur]
            simpa using hca
    · rw [← heq', pyRange_eq_nil (by omega)]
      simp only [holesFold, List.foldl_nil, hgo]
      have hmin : min (s'.holeEnd g.rindex ignore).2 a = a := by
        rw [hP.idx (by simp [hgo])]
        exact holeEnd_spec (hi.sim hsim) hp hne' (hfree_of _ hcs) (by omega) (by omega)
      refine ⟨g.closed ++ [(a, a)], [], by simp [hmin], ?_, fun h => absurd h hne0, ?_, ?_⟩
      · intro x hx
        rcases List.mem_append.1 hx with hx | hx
        · exact ⟨(hP.junk x hx).1, by have := (hP.junk x hx).2; omega⟩
        · simp only [List.mem_singleton] at hx; subst hx; simp
      · intro h
        rw [(hnj h).1]
        refine Or.inr ⟨rfl, by omega, ?_, Or.inl rfl⟩
        rw [← hcur] at hcs
        exact (curAt_iff hi hp _).1 hcs
      · exact ⟨by simp, by simp, by simp, by simp, by simp, by simp, fun i h1 h2 => by omega⟩

/-- The start of the scan is before `hi` exactly when no counted match starts from `hi` on. -/
theorem holeStart_before {s : Matches} (hi : Inv s) {ignore : Match → Bool} (hp : RespectsEq ignore) {start e : Int} (he : e ≤ start) :
    (s.holeStart start ignore).2 < e ↔ 0 < e ∧ ∀ x ∈ s.delegate, ignore x = false → ¬ (e ≤ x.start ∧ x.start < start) := by
  unfold holeStart
  simp only [holeScan_eq]
  cases hf : (pyRange 0 start).reverse.find? (fun i => (s.startDict.getList i).any (fun m => !ignore m)) with
  | none =>
    simp only [Option.getD_none]
    refine ⟨fun h => ⟨h, ?_⟩, fun h => h.1⟩
    rintro x hx hix ⟨h1, h2⟩
    have h3 := pyRange_reverse_find_none hf x.start (by omega) h2
    have h4 := (startsAt_iff hi hp x.start).2 ⟨x, hx, hix, rfl⟩
    rw [h4] at h3; cases h3
  | some k =>
    simp only [Option.getD_some]
    have hpw : ((pyRange 0 start).reverse).Pairwise (fun a b => b < a) := by
      rw [List.pairwise_reverse]; exact pyRange_pairwise _ _
    obtain ⟨h1, h2, h3⟩ := find?_sorted hpw hf
    rw [List.mem_reverse, mem_pyRange] at h1
    obtain ⟨x, hx, hix, hxs⟩ := (startsAt_iff hi hp k).1 h2
    constructor
    · intro hk
      refine ⟨by omega, ?_⟩
      rintro y hy hiy ⟨g1, g2⟩
      have := h3 y.start (by rw [List.mem_reverse, mem_pyRange]; omega) ((startsAt_iff hi hp y.start).2 ⟨y, hy, hiy, rfl⟩)
      omega
    · rintro ⟨h4, h5⟩
      have := h5 x hx hix
      omega

/-- `holes` on a range that ends before it starts. -/
theorem holes_inverted {s : Matches} (hi : Inv s) {start : Int} {stop : Option Int} {ignore : Match → Bool} (hp : RespectsEq ignore)
    (h0 : 0 ≤ start) (hse : s.clampEnd stop < start) (hne : ∀ x ∈ s.delegate, ignore x = false → x.start < x.stop) :
    (InvertedHole s.delegate ignore start (s.clampEnd stop) ∧ (s.holes start stop ignore none).2 = .ok [(start, s.clampEnd stop)]) ∨
    (¬ InvertedHole s.delegate ignore start (s.clampEnd stop) ∧ (s.holes start stop ignore none).2 = .ok []) := by
  obtain ⟨ls0, lsle, lseq, lsm⟩ := holeStart_spec hi hp (ignore := ignore) h0
  have hbef := holeStart_before hi hp (ignore := ignore) (start := start) (e := s.clampEnd stop) (by omega)
  obtain ⟨s', hsim, heq⟩ := holes_eq (s := s) (start := start) (stop := stop) (ignore := ignore) (seps := none) (Or.inl rfl)
  rw [heq]
  simp only
  generalize hls : (s.holeStart start ignore).2 = ls at *
  have hsep : sepAt none s.inputString = fun _ => false := rfl
  rw [hsep]
  rcases Int.lt_or_le ls (s.clampEnd stop) with hlt | hle
  · have hpre : ∀ i j, ls ≤ i → i ≤ j → j < start → s.curAt ignore i = false → s.curAt ignore j = false := by
      intro i j hi1 hij hj hc
      rw [curAt_iff hi hp] at hc ⊢
      intro x hx hix hcov
      by_cases hst : x.start ≤ ls
      · exact hc x hx hix ⟨by omega, by have := hcov.2; omega⟩
      · have := lsm x hx hix (by omega)
        have := hcov.1; omega
    obtain ⟨k1, k2, k3⟩ := noJunk (cur := s.curAt ignore) (start := start) (r := ls) (u := s.clampEnd stop) (by omega) (by omega) hpre
    have k3 := k3 hlt
    generalize holesFold start (s.curAt ignore) (fun _ => false) (pyRange ls (s.clampEnd stop)) { rindex := start } = g at *
    rw [k2, k1]
    by_cases hc : s.curAt ignore (s.clampEnd stop - 1) = false
    · have hf := (curAt_iff hi hp _).1 hc
      refine Or.inl ⟨⟨(hbef.1 hlt).1, hf, (hbef.1 hlt).2⟩, ?_⟩
      rw [if_pos ⟨hlt, hc⟩, k3]
      have hmin : min (s'.holeEnd (s.clampEnd stop - 1) ignore).2 (s.clampEnd stop) = s.clampEnd stop :=
        holeEnd_spec (hi.sim hsim) hp (by rw [hsim.delegate]; exact hne) (by rw [hsim.delegate]; exact hf) (by rw [hsim.maxEndP]; exact le_clamp stop) (by omega)
      simp only [hmin, List.nil_append]
    · refine Or.inr ⟨fun hx => hc ((curAt_iff hi hp _).2 hx.2.1), ?_⟩
      rw [if_neg (fun h => hc h.2)]
  · refine Or.inr ⟨fun hx => ?_, ?_⟩
    · have := hbef.2 ⟨hx.1, hx.2.2⟩
      omega
    · rw [pyRange_eq_nil (by omega)]
      rfl

end Matches
end Rebulk
