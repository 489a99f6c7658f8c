import Verif.Lemmas.Py
import Verif.Spec.Utils
import Verif.Spec.Project
import Verif.Lemmas.Project
namespace Rebulk
open Spec

/-! ## find_all -/

/-- Working form of `OccursIn`. -/
def Win (s sub : Str) (lo hi p : Nat) : Prop := lo ≤ p ∧ p + sub.length ≤ hi ∧ occursAt s sub p = true

theorem pyFind_some {s sub : Str} {a b : Option Int} {p : Nat} (h : pyFind s sub a b = some p) :
    Win s sub (findLo s a) (findHi s b) p ∧ ∀ q, Win s sub (findLo s a) (findHi s b) q → p ≤ q := by
  unfold pyFind at h
  generalize findLo s a = lo at *
  generalize findHi s b = hi at *
  rw [List.find?_eq_some_iff_append] at h
  obtain ⟨ho, as, bs, hl, hb⟩ := h
  have hmem : p ∈ List.range' lo (hi + 1 - sub.length - lo) := by rw [hl]; simp
  rw [List.mem_range'_1] at hmem
  refine ⟨⟨hmem.1, by omega, ho⟩, ?_⟩
  rintro q ⟨h1, h2, h3⟩
  rcases Nat.lt_or_ge q p with hq | hq
  · exfalso
    have hqm : q ∈ List.range' lo (hi + 1 - sub.length - lo) := by rw [List.mem_range'_1]; omega
    rw [hl] at hqm
    have hsorted : (List.range' lo (hi + 1 - sub.length - lo)).Pairwise (· < ·) := List.pairwise_lt_range'
    rw [hl, List.pairwise_append] at hsorted
    rcases List.mem_append.1 hqm with hm | hm
    · have := hb q hm
      simp [h3] at this
    · rcases List.mem_cons.1 hm with rfl | hm
      · omega
      · have := (List.pairwise_cons.1 hsorted.2.1).1 q hm
        omega
  · exact hq

theorem pyFind_none {s sub : Str} {a b : Option Int} (h : pyFind s sub a b = none) (q : Nat) :
    ¬ Win s sub (findLo s a) (findHi s b) q := by
  unfold pyFind at h
  rw [List.find?_eq_none] at h
  rintro ⟨h1, h2, h3⟩
  exact h q (by rw [List.mem_range'_1]; omega) h3

theorem pyFind_complete {s sub : Str} {a b : Option Int} (q : Nat) (h : Win s sub (findLo s a) (findHi s b) q) :
    ∃ p, pyFind s sub a b = some p := by
  cases hp : pyFind s sub a b with
  | none => exact absurd h (pyFind_none hp q)
  | some p => exact ⟨p, rfl⟩

/-- What the result of `find_all` must be. -/
def Greedy (n : Nat) (W : Nat → Prop) (l : List Nat) : Prop :=
  l.Pairwise (· < ·) ∧ ∀ p, p ∈ l ↔ W p ∧ ∀ q ∈ l, ¬ (q < p ∧ p < q + n)

theorem findAllLoop_spec (s sub : Str) (hsub : sub ≠ []) (b : Option Int) : ∀ (fuel : Nat) (a : Option Int),
    findHi s b + 1 - findLo s a < fuel →
    ∃ l, findAllLoop fuel s sub a b = some l ∧ Greedy sub.length (Win s sub (findLo s a) (findHi s b)) l
  | 0, a, h => by omega
  | fuel + 1, a, h => by
    have hn : 0 < sub.length := by cases sub with | nil => exact absurd rfl hsub | cons _ _ => simp
    unfold findAllLoop
    cases hp : pyFind s sub a b with
    | none =>
      refine ⟨[], rfl, List.Pairwise.nil, ?_⟩
      intro p
      constructor
      · intro h; cases h
      · rintro ⟨hw, _⟩; exact absurd hw (pyFind_none hp p)
    | some p0 =>
      obtain ⟨hw, hmin⟩ := pyFind_some hp
      have hlo : findLo s (some ((p0 : Int) + sub.length)) = p0 + sub.length := by
        simp only [findLo]
        rw [if_neg (by omega)]
        omega
      obtain ⟨l, hl, hs, hg⟩ := findAllLoop_spec s sub hsub b fuel (some ((p0 : Int) + sub.length)) (by
        rw [hlo]; have := hw.2.1; have := hw.1; omega)
      rw [hlo] at hg
      have hge : ∀ q ∈ l, p0 + sub.length ≤ q := fun q hq => ((hg q).1 hq).1.1
      simp only [hl, Option.map_some]
      refine ⟨p0 :: l, rfl, ?_, ?_⟩
      · rw [List.pairwise_cons]
        exact ⟨fun q hq => by have := hge q hq; omega, hs⟩
      · intro p
        rw [List.mem_cons]
        constructor
        · rintro (rfl | hpl)
          · refine ⟨hw, ?_⟩
            intro q hq hc
            rcases List.mem_cons.1 hq with rfl | hq
            · omega
            · have := hge q hq; omega
          · have hp' := (hg p).1 hpl
            refine ⟨⟨by have := hp'.1.1; have := hw.1; omega, hp'.1.2.1, hp'.1.2.2⟩, ?_⟩
            intro q hq hc
            rcases List.mem_cons.1 hq with rfl | hq
            · have := hge p hpl; omega
            · exact hp'.2 q hq hc
        · rintro ⟨hwp, hno⟩
          have h1 := hmin p hwp
          rcases Nat.lt_or_ge p0 p with h2 | h2
          · right
            have h3 := hno p0 List.mem_cons_self
            rw [hg p]
            refine ⟨⟨by omega, hwp.2.1, hwp.2.2⟩, ?_⟩
            intro q hq hc
            exact hno q (List.mem_cons_of_mem _ hq) hc
          · left; omega

theorem findAllLoop_mono (s sub : Str) (b : Option Int) (l : List Nat) : ∀ (fuel : Nat) (a : Option Int),
    findAllLoop fuel s sub a b = some l → ∀ k, findAllLoop (fuel + k) s sub a b = some l
  | 0, a, h, k => by simp [findAllLoop] at h
  | fuel + 1, a, h, k => by
    rw [Nat.add_right_comm]
    unfold findAllLoop at h ⊢
    cases hp : pyFind s sub a b with
    | none => rw [hp] at h; exact h
    | some p =>
      rw [hp] at h
      simp only [Option.map_eq_some_iff] at h ⊢
      obtain ⟨l', h1, h2⟩ := h
      exact ⟨l', by rw [findAllLoop_mono s sub b l' fuel _ h1 k], h2⟩

theorem win_iff (s sub : Str) (a b : Option Int) (p : Nat) :
    Win s sub (findLo s a) (findHi s b) p ↔ OccursIn s sub a b p := by
  have hocc : p + sub.length ≤ s.length → (occursAt s sub p = true ↔ ∀ k < sub.length, s[p + k]? = sub[k]?) := by
    intro hle
    unfold occursAt
    rw [beq_iff_eq]
    constructor
    · intro h k hk
      have : ((s.drop p).take sub.length)[k]? = sub[k]? := by rw [h]
      rw [List.getElem?_take, if_pos hk, List.getElem?_drop] at this
      exact this
    · intro h
      apply List.ext_getElem?
      intro k
      rw [List.getElem?_take]
      split
      · next hk => rw [List.getElem?_drop]; exact h k hk
      · next hk => rw [List.getElem?_eq_none (by omega)]
  have hhi : findHi s b ≤ s.length := by
    unfold findHi clampIdx
    split
    · exact Nat.le_refl _
    · split <;> omega
  constructor
  · rintro ⟨h1, h2, h3⟩
    refine ⟨?_, ?_, by omega, (hocc (by omega)).1 h3⟩
    · rintro i rfl
      unfold findLo at h1
      simp only at h1
      split at h1 <;> split <;> omega
    · rintro i rfl
      unfold findHi clampIdx at h2
      simp only at h2
      split at h2 <;> split <;> omega
  · rintro ⟨h1, h2, h3, h4⟩
    refine ⟨?_, ?_, (hocc h3).2 h4⟩
    · unfold findLo
      cases a with
      | none => simp
      | some i =>
        have := h1 i rfl
        simp only
        split <;> simp_all <;> omega
    · unfold findHi clampIdx
      cases b with
      | none => exact h3
      | some i =>
        have := h2 i rfl
        simp only
        split <;> simp_all <;> omega

/-! ## extend_safe -/

theorem distinctFrom_append {α : Type} (eq : α → α → Bool) (seen p q : List α) :
    distinctFrom eq seen (p ++ q) = distinctFrom eq seen p ++ distinctFrom eq (seen ++ distinctFrom eq seen p) q := by
  induction p generalizing seen with
  | nil => simp [distinctFrom]
  | cons x p ih =>
    by_cases h : seen.any (fun y => eq y x) = true
    · simp only [List.cons_append, distinctFrom, if_pos h, ih]
    · simp only [List.cons_append, distinctFrom, if_neg h, ih]
      simp

theorem extendLinear_spec {α : Type} (eq : α → α → Bool) (source target : List α) :
    extendLinear eq target source = target ++ distinctFrom eq target source := by
  induction source generalizing target with
  | nil => simp [extendLinear, distinctFrom]
  | cons x xs ih =>
    unfold extendLinear distinctFrom
    split
    · rw [ih]
    · rw [ih]; simp

theorem extendHashed_spec {α : Type} (eq : α → α → Bool) (hashable : α → Bool) (source target : List α) :
    (∀ t, extendHashed eq hashable target source = (t, none) → t = target ++ distinctFrom eq target source) ∧
    (∀ t rest, extendHashed eq hashable target source = (t, some rest) →
      ∃ pre x, source = pre ++ x :: rest ∧ hashable x = false ∧ t = target ++ distinctFrom eq target pre) := by
  induction source generalizing target with
  | nil =>
    refine ⟨?_, ?_⟩
    · intro t h; simp only [extendHashed, Prod.mk.injEq] at h; rw [← h.1]; simp [distinctFrom]
    · intro t rest h; simp [extendHashed] at h
  | cons x xs ih =>
    unfold extendHashed
    by_cases hx : hashable x = true
    · simp only [hx, Bool.not_true, Bool.false_eq_true, if_false]
      by_cases hc : target.any (fun y => eq y x) = true
      · simp only [if_pos hc, distinctFrom]
        refine ⟨(ih target).1, ?_⟩
        intro t rest h
        obtain ⟨pre, y, h1, h2, h3⟩ := (ih target).2 t rest h
        refine ⟨x :: pre, y, by rw [h1]; rfl, h2, ?_⟩
        rw [h3]; simp [distinctFrom, hc]
      · simp only [if_neg hc, distinctFrom]
        refine ⟨?_, ?_⟩
        · intro t h
          rw [(ih (target ++ [x])).1 t h]; simp
        · intro t rest h
          obtain ⟨pre, y, h1, h2, h3⟩ := (ih (target ++ [x])).2 t rest h
          refine ⟨x :: pre, y, by rw [h1]; rfl, h2, ?_⟩
          rw [h3]; simp [distinctFrom, hc]
    · have hx' : hashable x = false := by simpa using hx
      simp only [hx', Bool.not_false, if_true]
      refine ⟨?_, ?_⟩
      · intro t h; simp at h
      · intro t rest h
        simp only [Prod.mk.injEq, Option.some.injEq] at h
        exact ⟨[], x, by rw [h.2]; rfl, hx', by rw [← h.1]; simp [distinctFrom]⟩

theorem distinctFrom_nil_of {α : Type} (eq : α → α → Bool) (seen l : List α) (h : ∀ x ∈ l, seen.any (fun y => eq y x) = true) :
    distinctFrom eq seen l = [] := by
  induction l with
  | nil => rfl
  | cons x l ih =>
    simp only [distinctFrom, if_pos (h x List.mem_cons_self)]
    exact ih (fun y hy => h y (List.mem_cons_of_mem _ hy))

theorem distinctFrom_covers {α : Type} (eq : α → α → Bool) (hr : ∀ x, eq x x = true) (seen l : List α) (x : α) (h : x ∈ l) :
    (seen ++ distinctFrom eq seen l).any (fun y => eq y x) = true := by
  induction l generalizing seen with
  | nil => cases h
  | cons a l ih =>
    by_cases hc : seen.any (fun y => eq y a) = true
    · simp only [distinctFrom, if_pos hc]
      rcases List.mem_cons.1 h with rfl | h
      · rw [List.any_append, hc]; rfl
      · exact ih seen h
    · simp only [distinctFrom, if_neg hc]
      rcases List.mem_cons.1 h with rfl | h
      · simp [hr]
      · have := ih (seen ++ [a]) h
        simpa using this

theorem extendSafe_spec {α : Type} (eq : α → α → Bool) (hr : ∀ x, eq x x = true) (hashable : α → Bool) (target source : List α) :
    extendSafe eq hashable false target source = target ++ distinctFrom eq target source := by
  unfold extendSafe
  split
  · exact extendLinear_spec eq source target
  · have hs := extendHashed_spec eq hashable source target
    cases he : extendHashed eq hashable target source with
    | mk t r =>
      cases r with
      | none => exact hs.1 t he
      | some rest =>
        obtain ⟨pre, x, h1, _, h3⟩ := hs.2 t rest he
        simp only [Bool.false_eq_true, if_false]
        rw [extendLinear_spec]
        have e1 : distinctFrom eq t source = distinctFrom eq t (x :: rest) := by
          rw [h1, distinctFrom_append, distinctFrom_nil_of eq t pre]
          · simp
          · intro y hy; rw [h3]; exact distinctFrom_covers eq hr target pre y hy
        have e2 : distinctFrom eq target source = distinctFrom eq target pre ++ distinctFrom eq t (x :: rest) := by
          rw [h1, distinctFrom_append, ← h3]
        rw [e1, e2, h3]
        simp

theorem noPlace_iff (s : Str) (a b : Option Int) : Spec.NoPlace s a b ↔ findHi s b < findLo s a := by
  unfold Spec.NoPlace
  constructor
  · intro h
    apply Classical.byContradiction
    intro hc
    exact h ⟨findLo s a, (win_iff s [] a b _).1 ⟨Nat.le_refl _, by simp only [List.length_nil]; omega, by simp [occursAt]⟩⟩
  · rintro h ⟨p, hp⟩
    obtain ⟨h1, h2, _⟩ := (win_iff s [] a b p).2 hp
    simp only [List.length_nil] at h2
    omega

theorem withoutClear_eq : ∀ (d : KVs), Spec.withoutClear d = d.erase "clear"
  | .nil => rfl
  | .cons k v r => by
    unfold Spec.withoutClear KVs.erase
    rw [withoutClear_eq r]

end Rebulk
