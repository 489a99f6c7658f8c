import Verif.Spec.Chain
import Verif.Lemmas.Initiator
namespace Rebulk
open Spec

/-! # What a part keeps is what the specification says it keeps -/

theorem adjacentRun_neighbours {text : Str} : ∀ (ms : List MTree), ∃ n, Part.adjacentRun text ms = ms.take n ∧
      Neighbours text true ms n ∧ (ms ≠ [] → 0 < n)
  | [] => ⟨0, rfl, ⟨by simp, by simp, by simp, by simp⟩, by simp⟩
  | [m] => ⟨1, rfl, ⟨by simp, by intro i h; simp at h, by intro i h; simp at h, by simp⟩, by simp⟩
  | a :: b :: rest => by
    obtain ⟨n, e, hn, hp⟩ := adjacentRun_neighbours (text := text) (b :: rest)
    simp only [Part.adjacentRun, (initRaw_climb a.root).2, (initRaw_climb b.root).1]
    cases hc : (pySlice text (some (topRaw a.root).2) (some (topRaw b.root).1)).isEmpty with
    | true =>
      rw [if_pos rfl, e]
      refine ⟨n + 1, by simp, ⟨?_, ?_, ?_, ?_⟩, by simp⟩
      · have := hn.fits; simp only [List.length_cons] at this ⊢; omega
      · intro i hi hin
        cases i with
        | zero => exact List.isEmpty_iff.1 hc
        | succ i => exact hn.inside i (by simpa using hi) (by omega)
      · intro i hi hin
        cases i with
        | zero => have := hp (by simp); omega
        | succ i => exact hn.after i (by simpa using hi) (by omega)
      · simp
    | false =>
      rw [if_neg (by simp)]
      refine ⟨1, rfl, ⟨by simp, ?_, ?_, by simp⟩, by simp⟩
      · intro i hi hin; omega
      · intro i hi hin
        have : i = 0 := by omega
        subst this
        intro h0
        simp only [List.getElem_cons_zero, List.getElem_cons_succ] at h0
        rw [h0] at hc
        cases hc

theorem truncate_kept {text : Str} (first : Bool) (stop : Option Int) (ms : List MTree) :
    KeptOf text first stop ms (Part.truncate first stop text ms) := by
  cases ms with
  | nil => exact ⟨0, ⟨by simp, by simp, by simp, by simp⟩, rfl⟩
  | cons m r =>
    obtain ⟨n, e, hn, hp⟩ := adjacentRun_neighbours (text := text) (m :: r)
    have hpos := hp (by simp)
    simp only [Part.truncate, (initRaw_climb m.root).1]
    by_cases hc : (!first && !(pySlice text (some 0) (some (topRaw m.root).1)).isEmpty) = true
    · rw [if_pos hc]
      simp only [Bool.and_eq_true, Bool.not_eq_true'] at hc
      refine ⟨0, ⟨by simp, by omega, by omega, ?_⟩, by simp⟩
      intro _
      have h2 : pySlice text (some 0) (some (topRaw m.root).1) ≠ [] := by
        intro h; rw [h] at hc; cases hc.2
      simp [hc.1, h2]
    · rw [if_neg hc, e]
      refine ⟨n, ⟨hn.fits, hn.inside, hn.after, ?_⟩, ?_⟩
      · intro _
        refine ⟨fun _ => ?_, fun _ => hpos⟩
        cases hf : first with
        | true => exact Or.inl rfl
        | false =>
          right
          rw [hf] at hc
          simp only [Bool.not_false, Bool.true_and, Bool.not_eq_true', Bool.not_eq_false] at hc
          exact List.isEmpty_iff.1 hc
      · cases stop with
        | none => exact (List.filter_eq_self.2 (fun _ _ => rfl)).symm
        | some e => simp

/-- There is one longest run of neighbours only. -/
theorem neighbours_unique {text : Str} {first : Bool} {ms : List MTree} {n k : Nat} (hn : Neighbours text first ms n)
    (hk : Neighbours text first ms k) : n = k := by
  have key : ∀ {n k : Nat}, Neighbours text first ms n → Neighbours text first ms k → ¬ n < k := by
    intro n k hn hk h
    have := hk.fits
    cases n with
    | zero =>
      have h0 : 0 < ms.length := by omega
      exact Nat.lt_irrefl 0 ((hn.starts h0).2 ((hk.starts h0).1 h))
    | succ n => exact hn.after n (by omega) rfl (hk.inside n (by omega) h)
  have := key hn hk
  have := key hk hn
  omega

theorem kept_iff {text : Str} {first : Bool} {stop : Option Int} {ms kept : List MTree} :
    KeptOf text first stop ms kept ↔ kept = Part.truncate first stop text ms := by
  constructor
  · rintro ⟨n, hn, rfl⟩
    obtain ⟨k, hk, e⟩ := truncate_kept (text := text) first stop ms
    rw [e, neighbours_unique hn hk]
  · rintro rfl
    exact truncate_kept first stop ms

theorem foldl_max_le {ms : List MTree} {a x : Int} : x ≤ ms.foldl (fun acc t => max acc (t.root.matchIndex : Int)) a ↔
    x ≤ a ∨ ∃ r ∈ ms, x ≤ r.root.matchIndex := by
  induction ms generalizing a with
  | nil => simp
  | cons m ms ih =>
    rw [List.foldl_cons, ih]
    simp only [List.mem_cons, exists_eq_or_imp]
    rw [← or_assoc]
    refine or_congr ?_ Iff.rfl
    omega

theorem keeps_iff {part : Part} {first : Bool} {text : Str} {kept raws : List MTree} :
    Keeps part first text kept raws ↔ part.matchesOf first text = .ok (kept, raws) := by
  have hc : ∀ raws : List MTree, (part.start ≤ 0 ∨ ∃ r ∈ raws, part.start ≤ r.root.matchIndex + 1) ↔ ¬ Part.maxIndex raws + 1 < part.start := by
    intro raws
    have := foldl_max_le (ms := raws) (a := -1) (x := part.start - 1)
    unfold Part.maxIndex
    rw [Int.not_lt, show part.start ≤ List.foldl (fun acc t => max acc (t.root.matchIndex : Int)) (-1) raws + 1 ↔
      part.start - 1 ≤ List.foldl (fun acc t => max acc (t.root.matchIndex : Int)) (-1) raws by omega, this]
    refine or_congr (by omega) ⟨?_, ?_⟩
    · rintro ⟨r, h1, h2⟩; exact ⟨r, h1, by omega⟩
    · rintro ⟨r, h1, h2⟩; exact ⟨r, h1, by omega⟩
  unfold Keeps Part.matchesOf
  constructor
  · rintro ⟨em, rs, h1, h2, h3, h4⟩
    rw [kept_iff] at h2 h3
    simp only [h1]
    subst h2 h3
    rw [if_neg ((hc _).1 h4)]
  · intro h
    split at h
    · cases h
    · rename_i ms rs hs
      simp only at h
      split at h
      · cases h
      · rename_i hlt
        cases h
        exact ⟨ms, rs, hs, kept_iff.2 rfl, kept_iff.2 rfl, (hc _).2 hlt⟩

end Rebulk
