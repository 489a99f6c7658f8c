import Verif.Spec.Holes
/-!
# Specification of holes cut at separators, exactly
-/
namespace Rebulk.Spec

/-- The holes of `[lo, hi)` when each separator met inside a hole cuts it and is left out: `HolesWithSeps`, and an uncovered index is left out of all holes only
if it is (a separator) right behind one. So a separator begins a hole when the index before it is covered, or is a separator left out, or when it is the first of the range. -/
structure CutHoles (F : Int → Prop) (sep : Int → Prop) (lo hi : Int) (r : List (Int × Int)) : Prop extends HolesWithSeps F sep lo hi r where
  skipped : ∀ i, lo ≤ i → i < hi → F i → (∃ ab ∈ r, ab.1 ≤ i ∧ i < ab.2) ∨ ∃ ab ∈ r, ab.2 = i

/-- `p` is where the last counted match that starts before `start` starts, 0 if there is none. -/
structure LastStart (l : List Match) (ignore : Match → Bool) (start p : Int) : Prop where
  nonneg : 0 ≤ p
  le : p ≤ start
  starts : p = 0 ∨ (p < start ∧ ∃ x ∈ l, ignore x = false ∧ x.start = p)
  last : ∀ x ∈ l, ignore x = false → x.start < start → x.start ≤ p

theorem LastStart.unique {l : List Match} {ignore : Match → Bool} {start p q : Int} (hp : LastStart l ignore start p) (hq : LastStart l ignore start q) :
    p = q := by
  have key : ∀ {p q : Int}, LastStart l ignore start p → LastStart l ignore start q → p ≤ q := by
    intro p q hp hq
    rcases hp.starts with h | ⟨h, x, hx, hix, hxs⟩
    · have := hq.nonneg; omega
    · have := hq.last x hx hix (by omega); omega
  have := key hp hq
  have := key hq hp
  omega

/-- Two lists of pairs sorted by their first part, with the same members, are the same. -/
theorem sortedPairs_ext : ∀ {l m : List (Int × Int)}, l.Pairwise (fun x y => x.1 < y.1) → m.Pairwise (fun x y => x.1 < y.1) → (∀ x, x ∈ l ↔ x ∈ m) → l = m
  | [], [], _, _, _ => rfl
  | [], y :: m, _, _, h => by have := (h y).2 List.mem_cons_self; cases this
  | x :: l, [], _, _, h => by have := (h x).1 List.mem_cons_self; cases this
  | x :: l, y :: m, hl, hm, h => by
    rw [List.pairwise_cons] at hl hm
    have hxy : x = y := by
      rcases List.mem_cons.1 ((h x).1 List.mem_cons_self) with h1 | h1
      · exact h1
      · rcases List.mem_cons.1 ((h y).2 List.mem_cons_self) with h2 | h2
        · exact h2.symm
        · have := hm.1 x h1
          have := hl.1 y h2
          omega
    subst hxy
    congr 1
    refine sortedPairs_ext hl.2 hm.2 (fun z => ⟨fun hz => ?_, fun hz => ?_⟩)
    · rcases List.mem_cons.1 ((h z).1 (List.mem_cons_of_mem _ hz)) with rfl | h1
      · have := hl.1 z hz; omega
      · exact h1
    · rcases List.mem_cons.1 ((h z).2 (List.mem_cons_of_mem _ hz)) with rfl | h1
      · have := hm.1 z hz; omega
      · exact h1

/-- The specification has at most one solution. -/
theorem CutHoles.unique {F sep : Int → Prop} {lo hi : Int} {r r' : List (Int × Int)} (h : CutHoles F sep lo hi r) (h' : CutHoles F sep lo hi r') : r = r' := by
  -- whether an index is in a hole, and where this hole starts, is decided by the indexes before it
  have key : ∀ n : Nat, ∀ {r r' : List (Int × Int)}, CutHoles F sep lo hi r → CutHoles F sep lo hi r' →
      ∀ ab ∈ r, ab.1 = lo + n → ∃ cd ∈ r', cd.1 = ab.1 := by
    intro n
    induction n using Nat.strongRecOn with
    | ind n ih =>
      intro r r' h h' ab hab hn
      obtain ⟨a1, a2, a3⟩ := h.inside ab hab
      have aF := h.free ab hab
      have aS := h.noSep ab hab
      -- the end of a hole is decided too
      have ends : ∀ ab ∈ r, ∀ cd ∈ r', cd.1 = ab.1 → cd.2 = ab.2 := by
        intro ab hab cd hcd he
        obtain ⟨b1, b2, b3⟩ := h.inside ab hab
        obtain ⟨c1, c2, c3⟩ := h'.inside cd hcd
        rcases Int.lt_trichotomy cd.2 ab.2 with hlt | heq | hgt
        · rcases h'.right cd hcd with h1 | h1 | h1
          · omega
          · exact absurd (h.free ab hab _ (by omega) hlt) h1
          · exact absurd h1 (h.noSep ab hab _ (by omega) hlt)
        · exact heq
        · rcases h.right ab hab with h1 | h1 | h1
          · omega
          · exact absurd (h'.free cd hcd _ (by omega) hgt) h1
          · exact absurd h1 (h'.noSep cd hcd _ (by omega) hgt)
      rcases h'.skipped ab.1 a1 (by omega) (aF _ (by omega) a2) with ⟨cd, hcd, c1, c2⟩ | ⟨cd, hcd, c1⟩
      · rcases Int.lt_or_eq_of_le c1 with hlt | heq
        · -- the other hole began before: then so does one here, which goes on over `ab.1`
          obtain ⟨g1, g2, g3⟩ := h'.inside cd hcd
          obtain ⟨ef, hef, he⟩ := ih (cd.1 - lo).toNat (by omega) h' h cd hcd (by omega)
          have hend := ends ef hef cd hcd he.symm
          have hne : ef ≠ ab := by intro hc; rw [hc] at he; omega
          have hord : ef.2 < ab.1 ∨ ab.2 < ef.1 := by
            have hp := h.ordered
            clear ih
            rw [List.pairwise_iff_getElem] at hp
            obtain ⟨i, hi, rfl⟩ := List.getElem_of_mem hef
            obtain ⟨j, hj, rfl⟩ := List.getElem_of_mem hab
            rcases Nat.lt_trichotomy i j with hij | hij | hij
            · exact Or.inl (hp i j hi hj hij)
            · subst hij; exact absurd rfl hne
            · exact Or.inr (hp j i hj hi hij)
          omega
        · exact ⟨cd, hcd, heq⟩
      · -- the other list skips `ab.1` behind a hole: so does this one
        obtain ⟨g1, g2, g3⟩ := h'.inside cd hcd
        obtain ⟨ef, hef, he⟩ := ih (cd.1 - lo).toNat (by omega) h' h cd hcd (by omega)
        have hend := ends ef hef cd hcd he.symm
        have hne : ef ≠ ab := by intro hc; rw [hc] at he; omega
        have hp := h.ordered
        clear ih
        rw [List.pairwise_iff_getElem] at hp
        obtain ⟨i, hi, rfl⟩ := List.getElem_of_mem hef
        obtain ⟨j, hj, rfl⟩ := List.getElem_of_mem hab
        rcases Nat.lt_trichotomy i j with hij | hij | hij
        · have := hp i j hi hj hij; omega
        · subst hij; exact absurd rfl hne
        · have := hp j i hj hi hij; omega
  have same : ∀ {r r' : List (Int × Int)}, CutHoles F sep lo hi r → CutHoles F sep lo hi r' → ∀ ab ∈ r, ab ∈ r' := by
    intro r r' h h' ab hab
    obtain ⟨a1, a2, a3⟩ := h.inside ab hab
    obtain ⟨cd, hcd, hc⟩ := key (ab.1 - lo).toNat h h' ab hab (by omega)
    obtain ⟨c1, c2, c3⟩ := h'.inside cd hcd
    have : cd.2 = ab.2 := by
      rcases Int.lt_trichotomy cd.2 ab.2 with hlt | heq | hgt
      · rcases h'.right cd hcd with h1 | h1 | h1
        · omega
        · exact absurd (h.free ab hab _ (by omega) hlt) h1
        · exact absurd h1 (h.noSep ab hab _ (by omega) hlt)
      · exact heq
      · rcases h.right ab hab with h1 | h1 | h1
        · omega
        · exact absurd (h'.free cd hcd _ (by omega) hgt) h1
        · exact absurd h1 (h'.noSep cd hcd _ (by omega) hgt)
    have : ab = cd := Prod.ext hc.symm this.symm
    rw [this]; exact hcd
  have sorted : ∀ {r : List (Int × Int)}, CutHoles F sep lo hi r → r.Pairwise (fun x y => x.1 < y.1) := by
    intro r h
    refine List.Pairwise.imp_of_mem ?_ h.ordered
    intro a b ha hb hab
    have := h.inside a ha
    omega
  exact sortedPairs_ext (sorted h) (sorted h') (fun x => ⟨same h h' x, same h' h x⟩)

end Rebulk.Spec
