import Verif.Spec.Removal
import Verif.Props.Processors
/-!
# Removal in closed form (`C61`, `C70`)
-/
namespace Rebulk
open Spec Matches

theorem eqv_same {a b : Match} (h : a.eqv b = true) (x : Match) : x.eqv a = x.eqv b := by
  rw [Match.eqv_eq_decide, Match.eqv_eq_decide, (Match.eqv_iff a b).1 h]

theorem equalTo_nil (m : Match) : equalTo m [] = 0 := rfl

theorem equalTo_append (m : Match) (a b : List Match) : equalTo m (a ++ b) = equalTo m a + equalTo m b := by
  unfold equalTo; rw [List.filter_append, List.length_append]

theorem equalTo_cons (m x : Match) (l : List Match) : equalTo m (x :: l) = (if x.eqv m then 1 else 0) + equalTo m l := by
  unfold equalTo
  by_cases h : x.eqv m = true
  · rw [List.filter_cons_of_pos (p := fun x : Match => x.eqv m) h, if_pos h, List.length_cons]; omega
  · rw [List.filter_cons_of_neg (p := fun x : Match => x.eqv m) h, if_neg h]; omega

theorem equalTo_congr {a b : Match} (h : a.eqv b = true) (l : List Match) : equalTo a l = equalTo b l := by
  unfold equalTo
  rw [List.filter_congr (fun x _ => eqv_same h x)]

theorem equalTo_zero {m : Match} {l : List Match} (h : equalTo m l = 0) : ∀ x ∈ l, ¬ x.eqv m = true := by
  intro x hx he
  have : x ∈ l.filter (fun x => x.eqv m) := List.mem_filter.2 ⟨hx, he⟩
  unfold equalTo at h
  rw [List.eq_nil_of_length_eq_zero h] at this; cases this

theorem equalTo_pos {m : Match} {l : List Match} (h : equalTo m l ≠ 0) : ∃ a x b, l = a ++ x :: b ∧ x.eqv m = true := by
  unfold equalTo at h
  cases hf : l.filter (fun x => x.eqv m) with
  | nil => rw [hf] at h; exact absurd rfl h
  | cons x t =>
    have hx : x ∈ l.filter (fun x => x.eqv m) := by rw [hf]; exact List.mem_cons_self
    obtain ⟨h1, h2⟩ := List.mem_filter.1 hx
    obtain ⟨a, b, hab⟩ := List.append_of_mem h1
    exact ⟨a, x, b, hab, h2⟩

/-- No answer equals the first match: it stays. -/
theorem foldl_cutFirst_keep {x : Match} : ∀ {ms : List Match}, (∀ m ∈ ms, ¬ x.eqv m = true) → ∀ l, ms.foldl cutFirst (x :: l) = x :: ms.foldl cutFirst l
  | [], _, _ => rfl
  | m :: ms, h, l => by
    rw [List.foldl_cons, List.foldl_cons, cutFirst_cons, if_neg (h m List.mem_cons_self)]
    exact foldl_cutFirst_keep (fun m hm => h m (List.mem_cons_of_mem _ hm)) _

/-- Some answer equals it: it goes, with that answer. -/
theorem foldl_cutFirst_drop {x m : Match} (a b : List Match) (h : x.eqv m = true) (l : List Match) :
    (a ++ m :: b).foldl cutFirst (x :: l) = (a ++ b).foldl cutFirst l := by
  have hp : (a ++ m :: b).Perm (m :: (a ++ b)) := List.perm_middle
  rw [cutFirst_perm hp, List.foldl_cons, cutFirst_cons, if_pos h]

theorem foldl_cutFirst_index : ∀ (l pre ms ms' : List Match), (∀ y, equalTo y ms' = equalTo y ms - equalTo y pre) →
    ms'.foldl cutFirst l =
      ((l.zipIdx pre.length).filter (fun x => decide (equalTo x.1 ms ≤ equalTo x.1 ((pre ++ l).take x.2)))).map Prod.fst
  | [], _, ms, ms', _ => by
    have : ∀ ms' : List Match, ms'.foldl cutFirst [] = [] := by
      intro ms'
      induction ms' with
      | nil => rfl
      | cons m t ih => rw [List.foldl_cons]; exact ih
    rw [this]; rfl
  | x :: l, pre, ms, ms', h => by
    have htake : ((pre ++ x :: l).take pre.length) = pre := by simp
    have hpre : pre ++ x :: l = (pre ++ [x]) ++ l := by simp
    have hlen : (pre ++ [x]).length = pre.length + 1 := by simp
    have ih := foldl_cutFirst_index l (pre ++ [x]) ms
    rw [hlen, ← hpre] at ih
    rw [List.zipIdx_cons]
    by_cases hz : equalTo x ms' = 0
    · rw [foldl_cutFirst_keep (fun m hm he => equalTo_zero hz m hm (Match.eqv_symm he))]
      rw [List.filter_cons_of_pos (by
        rw [decide_eq_true_eq]
        show equalTo x ms ≤ equalTo x ((pre ++ x :: l).take pre.length)
        rw [htake]
        have := h x
        omega)]
      rw [List.map_cons, ← ih ms' (fun y => by
        rw [equalTo_append, equalTo_cons, equalTo_nil]
        by_cases hxy : x.eqv y = true
        · rw [if_pos hxy]
          have := h y
          rw [equalTo_congr hxy] at hz
          omega
        · rw [if_neg hxy]; exact h y)]
    · obtain ⟨a, m, b, hab, hm⟩ := equalTo_pos hz
      rw [hab, foldl_cutFirst_drop a b (Match.eqv_symm hm)]
      rw [List.filter_cons_of_neg (by
        rw [decide_eq_true_eq]
        show ¬ equalTo x ms ≤ equalTo x ((pre ++ x :: l).take pre.length)
        rw [htake]
        have := h x
        omega)]
      refine ih (a ++ b) (fun y => ?_)
      have h1 := h y
      rw [hab, equalTo_append, equalTo_cons] at h1
      rw [equalTo_append, equalTo_append, equalTo_cons, equalTo_nil]
      have hmy : m.eqv y = x.eqv y := by
        rw [Match.eqv_eq_decide, Match.eqv_eq_decide, (Match.eqv_iff m x).1 hm]
      rw [hmy] at h1
      by_cases hxy : x.eqv y = true
      · rw [if_pos hxy] at h1 ⊢; omega
      · rw [if_neg hxy] at h1 ⊢; omega

/-- Cutting the answers one after the other is the closed form. -/
theorem foldl_cutFirst_closed (ms l : List Match) : ms.foldl cutFirst l = withoutFirst ms l := by
  have := foldl_cutFirst_index l [] ms ms (fun y => by rw [equalTo_nil]; rfl)
  simpa [withoutFirst] using this

/-- **C61** in closed form: `RemoveMatch` leaves the matches without, in each class of equal ones, the first `k`, where `k` is the number of answers in
that class. -/
theorem C61_closed {b : Bool} {input : Option Str} {s : Matches} (h : Reachable b input s) (ms : List Match) :
    ∃ s' ret, thenRemove (.many ms) s = (s', .ok (some (.many ret))) ∧ s'.delegate = withoutFirst ms s.delegate ∧ Reachable b input s' := by
  obtain ⟨s', ret, h1, h2, h3⟩ := C61_many h ms
  exact ⟨s', ret, h1, by rw [removes_cutFirst h2, foldl_cutFirst_closed], h3⟩

/-- Two answers equal to one another take out two of three equal matches, the first two, and leave the others. -/
example : (thenRemove (.many [cm 7 0 3, cm 8 0 3])
    ((Matches.empty false none).runOps [.append (cm 0 0 3), .append (cm 1 4 5), .append (cm 2 0 3), .append (cm 3 0 3)])).1.delegate.map Match.id = [1, 3] ∧
    (withoutFirst [cm 7 0 3, cm 8 0 3] [cm 0 0 3, cm 1 4 5, cm 2 0 3, cm 3 0 3]).map Match.id = [1, 3] := by decide

/-- What is left of each class of equal matches: as many as there were, minus the answers of that class. -/
theorem C61_counts {l ms : List Match} (x : Match) : equalTo x (withoutFirst ms l) = equalTo x l - equalTo x ms := by
  rw [← foldl_cutFirst_closed]
  induction ms generalizing l with
  | nil => rw [equalTo_nil]; rfl
  | cons m ms ih =>
    rw [List.foldl_cons, ih, equalTo_cons]
    have hc : equalTo x (cutFirst l m) = equalTo x l - (if m.eqv x then 1 else 0) := by
      clear ih
      induction l with
      | nil => rw [show cutFirst [] m = [] from rfl, equalTo_nil]; omega
      | cons y l ih =>
        rw [cutFirst_cons]
        by_cases hy : y.eqv m = true
        · rw [if_pos hy, equalTo_cons]
          have : y.eqv x = m.eqv x := by
            rw [Match.eqv_eq_decide, Match.eqv_eq_decide, (Match.eqv_iff y m).1 hy]
          rw [this]; omega
        · rw [if_neg hy, equalTo_cons, equalTo_cons, ih]
          by_cases hm : m.eqv x = true
          · have hn : ¬ y.eqv x = true := fun h => hy (Match.eqv_trans h (Match.eqv_symm hm))
            rw [if_neg hn, if_pos hm]; omega
          · rw [if_neg hm]; omega
    rw [hc]; omega

/-- **C70** for every container, equal matches included: the rule leaves the matches without, in each class of equal ones, the first `k`, where `k` is the
number of private matches of the class. So the kept matches of a class are the last ones, and there are as many as there were public ones. -/
theorem C70_exact {b : Bool} {input : Option Str} {s : Matches} (h : Reachable b input s) (r : RuleRef) :
    ∃ s', RanFine (executeRule listTruthy privateRule r s) s' ∧ Reachable b input s' ∧
      s'.delegate = withoutFirst (s.delegate.filter (fun m => m.priv)) s.delegate ∧
      ∀ x, equalTo x s'.delegate = equalTo x (s.delegate.filter (fun m => !m.priv)) := by
  have hcount : ∀ (l : List Match) (x : Match), equalTo x (withoutFirst (l.filter (fun m => m.priv)) l) = equalTo x (l.filter (fun m => !m.priv)) := by
    intro l x
    rw [C61_counts]
    have : equalTo x l = equalTo x (l.filter (fun m => m.priv)) + equalTo x (l.filter (fun m => !m.priv)) := by
      induction l with
      | nil => rfl
      | cons y l ih =>
        rw [equalTo_cons, ih]
        cases hy : y.priv with
        | true =>
          rw [List.filter_cons_of_pos (by rw [hy]), List.filter_cons_of_neg (by rw [hy]; simp), equalTo_cons]; omega
        | false =>
          rw [List.filter_cons_of_neg (by rw [hy]; simp), List.filter_cons_of_pos (by rw [hy]; rfl), equalTo_cons]; omega
    omega
  unfold executeRule
  rw [if_pos (show privateRule.enabled s = true from rfl)]
  have hw : privateRule.when_ s = (s, .ok (privateWhen s)) := rfl
  rw [hw]
  simp only
  by_cases ht : listTruthy (privateWhen s) = true
  · rw [if_pos ht]
    obtain ⟨s', ret, q1, q2, q3⟩ := C61_closed h (privateWhen s)
    have hthen : privateRule.then_ s (privateWhen s) = (s', none) := by
      show dropAnswer (thenRemove (.many (privateWhen s)) s) = _
      rw [q1]; rfl
    rw [hthen]
    exact ⟨s', ⟨rfl, rfl⟩, q3, q2, fun x => by rw [q2]; exact hcount _ x⟩
  · rw [if_neg ht]
    have hnil : s.delegate.filter (fun m => m.priv) = [] := by
      unfold listTruthy at ht
      show privateWhen s = []
      simpa using ht
    have hs : s.delegate = withoutFirst (s.delegate.filter (fun m => m.priv)) s.delegate := by
      rw [hnil, ← foldl_cutFirst_closed]; rfl
    exact ⟨s, ⟨rfl, rfl⟩, h, hs, fun x => by rw [← hcount, ← hs]⟩

/-- Public, public elsewhere, private, public, the last two equal to the first. -/
def privateSample : Matches :=
  (Matches.empty false none).runOps [.append (cm 0 0 3), .append (cm 1 5 6), .append { cm 2 0 3 with priv := true }, .append (cm 3 0 3)]

/-- The first of the three equal ones goes. -/
example : Reachable false none privateSample ∧
    (executeRule listTruthy privateRule ⟨0, 0⟩ privateSample).state.delegate.map (fun m => (m.id, m.priv)) = [(1, false), (2, true), (3, false)] ∧
    (withoutFirst (privateSample.delegate.filter (fun m => m.priv)) privateSample.delegate).map Match.id = [1, 2, 3] :=
  ⟨⟨_, by decide, rfl⟩, by decide, by decide⟩

end Rebulk
