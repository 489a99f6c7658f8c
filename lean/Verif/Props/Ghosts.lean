import Verif.Lemmas.Ghosts
import Verif.Props.Container
/-!
# C02: what lookups show after item assignments and reversals
-/
namespace Rebulk
open Spec Matches

/-- **C02, exact**: after any history of calls without slice deletion, each lookup shows, up to order, the matches of the
sequence that answer it and the ones that item assignments and reversals have overwritten since the lookup was first
prepared: since the first look at names (tags) for `named` (`tagged`), since some call for the others. So a lookup never
misses a match and shows nothing else; a match overwritten after the lookup was prepared stays visible. -/
theorem C02_exact (isMarkers : Bool) (input : Option Str) (ops : List Op)
    (hops : ∀ op ∈ ops, (∀ a b, op ≠ .delSlice a b) ∧ Fits isMarkers op) :
    let s₀ := empty isMarkers input
    let s := s₀.runOps ops
    (∃ j, FirstCall ops LooksAtNames j ∧ ∀ n, n ≠ "" → ∃ r, (s.step (.named [n])).2 = .list r ∧
      SameUpToEq r (Spec.named (s.delegate ++ overwrittenSince s₀ ops j) n)) ∧
    (∃ j, FirstCall ops LooksAtTags j ∧ ∀ t, ∃ r, (s.step (.tagged t)).2 = .list r ∧
      SameUpToEq r (Spec.taggedTimes (s.delegate ++ overwrittenSince s₀ ops j) t)) ∧
    (∃ j, j ≤ ops.length ∧ ∀ i, ∃ r, (s.step (.starting i)).2 = .list r ∧
      SameUpToEq r (Spec.starting (s.delegate ++ overwrittenSince s₀ ops j) i)) ∧
    (∃ j, j ≤ ops.length ∧ ∀ i, ∃ r, (s.step (.ending i)).2 = .list r ∧
      SameUpToEq r (Spec.ending (s.delegate ++ overwrittenSince s₀ ops j) i)) ∧
    (∃ j, j ≤ ops.length ∧ ∀ i, ∃ r, (s.step (.atIndex i)).2 = .list r ∧
      SameUpToEq r (Spec.covering (s.delegate ++ overwrittenSince s₀ ops j) i)) := by
  intro s₀ s
  have H := shows_history (s := s₀) ⟨rfl, rfl, rfl, rfl, rfl⟩ (fun x hx => by cases hx) ops hops
  obtain ⟨jn, hjn⟩ := firstCall_exists LooksAtNames ops
  obtain ⟨jt, hjt⟩ := firstCall_exists LooksAtTags ops
  obtain ⟨js, h1, h2⟩ := H.start
  obtain ⟨je, h3, h4⟩ := H.stop
  obtain ⟨ji, h5, h6⟩ := H.index
  refine ⟨⟨jn, hjn, fun n hn => ?_⟩, ⟨jt, hjt, fun t => ⟨_, rfl, sameUpToEq_of_perm ((H.tag jt hjt).2 t)⟩⟩, ⟨js, h1, fun i => ⟨_, rfl, ?_⟩⟩,
    ⟨je, h3, fun i => ⟨_, rfl, ?_⟩⟩, ⟨ji, h5, fun i => ⟨_, rfl, ?_⟩⟩⟩
  · refine ⟨_, rfl, ?_⟩
    rw [(named_spec s [n]).2, ← filed_name _ hn]
    simpa [fromKeys] using sameUpToEq_of_perm ((H.name jn hjn).2 n)
  · rw [← filed_start]; exact sameUpToEq_of_perm (h2 i)
  · rw [← filed_end]; exact sameUpToEq_of_perm (h4 i)
  · rw [← filed_index]; exact sameUpToEq_of_perm (h6 i)

/-- A history: two matches, a look at names and starts, an assignment, a reversal. -/
def ghostOps : List Op :=
  [.append (mk 0 3 (some "a")), .append (mk 4 6 (some "b")), .names, .starting 0, .setItem 0 (mk 5 8 (some "c")), .reverse]

example : ∀ op ∈ ghostOps, (∀ a b, op ≠ .delSlice a b) ∧ Fits false op := by
  intro op h
  simp only [ghostOps, List.mem_cons, List.not_mem_nil, or_false] at h
  rcases h with rfl | rfl | rfl | rfl | rfl | rfl <;> exact ⟨(fun _ _ h => by cases h), by decide⟩

/-- The overwritten match, then both members of the reversed pair. -/
example : overwrittenSince (empty false none) ghostOps 2 = [mk 0 3 (some "a"), mk 5 8 (some "c"), mk 4 6 (some "b")] := rfl
/-- After the reversal each match is shown twice, and the replaced one once more, by the lookups prepared before; the
others show the two matches of the sequence. -/
example : let s := (empty false none).runOps ghostOps
    s.delegate = [mk 4 6 (some "b"), mk 5 8 (some "c")] ∧
    (s.step (.starting 5)).2 = .list [mk 5 8 (some "c"), mk 5 8 (some "c")] ∧
    (s.step (.starting 0)).2 = .list [mk 0 3 (some "a")] ∧
    (s.step (.named ["b"])).2 = .list [mk 4 6 (some "b"), mk 4 6 (some "b")] ∧
    (s.step (.ending 8)).2 = .list [mk 5 8 (some "c")] := ⟨rfl, rfl, rfl, rfl, rfl⟩

end Rebulk
