import Verif.Lemmas.Consequences
import Verif.Props.Container
/-!
# The consequences (`C61`–`C65`, `C83`)

`Clean s` says that the indexes of `s` are right and that `s` holds no two equal matches; it holds for every container built by adding at the
end, removing and looking up that never held two equal matches (`clean_of_reachable`), it is kept by the consequences, and it makes all lookups
right (`clean_lookups`).
-/
namespace Rebulk
open Spec Matches

theorem clean_of_reachable {b : Bool} {input : Option Str} {s : Matches} (h : ReachableInOrder b input s) : Clean s := by
  obtain ⟨ops, h1, h2, rfl⟩ := h
  have hr : Reachable b input ((empty b input).runOps ops) := ⟨ops, fun op hop => by
    refine ⟨?_, (h1 op hop).2⟩
    rcases Bool.or_eq_true _ _ |>.mp (h1 op hop).1 with h | h
    · rw [isAppendRemove_imp op h]; rfl
    · rw [h]; simp, rfl⟩
  refine ⟨hr.inv, exact_run (inv_empty b input) (exact_empty b input) ops h1 h2, ?_⟩
  have := h2 ops.length
  rwa [List.take_length] at this

theorem clean_lookups {s : Matches} (h : Clean s) : LookupsRight s := exact_lookups h.exact_

theorem byValue_step {b : Bool} {input : Option Str} {s : Matches} (h : ReachableByValue b input s) (op : Op)
    (h1 : (isByValue op || isLookup op) = true) (h2 : Fits b op) : ReachableByValue b input (s.step op).1 := by
  obtain ⟨ops, h3, rfl⟩ := h
  refine ⟨ops ++ [op], ?_, ?_⟩
  · intro o ho
    rcases List.mem_append.1 ho with ho | ho
    · exact h3 o ho
    · rw [List.mem_singleton] at ho; subst ho; exact ⟨h1, h2⟩
  · unfold Matches.runOps; rw [List.foldl_append]; rfl

theorem reachable_step {b : Bool} {input : Option Str} {s : Matches} (h : Reachable b input s) (op : Op)
    (h1 : (isAddRemove op || isLookup op) = true) (h2 : Fits b op) : Reachable b input (s.step op).1 := by
  obtain ⟨ops, h3, rfl⟩ := h
  refine ⟨ops ++ [op], ?_, ?_⟩
  · intro o ho
    rcases List.mem_append.1 ho with ho | ho
    · exact h3 o ho
    · rw [List.mem_singleton] at ho; subst ho; exact ⟨h1, h2⟩
  · unfold Matches.runOps; rw [List.foldl_append]; rfl

theorem reachable_remove {b : Bool} {input : Option Str} {s : Matches} (h : Reachable b input s) (m : Match) :
    Reachable b input (s.remove m).1 := reachable_step h (.remove m) rfl (fun _ hm => by cases hm)

theorem reachable_append {b : Bool} {input : Option Str} {s : Matches} (h : Reachable b input s) (m : Match) (hm : m.marker = b) :
    Reachable b input (s.append m).1 := reachable_step h (.append m) rfl (fun x hx => by
      simp only [added, List.mem_singleton] at hx; subst hx; exact hm)

theorem reachable_removeEach {b : Bool} {input : Option Str} : ∀ (ms : List Match) {s : Matches}, Reachable b input s →
    Reachable b input (removeEach ms s).1
  | [], _, h => h
  | m :: ms, s, h => by
    unfold removeEach
    by_cases hh : s.has m = true
    · rw [if_pos hh]
      have h1 := reachable_remove h m
      cases hr : s.remove m with
      | mk s1 e =>
        rw [hr] at h1
        cases e with
        | some e => exact h1
        | none =>
          have h2 := reachable_removeEach ms h1
          cases hr2 : removeEach ms s1 with
          | mk s2 e2 =>
            rw [hr2] at h2
            simp only [hr2]
            cases e2 <;> exact h2
    · rw [if_neg hh]; exact reachable_removeEach ms h

theorem reachable_appendEach {b : Bool} {input : Option Str} : ∀ (ms : List Match) (done : List Nat) {s : Matches}, Reachable b input s →
    (∀ m ∈ ms, m.marker = b) → Reachable b input (appendEach none done ms s).1
  | [], _, _, h, _ => h
  | m :: ms, done, s, h, hm => by
    unfold appendEach
    have hnow : m.changeIf (fun x => done.contains x.id) (namedObject none) = m := by
      unfold Match.changeIf namedObject; simp
    simp only [hnow, nameObject, namedObject]
    by_cases hh : s.has m = true
    · rw [if_pos hh]; exact reachable_appendEach ms done h (fun x hx => hm x (List.mem_cons_of_mem _ hx))
    · rw [if_neg hh]
      have h1 := reachable_append h m (hm m List.mem_cons_self)
      cases hr : s.append m with
      | mk s1 e =>
        rw [hr] at h1
        cases e with
        | some e => exact h1
        | none =>
          have h2 := reachable_appendEach ms (m.id :: done) h1 (fun x hx => hm x (List.mem_cons_of_mem _ hx))
          simp only
          cases hr2 : appendEach none (m.id :: done) ms s1 with
          | mk s2 e2 =>
            rw [hr2] at h2
            cases e2 <;> exact h2

theorem answerMany_ok {r : Matches × Except PyErr (List Match)} {ret : List Match} (h : r.2 = .ok ret) :
    answerMany r = (r.1, .ok (some (.many ret))) := by
  obtain ⟨s, e⟩ := r
  simp only at h
  subst h
  rfl

theorem answerOne_ok {r : Matches × Option PyErr} (m : Match) (h : r.2 = none) : answerOne m r = (r.1, .ok (some (.one m))) := by
  obtain ⟨s, e⟩ := r
  simp only at h
  subst h
  rfl

/-! ## C61: `RemoveMatch` -/

/-- `RemoveMatch` with a list of answers: nothing is raised, each answer takes out the first match equal to it if there is one, the others
stay in order, and the answers that took out something are returned. The container is one whose lookups are right (`C01`). -/
theorem C61_many {b : Bool} {input : Option Str} {s : Matches} (h : Reachable b input s) (ms : List Match) :
    ∃ s' ret, thenRemove (.many ms) s = (s', .ok (some (.many ret))) ∧ Removes s.delegate ms s'.delegate ret ∧ Reachable b input s' := by
  obtain ⟨ret, h1, _, _, h4, _⟩ := removeEach_spec ms h.inv
  have h5 := reachable_removeEach ms h
  refine ⟨(removeEach ms s).1, ret, ?_, h4, h5⟩
  unfold thenRemove
  exact answerMany_ok h1

/-- `RemoveMatch` with one match. -/
theorem C61_one {b : Bool} {input : Option Str} {s : Matches} (h : Reachable b input s) (m : Match) :
    (¬ Holds s.delegate m → thenRemove (.one m) s = (s, .ok none)) ∧
    (Holds s.delegate m → ∃ s', thenRemove (.one m) s = (s', .ok (some (.one m))) ∧ Removes s.delegate [m] s'.delegate [m] ∧
      Reachable b input s') := by
  constructor
  · intro hh
    simp only [thenRemove]
    rw [if_neg (fun hc => hh ((has_iff s m).1 hc))]
  · intro hh
    obtain ⟨h1, _, _, bf, x, af, h4, h5, h6, h7⟩ := remove_step h.inv m hh
    refine ⟨(s.remove m).1, ?_, ?_, reachable_remove h m⟩
    · simp only [thenRemove]
      rw [if_pos ((has_iff s m).2 hh)]
      exact answerOne_ok m h1
    · rw [h4, h7]; exact .present h5 h6 (.done _)

/-- The lookups stay right, even with equal matches in the container. -/
theorem C61_lookups {b : Bool} {input : Option Str} {s : Matches} (h : ReachableByValue b input s) (ms : List Match) :
    ∃ s' ret, thenRemove (.many ms) s = (s', .ok (some (.many ret))) ∧ Removes s.delegate ms s'.delegate ret ∧ LookupsRight s' := by
  obtain ⟨ht, _⟩ := tidy_byValue h
  obtain ⟨ret, h1, _, _, h4, _⟩ := removeEach_spec ms ht.inv
  refine ⟨(removeEach ms s).1, ret, ?_, h4, exact_lookups (exact_removeEach ms ht.inv ht.exact_)⟩
  unfold thenRemove
  exact answerMany_ok h1

/-- When the container holds no two equal matches, what is left is what equals no answer, and the returned answers are those contained, without
equal ones. -/
theorem C61_filter {l ms l' ret : List Match} (h : Removes l ms l' ret) (hno : NoEqual l) :
    l' = l.filter (fun x => !ms.any (fun m => x.eqv m)) ∧ ret.Sublist ms ∧ (∀ m ∈ ret, Holds l m) ∧ NoEqual ret :=
  ⟨removes_without h hno, (removes_sublist h).2, (removes_ret h hno).1, (removes_ret h hno).2⟩

def cm (id : Nat) (a b : Int) (n : Option String := none) (ts : List String := []) : Match :=
  { id := id, start := a, stop := b, name := n, tags := ts }

/-- A container with three matches, built with a lookup in between. -/
def consSample : Matches :=
  (Matches.empty false none).runOps [.append (cm 0 0 3 (some "a")), .named ["a"], .append (cm 1 4 6), .append (cm 2 5 5 (some "b")), .tagged "t"]

theorem consSample_reachable : ReachableInOrder false none consSample := by
  refine ⟨_, ?_, ?_, rfl⟩
  · decide
  · intro n
    match n with
    | 0 => decide
    | 1 => decide
    | 2 => decide
    | 3 => decide
    | 4 => decide
    | n + 5 => rw [List.take_of_length_le (by simp)]; decide

theorem reachableInOrder_reachable {b : Bool} {input : Option Str} {s : Matches} (h : ReachableInOrder b input s) : Reachable b input s := by
  obtain ⟨ops, h1, _, rfl⟩ := h
  exact ⟨ops, fun op hop => by
    refine ⟨?_, (h1 op hop).2⟩
    rcases Bool.or_eq_true _ _ |>.mp (h1 op hop).1 with h | h
    · rw [isAppendRemove_imp op h]; rfl
    · rw [h]; simp, rfl⟩

example : Reachable false none consSample ∧
    ((thenRemove (.many [cm 7 4 6, cm 9 8 9, cm 1 4 6]) consSample).1.delegate.map Match.id) = [0, 2] :=
  ⟨reachableInOrder_reachable consSample_reachable, by decide⟩

/-- Two equal matches, one of them removed after the lookup tables were filled: the other one is found. -/
example : let s := (empty false none).runOps [.append (cm 0 0 3), .append { cm 1 0 3 with tags := ["t"] }, .starting 0, .tagged "t"]
    ReachableByValue false none s ∧
    ∃ l, ((thenRemove (.many [cm 0 0 3]) s).1.step (.starting 0)).2 = .list l ∧ l.map Match.id = [1] :=
  ⟨⟨_, by decide, rfl⟩, _, rfl, by decide⟩

/-! ## C62: `AppendMatch` -/

/-- `AppendMatch()` with a list of answers: exactly the answers not equal to a match already there are appended, in order, and returned. -/
theorem C62_many {b : Bool} {input : Option Str} {s : Matches} (h : Reachable b input s) (ms : List Match) (hm : ∀ m ∈ ms, m.marker = b) :
    ∃ s' ret, thenAppend none (.many ms) s = (s', .ok (some (.many ret))) ∧ Appends id s.delegate ms s'.delegate ret ∧ Reachable b input s' := by
  obtain ⟨ret, h1, _, _, h4, _⟩ := appendEach_spec ms [] h.inv (fun m hmm => by rw [h.input.2]; exact hm m hmm)
  refine ⟨(appendEach none [] ms s).1, ret, ?_, h4, reachable_appendEach ms [] h hm⟩
  unfold thenAppend
  exact answerMany_ok h1

/-- The lookups stay right, even with equal matches in the container. -/
theorem C62_lookups {b : Bool} {input : Option Str} {s : Matches} (h : ReachableByValue b input s) (ms : List Match) (hm : ∀ m ∈ ms, m.marker = b) :
    ∃ s' ret, thenAppend none (.many ms) s = (s', .ok (some (.many ret))) ∧ Appends id s.delegate ms s'.delegate ret ∧ LookupsRight s' := by
  obtain ⟨ht, hb⟩ := tidy_byValue h
  obtain ⟨ret, h1, _, _, h4, h5⟩ := appendEach_spec ms [] ht.inv (fun m hmm => by rw [hb]; exact hm m hmm)
  refine ⟨(appendEach none [] ms s).1, ret, ?_, h4, exact_lookups (h5 ht.exact_)⟩
  unfold thenAppend
  exact answerMany_ok h1

/-- What `Appends` means for the whole: the sequence is kept and followed by the returned matches, and no two equal matches appear. -/
theorem C62_shape {l ms l' ret : List Match} (h : Appends id l ms l' ret) :
    l' = l ++ ret ∧ ret.Sublist ms ∧ (NoEqual l → NoEqual l') ∧ (∀ m ∈ ms, Holds l' m) := by
  obtain ⟨h1, h2⟩ := appends_shape h
  refine ⟨h1, by simpa using h2, appends_noEqual h, ?_⟩
  have hmono : ∀ {l ms l' ret : List Match}, Appends id l ms l' ret → ∀ m, Holds l m → Holds l' m := by
    intro l ms l' ret h m ⟨x, hx, he⟩
    rw [(appends_shape h).1]
    exact ⟨x, List.mem_append_left _ hx, he⟩
  clear h1 h2
  induction h with
  | done l => simp
  | present hh hr ih =>
    intro m hm
    rcases List.mem_cons.1 hm with rfl | hm
    · exact hmono hr _ hh
    · exact ih m hm
  | @absent l ms l' ret m0 hh hr ih =>
    intro m hm
    rcases List.mem_cons.1 hm with rfl | hm
    · exact hmono hr _ ⟨_, by simp, Match.eqv_refl _⟩
    · exact ih m hm

/-- `AppendMatch()` with one match. -/
theorem C62_one {b : Bool} {input : Option Str} {s : Matches} (h : Reachable b input s) (m : Match) (hm : m.marker = b) :
    (Holds s.delegate m → thenAppend none (.one m) s = (s, .ok none)) ∧
    (¬ Holds s.delegate m → ∃ s', thenAppend none (.one m) s = (s', .ok (some (.one m))) ∧ s'.delegate = s.delegate ++ [m] ∧
      Reachable b input s') := by
  constructor
  · intro hh
    show appendMissing m s = _
    unfold appendMissing
    rw [if_pos ((has_iff s m).2 hh)]
  · intro hh
    obtain ⟨h1, h2, h3⟩ := inv_append h.inv m (by rw [h.input.2]; exact hm)
    refine ⟨(s.append m).1, ?_, h3, reachable_append h m hm⟩
    show appendMissing m s = _
    unfold appendMissing
    rw [if_neg (fun hc => hh ((has_iff s m).1 hc))]
    exact answerOne_ok m h1

theorem givenName_some {n : String} (hn : n ≠ "") : givenName (some n) = some n := by
  simp only [givenName]
  rw [if_neg]
  intro h
  exact hn (by simpa using h)

theorem appendEach_named {n : String} : ∀ (ms : List Match) (done : List Nat) {s : Matches}, Inv s → Exact s →
    (∀ m ∈ ms, m.marker = s.isMarkers) → (ms.map Match.id).Nodup → (∀ m ∈ ms, m.id ∉ done) →
    (∀ m ∈ ms, ∀ x ∈ s.delegate, x.id = m.id → x = m) →
    ∃ ret, (appendEach (some n) done ms s).2 = .ok ret ∧ Inv (appendEach (some n) done ms s).1 ∧
      Exact (appendEach (some n) done ms s).1 ∧
      Appends (Match.rename n) s.delegate ms (appendEach (some n) done ms s).1.delegate ret
  | [], _, s, hi, he, _, _, _, _ => ⟨[], rfl, hi, he, .done _⟩
  | m :: ms, done, s, hi, he, hm, hnd, hdone, hid => by
    have hnow : m.changeIf (fun x => done.contains x.id) (namedObject (some n)) = m := by
      unfold Match.changeIf
      rw [if_neg]
      simpa using hdone m List.mem_cons_self
    rw [List.map_cons, List.nodup_cons] at hnd
    unfold appendEach
    simp only [hnow, nameObject, namedObject]
    by_cases hh : s.has m = true
    · rw [if_pos hh]
      obtain ⟨ret, r1, r2, r3, r4⟩ := appendEach_named ms done hi he (fun x hx => hm x (List.mem_cons_of_mem _ hx)) hnd.2
        (fun x hx => hdone x (List.mem_cons_of_mem _ hx)) (fun x hx => hid x (List.mem_cons_of_mem _ hx))
      exact ⟨ret, r1, r2, r3, .present ((has_iff s m).1 hh) r4⟩
    · rw [if_neg hh]
      have hnot : ¬ Holds s.delegate m := fun h => hh ((has_iff s m).2 h)
      have hsim : Sim s (s.change (fun x => x.id == m.id) (Match.rename n)) := by
        refine change_sim he _ _ (fun x hx => ?_)
        cases hc : (x.id == m.id) with
        | false => rfl
        | true =>
          exfalso
          have := hid m List.mem_cons_self x hx (by simpa using hc)
          subst this
          exact hnot ⟨x, hx, Match.eqv_refl x⟩
      have hi' := hi.sim hsim
      have he' := he.sim hsim
      have hmk : (m.rename n).marker = (s.change (fun x => x.id == m.id) (Match.rename n)).isMarkers := by
        rw [hsim.markers]; exact hm m List.mem_cons_self
      obtain ⟨h1, h2, h3⟩ := inv_append hi' (m.rename n) hmk
      have h4 := append_static (s.change (fun x => x.id == m.id) (Match.rename n)) (m.rename n)
      have h5 := exact_append he' (m.rename n) hmk
      cases ha : (s.change (fun x => x.id == m.id) (Match.rename n)).append (m.rename n) with
      | mk s1 e =>
        rw [ha] at h1 h2 h3 h4 h5
        simp only at h1; subst h1
        simp only at h3 h4 ⊢
        rw [hsim.delegate] at h3
        obtain ⟨ret, r1, r2, r3, r4⟩ := appendEach_named (n := n) ms (m.id :: done) h2 h5
          (fun x hx => by rw [h4.1, hsim.markers]; exact hm x (List.mem_cons_of_mem _ hx)) hnd.2
          (fun x hx => by
            intro hc
            rcases List.mem_cons.1 hc with hc | hc
            · exact hnd.1 (List.mem_map.2 ⟨x, hx, hc⟩)
            · exact hdone x (List.mem_cons_of_mem _ hx) hc)
          (fun x hx y hy hxy => by
            rw [h3] at hy
            rcases List.mem_append.1 hy with hy | hy
            · exact hid x (List.mem_cons_of_mem _ hx) y hy hxy
            · rw [List.mem_singleton] at hy
              subst hy
              exact absurd (List.mem_map.2 ⟨x, hx, hxy.symm⟩) hnd.1)
        cases hr2 : appendEach (some n) (m.id :: done) ms s1 with
        | mk s2 e2 =>
          rw [hr2] at r1 r2 r3 r4
          simp only at r1; subst r1
          refine ⟨m.rename n :: ret, rfl, r2, r3, ?_⟩
          rw [h3] at r4
          exact .absent hnot r4

/-- `AppendMatch(n)` with a list of different objects: the answers not equal to a match already there are appended with name `n`.

Missing from `C62`: a single answer (`C62_refuted`, `C62_one_named`), the same object several times in the answer. With a name given equal matches may
appear, since the test comes before the renaming (`C62_named_duplicate`). -/
theorem C62_partial {s : Matches} (h : Clean s) (n : String) (hn : n ≠ "") (ms : List Match) (hm : ∀ m ∈ ms, m.marker = s.isMarkers)
    (hnd : (ms.map Match.id).Nodup) (hid : ∀ m ∈ ms, ∀ x ∈ s.delegate, x.id = m.id → x = m) :
    ∃ s' ret, thenAppend (some n) (.many ms) s = (s', .ok (some (.many ret))) ∧ Appends (renamedAs n) s.delegate ms s'.delegate ret ∧
      LookupsRight s' := by
  rw [show renamedAs n = Match.rename n from rfl]
  obtain ⟨ret, h1, h2, h3, h4⟩ := appendEach_named (n := n) ms [] h.inv h.exact_ hm hnd (by simp) hid
  refine ⟨(appendEach (some n) [] ms s).1, ret, ?_, h4, ?_⟩
  · unfold thenAppend
    rw [givenName_some hn]
    exact answerMany_ok h1
  · have he := h3
    refine ⟨?_, ?_, ?_, ?_, ?_⟩
    · intro k hk
      show Out.list (((appendEach (some n) [] ms s).1).named [k]).2 = _
      rw [(named_spec _ [k]).2]
      simp only [fromKeys, List.foldl_cons, List.foldl_nil, List.contains_nil, Bool.false_eq_true, if_false,
        List.nil_append, List.flatMap_cons, List.flatMap_nil, List.append_nil]
      rw [he.viewName, filed_name _ hk]
    · intro t; exact congrArg Out.list (he.viewTag t)
    · intro i; exact congrArg Out.list ((he.viewStart i).trans (filed_start _ _))
    · intro i; exact congrArg Out.list ((he.viewEnd i).trans (filed_end _ _))
    · intro i; exact congrArg Out.list ((he.viewIndex i).trans (filed_index _ _))

example : Clean consSample ∧ ([cm 5 4 6, cm 6 8 9].map Match.id).Nodup ∧
    ((thenAppend (some "n") (.many [cm 5 4 6, cm 6 8 9]) consSample).1.delegate.map (fun m => (m.id, m.name))) =
      [(0, some "a"), (1, none), (2, some "b"), (6, some "n")] :=
  ⟨clean_of_reachable consSample_reachable, by decide, by decide⟩

/-- One answer and a name: an object that is not contained is renamed, then appended unless the renamed match equals a match already there. -/
theorem C62_one_named {s : Matches} (h : Clean s) (n : String) (hn : n ≠ "") (m : Match) (hm : m.marker = s.isMarkers)
    (hid : ∀ x ∈ s.delegate, x.id ≠ m.id) :
    (Holds s.delegate (renamedAs n m) → ∃ s', thenAppend (some n) (.one m) s = (s', .ok none) ∧ s'.delegate = s.delegate ∧ Clean s') ∧
    (¬ Holds s.delegate (renamedAs n m) → ∃ s', thenAppend (some n) (.one m) s = (s', .ok (some (.one (renamedAs n m)))) ∧
      s'.delegate = s.delegate ++ [renamedAs n m] ∧ Clean s') := by
  rw [show renamedAs n m = Match.rename n m from rfl]
  have hsim : Sim s (s.change (fun x => x.id == m.id) (Match.rename n)) := by
    refine change_sim h.exact_ _ _ (fun x hx => ?_)
    simpa using hid x hx
  have hc := h.sim hsim
  unfold thenAppend
  rw [givenName_some hn]
  simp only [nameObject, namedObject]
  unfold appendMissing
  constructor
  · intro hh
    rw [if_pos ((has_iff _ _).2 (by rw [hsim.delegate]; exact hh))]
    exact ⟨_, rfl, hsim.delegate, hc⟩
  · intro hh
    rw [if_neg (fun hx => hh (by have := (has_iff _ _).1 hx; rwa [hsim.delegate] at this))]
    have hmk : (m.rename n).marker = (s.change (fun x => x.id == m.id) (Match.rename n)).isMarkers := by
      rw [hsim.markers]; exact hm
    obtain ⟨h1, h2, h3⟩ := inv_append hc.inv (m.rename n) hmk
    have h5 := exact_append hc.exact_ (m.rename n) hmk
    cases hr : (s.change (fun x => x.id == m.id) (Match.rename n)).append (m.rename n) with
    | mk s1 e =>
      rw [hr] at h1 h2 h3 h5
      simp only at h1; subst h1
      simp only at h3
      rw [hsim.delegate] at h3
      refine ⟨s1, rfl, h3, h2, h5, ?_⟩
      rw [h3]
      unfold NoEqual
      rw [List.pairwise_append]
      refine ⟨h.noEqual, List.pairwise_singleton _ _, ?_⟩
      intro x hx y hy
      rw [List.mem_singleton] at hy
      rw [hy]
      cases he : x.eqv (m.rename n) with
      | false => rfl
      | true => exact absurd ⟨x, hx, he⟩ hh

example : Clean consSample ∧ (∀ x ∈ consSample.delegate, x.id ≠ (cm 8 9 12).id) ∧ ¬ Holds consSample.delegate ((cm 8 9 12).rename "n") := by
  refine ⟨clean_of_reachable consSample_reachable, by decide, ?_⟩
  rw [← has_false_iff]; decide

/-- One answer that is contained, and a name: it is renamed in place, and the lookups by name are wrong afterwards. -/
theorem C62_refuted : ∃ (s : Matches) (m : Match), ReachableInOrder false none s ∧ m ∈ s.delegate ∧
    let s' := (thenAppend (some "n") (.one m) s).1
    s'.delegate.map (fun x => (x.id, x.name)) ≠ s.delegate.map (fun x => (x.id, x.name)) ∧
    (s'.lookName "n").2.length = 0 ∧ (Spec.named s'.delegate "n").length = 1 :=
  ⟨consSample, cm 0 0 3 (some "a"), consSample_reachable, List.mem_cons_self, by decide, by decide, by decide⟩

/-- With a name and a list, equal matches may appear: the answer differs from the contained match only by its name. -/
theorem C62_named_duplicate : ∃ (s : Matches) (ms : List Match), ReachableInOrder false none s ∧ NoEqual s.delegate ∧
    ¬ NoEqual (thenAppend (some "a") (.many ms) s).1.delegate :=
  ⟨consSample, [cm 8 0 3], consSample_reachable, by decide, by decide⟩

/-! ## C63: `RenameMatch` -/

/-- After the answers are removed, the container holds no object of the answers. -/
theorem removed_gone {l ms l' ret : List Match} (h : Removes l ms l' ret) (hno : NoEqual l) (hid : Identified l ms) :
    ∀ m ∈ ms, ∀ x ∈ l', x.id ≠ m.id := by
  intro m hm x hx he
  rw [removes_without h hno, mem_without] at hx
  have := hid m hm x (List.mem_append_left _ hx.1) he
  subst this
  have := hx.2 x hm
  rw [Match.eqv_refl] at this; cases this

theorem nameObject_sim {s : Matches} (he : Exact s) (n : String) (i : Nat) (h : ∀ x ∈ s.delegate, x.id ≠ i) :
    Sim s (nameObject (some n) i s) := by
  refine change_sim he _ _ (fun x hx => ?_)
  simpa using h x hx

theorem nameObjects_sim {n : String} : ∀ (ms : List Match) {s : Matches}, Exact s → (∀ m ∈ ms, ∀ x ∈ s.delegate, x.id ≠ m.id) →
    Sim s (ms.foldl (fun s m => nameObject (some n) m.id s) s)
  | [], s, _, _ => Sim.refl s
  | m :: ms, s, he, h => by
    have h1 := nameObject_sim he n m.id (h m List.mem_cons_self)
    refine h1.trans (nameObjects_sim ms (he.sim h1) (fun x hx y hy => ?_))
    rw [h1.delegate] at hy
    exact h x (List.mem_cons_of_mem _ hx) y hy

theorem noResult_ok {α : Type} {r : Matches × Except PyErr α} {a : α} (h : r.2 = .ok a) : noResult r = (r.1, none) := by
  obtain ⟨s, e⟩ := r
  simp only at h
  subst h
  rfl

theorem thenRemove_many_ok {s : Matches} {ms ret : List Match} (h : (removeEach ms s).2 = .ok ret) :
    thenRemove (.many ms) s = ((removeEach ms s).1, .ok (some (.many ret))) := by
  simp only [thenRemove]; exact answerMany_ok h

/-- `RenameMatch(n)` with a list of answers: the contained ones are taken out, all other matches keep content and order, and the ones taken out come
back at the end with name `n`, except those then equal to a match already there. All lookups are right afterwards.

Missing from `C63`: a single answer of length 0, which is lost (`C63_refuted`), and containers with two equal matches, where another object than the one
returned may be lost and the returned one be renamed under stale indexes (`C63_equal_refuted`). -/
theorem C63_partial {s : Matches} (h : Clean s) (n : String) (ms : List Match) (hm : ∀ m ∈ ms, m.marker = s.isMarkers)
    (hid : Identified s.delegate ms) :
    ∃ s' removed added, thenRename n (.many ms) s = (s', none) ∧ Clean s' ∧ LookupsRight s' ∧
      Removes s.delegate ms (without s.delegate ms) removed ∧
      Appends id (without s.delegate ms) (removed.map (renamedAs n)) s'.delegate added := by
  rw [show renamedAs n = Match.rename n from rfl]
  obtain ⟨ret, h1, h2, h3, h4, h5⟩ := removeEach_spec ms h.inv
  have hc := h5 h
  have hw := removes_without h4 h.noEqual
  have hsub := (removes_sublist h4).2
  have hgone := removed_gone h4 h.noEqual hid
  have hmain : ∃ s' added, thenRename n (.many ms) s = (s', none) ∧ Clean s' ∧
      Appends id (removeEach ms s).1.delegate (ret.map (Match.rename n)) s'.delegate added := by
    unfold thenRename
    rw [thenRemove_many_ok h1]
    simp only [renameRemoved]
    by_cases hr : ret.isEmpty = true
    · rw [if_pos hr]
      have : ret = [] := by simpa using hr
      subst this
      exact ⟨_, [], rfl, hc, .done _⟩
    · rw [if_neg hr]
      have hsim := nameObjects_sim (n := n) ret hc.exact_ (fun m hmm => hgone m (hsub.subset hmm))
      have hc' := hc.sim hsim
      have hk : ∀ m ∈ ret.map (Match.rename n), m.marker =
          (ret.foldl (fun s m => nameObject (some n) m.id s) (removeEach ms s).1).isMarkers := by
        intro m hmm
        obtain ⟨x, hx, rfl⟩ := List.mem_map.1 hmm
        rw [hsim.markers, h3]
        exact hm x (hsub.subset hx)
      obtain ⟨ret2, q1, q2, q3, q4, q5⟩ := appendEach_spec (ret.map (Match.rename n)) [] hc'.inv hk
      rw [hsim.delegate] at q4
      refine ⟨_, ret2, ?_, ⟨q2, q5 hc'.exact_, ?_⟩, q4⟩
      · simp only [thenAppend]
        show noResult (answerMany (appendEach none [] _ _)) = _
        rw [answerMany_ok q1]; rfl
      · exact appends_noEqual q4 hc.noEqual
  obtain ⟨s', added, r1, r2, r3⟩ := hmain
  rw [hw] at r3 h4
  exact ⟨s', ret, added, r1, r2, clean_lookups r2, h4, r3⟩

example : Clean consSample ∧ Identified consSample.delegate [cm 1 4 6, cm 9 1 2] ∧
    ((thenRename "a" (.many [cm 1 4 6, cm 9 1 2]) consSample).1.delegate.map (fun m => (m.id, m.name))) =
      [(0, some "a"), (2, some "b"), (1, some "a")] := by
  refine ⟨clean_of_reachable consSample_reachable, ?_, by decide⟩
  intro m hm x hx he
  simp only [consSample, List.mem_cons, List.not_mem_nil, or_false] at hm
  have hx : x = cm 0 0 3 (some "a") ∨ x = cm 1 4 6 ∨ x = cm 2 5 5 (some "b") ∨ x = cm 1 4 6 ∨ x = cm 9 1 2 := by
    simpa [consSample, Matches.runOps, Matches.step, Matches.append, Matches.insert, Matches.addMatch, Matches.addMatchBase, Matches.empty,
      Matches.length, clampIdx, Matches.lookTag, Matches.named, Matches.namedLoop, fromKeys, Matches.lookName, cm] using hx
  rcases hm with rfl | rfl <;> rcases hx with rfl | rfl | rfl | rfl | rfl <;> first | rfl | (simp [cm] at he)

/-- A single match which is not of length 0. -/
theorem C63_one {s : Matches} (h : Clean s) (n : String) (m : Match) (hl : m.start < m.stop) (hm : m.marker = s.isMarkers)
    (hid : Identified s.delegate [m]) :
    (¬ Holds s.delegate m → thenRename n (.one m) s = (s, none)) ∧
    (Holds s.delegate m → ∃ s' added, thenRename n (.one m) s = (s', none) ∧ Clean s' ∧
      Appends id (without s.delegate [m]) [renamedAs n m] s'.delegate added) := by
  rw [show renamedAs n m = Match.rename n m from rfl]
  constructor
  · intro hh
    unfold thenRename
    simp only [thenRemove]
    rw [if_neg (fun hx => hh ((has_iff s m).1 hx))]
    rfl
  · intro hh
    obtain ⟨h1, h2, h3, b, x, a, h4, h5, h6, h7⟩ := remove_step h.inv m hh
    have hc := clean_remove h m hh
    have hrem : Removes s.delegate [m] (s.remove m).1.delegate [m] := by rw [h4, h7]; exact .present h5 h6 (.done _)
    have hw := removes_without hrem h.noEqual
    have hgone := removed_gone hrem h.noEqual hid
    have hsim := nameObject_sim hc.exact_ n m.id (hgone m (by simp))
    have hc' := hc.sim hsim
    have ht : m.truthy? = .ok true := by
      unfold Match.truthy?
      rw [if_neg (by omega)]
      have : (m.stop - m.start != 0) = true := by simp; omega
      rw [this]
    have hrw : thenRename n (.one m) s = noResult (appendMissing (m.rename n) (nameObject (some n) m.id (s.remove m).1)) := by
      unfold thenRename
      simp only [thenRemove]
      rw [if_pos ((has_iff s m).2 hh), answerOne_ok m h1]
      simp only [renameRemoved, ht]
      rfl
    rw [hrw]
    unfold appendMissing
    by_cases hh' : (nameObject (some n) m.id (s.remove m).1).has (m.rename n) = true
    · rw [if_pos hh']
      refine ⟨_, [], rfl, hc', ?_⟩
      have := (has_iff _ _).1 hh'
      rw [hsim.delegate] at this ⊢
      rw [← hw]
      exact .present this (.done _)
    · rw [if_neg hh']
      have hmk : (m.rename n).marker = (nameObject (some n) m.id (s.remove m).1).isMarkers := by
        rw [hsim.markers, h3]; exact hm
      obtain ⟨q1, q2, q3⟩ := inv_append hc'.inv (m.rename n) hmk
      have q4 := exact_append hc'.exact_ (m.rename n) hmk
      rw [answerOne_ok _ q1]
      have hnot : ¬ Holds (s.remove m).1.delegate (m.rename n) := by
        intro hx; exact hh' ((has_iff _ _).2 (by rw [hsim.delegate]; exact hx))
      rw [hsim.delegate] at q3
      have happ : Appends id (without s.delegate [m]) [m.rename n]
          ((nameObject (some n) m.id (s.remove m).1).append (m.rename n)).1.delegate [m.rename n] := by
        rw [q3, ← hw]
        exact .absent hnot (.done _)
      refine ⟨_, _, rfl, ⟨q2, q4, ?_⟩, happ⟩
      exact appends_noEqual happ (by rw [← hw]; exact hc.noEqual)

/-- A single answer which is not of the container's sort (a marker, in `Matches`) but equal to a contained match, under a name no match equal to it
has: the contained match is taken out, then `AssertionError` is raised and not swallowed. The renamed answer is in the sequence nevertheless. -/
theorem C63_marker {s : Matches} (h : Clean s) (n : String) (m : Match) (hl : m.start < m.stop) (hm : m.marker ≠ s.isMarkers)
    (hid : Identified s.delegate [m]) (hh : Holds s.delegate m) (hnew : ¬ Holds (without s.delegate [m]) (renamedAs n m)) :
    ∃ s', thenRename n (.one m) s = (s', some .assertionError) ∧ s'.delegate = without s.delegate [m] ++ [renamedAs n m] := by
  rw [show renamedAs n m = Match.rename n m from rfl] at hnew ⊢
  obtain ⟨h1, h2, h3, b, x, a, h4, h5, h6, h7⟩ := remove_step h.inv m hh
  have hc := clean_remove h m hh
  have hrem : Removes s.delegate [m] (s.remove m).1.delegate [m] := by rw [h4, h7]; exact .present h5 h6 (.done _)
  have hw := removes_without hrem h.noEqual
  have hgone := removed_gone hrem h.noEqual hid
  have hsim := nameObject_sim hc.exact_ n m.id (hgone m (by simp))
  have ht : m.truthy? = .ok true := by
    unfold Match.truthy?
    rw [if_neg (by omega)]
    have : (m.stop - m.start != 0) = true := by simp; omega
    rw [this]
  have hrw : thenRename n (.one m) s = noResult (appendMissing (m.rename n) (nameObject (some n) m.id (s.remove m).1)) := by
    unfold thenRename
    simp only [thenRemove]
    rw [if_pos ((has_iff s m).2 hh), answerOne_ok m h1]
    simp only [renameRemoved, ht]
    rfl
  have hh' : ¬ (nameObject (some n) m.id (s.remove m).1).has (m.rename n) = true := by
    intro hx
    have := (has_iff _ _).1 hx
    rw [hsim.delegate, hw] at this
    exact hnew this
  have hmk : ((m.rename n).marker == (nameObject (some n) m.id (s.remove m).1).isMarkers) = false := by
    rw [hsim.markers, h3]; show (m.marker == s.isMarkers) = false; simpa using hm
  rw [hrw]
  unfold appendMissing
  rw [if_neg hh']
  have happ : ∀ (t : Matches), ((m.rename n).marker == t.isMarkers) = false →
      t.append (m.rename n) = ({ t with delegate := t.delegate ++ [m.rename n] }, some .assertionError) := by
    intro t ht
    simp only [Matches.append, Matches.insert, Matches.addMatch]
    have hci : clampIdx t.delegate.length ((t.length : Nat) : Int) = t.delegate.length := by
      show clampIdx t.delegate.length (t.delegate.length : Int) = _
      simp only [clampIdx]; rw [if_neg (by omega)]; omega
    rw [hci, List.insertIdx_length_self]
    rw [if_neg (by simpa using ht)]
  rw [happ _ hmk]
  refine ⟨_, rfl, ?_⟩
  show _ ++ _ = _
  rw [hsim.delegate, hw]

example : Clean consSample ∧ { cm 7 4 6 with marker := true }.marker ≠ consSample.isMarkers ∧
    (thenRename "a" (.one { cm 7 4 6 with marker := true }) consSample).2 = some .assertionError ∧
    (thenRename "a" (.one { cm 7 4 6 with marker := true }) consSample).1.delegate.map Match.id = [0, 2, 7] :=
  ⟨clean_of_reachable consSample_reachable, by decide, by decide, by decide⟩

/-- A single answer of length 0 is not renamed but lost. -/
theorem C63_refuted : ∃ (s : Matches) (m : Match), ReachableInOrder false none s ∧ m ∈ s.delegate ∧
    (thenRename "n" (.one m) s).1.delegate.map Match.id = [0, 1] ∧ s.delegate.map Match.id = [0, 1, 2] :=
  ⟨consSample, cm 2 5 5 (some "b"), consSample_reachable, by simp [consSample, Matches.runOps, Matches.step, Matches.append, Matches.insert,
    Matches.addMatch, Matches.addMatchBase, Matches.empty, Matches.length, clampIdx, Matches.lookTag, Matches.named, Matches.namedLoop, fromKeys,
    Matches.lookName, cm], by decide, by decide⟩

/-- With two equal matches, renaming the second loses the first, and the lookups by name are wrong. -/
theorem C63_equal_refuted : ∃ (s : Matches) (m : Match), Reachable false none s ∧ s.delegate.map Match.id = [0, 1] ∧ m.id = 1 ∧
    (thenRename "n" (.many [m]) s).1.delegate.map (fun m => (m.id, m.name)) = [(1, some "n")] ∧
    ((thenRename "n" (.many [m]) s).1.lookName "n").2.length = 0 :=
  ⟨(Matches.empty false none).runOps [.append (cm 0 0 3 (some "a")), .append (cm 1 0 3 (some "a")), .named ["a"]], cm 1 0 3 (some "a"),
    ⟨_, by decide, rfl⟩, by decide, rfl, by decide, by decide⟩

/-! ## C64, C65: tags -/

theorem retag_eqKey (f : List String → List String) (m : Match) : (m.retag f).eqKey = m.eqKey := rfl

theorem retag_eqv_left (f : List String → List String) (a b : Match) : (a.retag f).eqv b = a.eqv b := by
  rw [Match.eqv_eq_decide, Match.eqv_eq_decide, retag_eqKey]

theorem retag_eqv_right (f : List String → List String) (a b : Match) : a.eqv (b.retag f) = a.eqv b := by
  rw [Match.eqv_eq_decide, Match.eqv_eq_decide, retag_eqKey]

theorem retagOne_lists (refs : Nat → Nat) (f : List String → List String) : ∀ (ids : List Nat) (t : Tagging) (k : Nat),
    (∀ i ∈ ids, refs i ≠ k) → (ids.foldl (retagOne refs f) t).lists k = t.lists k
  | [], _, _, _ => rfl
  | i :: ids, t, k, h => by
    rw [List.foldl_cons, retagOne_lists refs f ids _ k (fun j hj => h j (List.mem_cons_of_mem _ hj))]
    have := h i List.mem_cons_self
    show (if (k == refs i) = true then _ else _) = _
    rw [if_neg (by simpa using fun hc => this hc.symm)]

/-- Retagging objects with lists of their own. -/
theorem retag_fold (refs : Nat → Nat) (f : List String → List String) : ∀ (ids : List Nat) (t : Tagging), Exact t.matches_ → ids.Nodup →
    (∀ i ∈ ids, ∀ x ∈ t.matches_.delegate, refs x.id ≠ refs i) →
    (∀ i ∈ ids, ∀ x ∈ t.removed, refs x.id = refs i → x.id = i) →
    Sim t.matches_ (ids.foldl (retagOne refs f) t).matches_ ∧
    (ids.foldl (retagOne refs f) t).removed = t.removed.map (fun x => if ids.contains x.id then x.retag f else x)
  | [], t, _, _, _, _ => ⟨Sim.refl _, by simp⟩
  | i :: ids, t, he, hn, h1, h2 => by
    rw [List.nodup_cons] at hn
    have hs : Sim t.matches_ (retagOne refs f t i).matches_ := by
      refine change_sim he _ _ (fun x hx => ?_)
      simpa using h1 i List.mem_cons_self x hx
    have hr : (retagOne refs f t i).removed = t.removed.map (fun x => if x.id == i then x.retag f else x) := by
      show t.removed.map _ = _
      refine List.map_congr_left (fun x hx => ?_)
      unfold Match.changeIf
      by_cases hx' : x.id = i
      · subst hx'; simp
      · rw [if_neg (by simpa using fun hc => hx' (h2 i List.mem_cons_self x hx hc)), if_neg (by simpa using hx')]
    obtain ⟨r1, r2⟩ := retag_fold refs f ids (retagOne refs f t i) (he.sim hs) hn.2
      (fun j hj x hx => by rw [hs.delegate] at hx; exact h1 j (List.mem_cons_of_mem _ hj) x hx)
      (fun j hj x hx hxj => by
        rw [hr] at hx
        obtain ⟨y, hy, rfl⟩ := List.mem_map.1 hx
        have hid : (if (y.id == i) = true then y.retag f else y).id = y.id := by split <;> rfl
        rw [hid] at hxj ⊢
        exact h2 j (List.mem_cons_of_mem _ hj) y hy hxj)
    rw [List.foldl_cons]
    refine ⟨hs.trans r1, ?_⟩
    rw [r2, hr, List.map_map]
    refine List.map_congr_left (fun x _ => ?_)
    simp only [Function.comp]
    by_cases hx' : x.id = i
    · subst hx'
      have hnc : ids.contains x.id = false := by simpa using hn.1
      have hid : (x.retag f).id = x.id := rfl
      simp only [beq_self_eq_true, if_true, hid, hnc, List.contains_cons, Bool.true_or, Bool.false_eq_true, if_false]
    · have : (x.id == i) = false := by simpa using hx'
      simp [this, hx', List.contains_cons]

theorem foldl_ids (refs : Nat → Nat) (f : List String → List String) (ms : List Match) (t : Tagging) :
    ms.foldl (fun t m => retagOne refs f t m.id) t = (ms.map Match.id).foldl (retagOne refs f) t := by
  rw [List.foldl_map]

/-- The core of `C64`, for any change `f` of the tags. -/
theorem retag_spec (refs : Nat → Nat) (f : List String → List String) {s : Matches} (h : Clean s) (ms : List Match)
    (lists : Nat → List String) (hm : ∀ m ∈ ms, m.marker = s.isMarkers) (hid : Identified s.delegate ms) (hun : Unshared refs s.delegate ms) :
    ∃ s' lists' removed, thenRetag refs f (.many ms) s lists = (s', lists', none) ∧ Clean s' ∧
      Removes s.delegate ms (without s.delegate ms) removed ∧
      s'.delegate = without s.delegate ms ++ removed.map (Match.retag f) ∧
      ∀ k, (∀ m ∈ ms, refs m.id ≠ k) → lists' k = lists k := by
  obtain ⟨ret, h1, h2, h3, h4, h5⟩ := removeEach_spec ms h.inv
  have hc := h5 h
  have hw := removes_without h4 h.noEqual
  have hsub := (removes_sublist h4).2
  have hgone := removed_gone h4 h.noEqual hid
  obtain ⟨hheld, hnoe⟩ := removes_ret h4 h.noEqual
  have hnd : (ret.map Match.id).Nodup := by
    refine List.pairwise_map.2 (List.Pairwise.imp_of_mem (fun {a b} ha hb hab he => ?_) hnoe)
    have := hid b (hsub.subset hb) a (List.mem_append_right _ (hsub.subset ha)) he
    subst this
    rw [Match.eqv_refl] at hab; cases hab
  have hout : ∀ i ∈ ret.map Match.id, ∀ x ∈ (removeEach ms s).1.delegate, refs x.id ≠ refs i := by
    intro i hi x hx hxi
    obtain ⟨m, hmm, rfl⟩ := List.mem_map.1 hi
    have hxs : x ∈ s.delegate := (removes_sublist h4).1.subset hx
    have := hun m (hsub.subset hmm) x (List.mem_append_left _ hxs) hxi
    exact hgone m (hsub.subset hmm) x hx this
  have hin : ∀ i ∈ ret.map Match.id, ∀ x ∈ ret, refs x.id = refs i → x.id = i := by
    intro i hi x hx hxi
    obtain ⟨m, hmm, rfl⟩ := List.mem_map.1 hi
    exact hun m (hsub.subset hmm) x (List.mem_append_right _ (hsub.subset hx)) hxi
  have hmain : ∃ s' lists', thenRetag refs f (.many ms) s lists = (s', lists', none) ∧ Clean s' ∧
      s'.delegate = (removeEach ms s).1.delegate ++ ret.map (Match.retag f) ∧ ∀ k, (∀ m ∈ ms, refs m.id ≠ k) → lists' k = lists k := by
    unfold thenRetag
    rw [thenRemove_many_ok h1]
    simp only [retagRemoved]
    by_cases hr : ret.isEmpty = true
    · rw [if_pos hr]
      have : ret = [] := by simpa using hr
      subst this
      exact ⟨_, _, rfl, hc, by simp, fun _ _ => rfl⟩
    · rw [if_neg hr, foldl_ids]
      obtain ⟨q1, q2⟩ := retag_fold refs f (ret.map Match.id) ⟨(removeEach ms s).1, lists, ret⟩ hc.exact_ hnd hout hin
      have hq2 : ((ret.map Match.id).foldl (retagOne refs f) ⟨(removeEach ms s).1, lists, ret⟩).removed = ret.map (Match.retag f) := by
        rw [q2]
        refine List.map_congr_left (fun x hx => ?_)
        rw [if_pos]
        simpa using ⟨x, hx, rfl⟩
      have hlist : ∀ k, (∀ m ∈ ms, refs m.id ≠ k) →
          ((ret.map Match.id).foldl (retagOne refs f) ⟨(removeEach ms s).1, lists, ret⟩).lists k = lists k := by
        intro k hk
        refine retagOne_lists refs f _ _ k (fun i hi => ?_)
        obtain ⟨m, hmm, rfl⟩ := List.mem_map.1 hi
        exact hk m (hsub.subset hmm)
      generalize (ret.map Match.id).foldl (retagOne refs f) ⟨(removeEach ms s).1, lists, ret⟩ = t at q1 hq2 hlist
      simp only at q1
      have hc' := hc.sim q1
      have hk : ∀ m ∈ t.removed, m.marker = t.matches_.isMarkers := by
        intro m hmm
        rw [hq2] at hmm
        obtain ⟨x, hx, rfl⟩ := List.mem_map.1 hmm
        rw [q1.markers, h3]
        exact hm x (hsub.subset hx)
      obtain ⟨ret2, r1, r2, r3, r4, r5⟩ := appendEach_spec t.removed [] hc'.inv hk
      rw [q1.delegate, hq2] at r4
      have hall : ∀ m ∈ ret.map (Match.retag f), ¬ Holds (removeEach ms s).1.delegate m := by
        rintro m hmm ⟨x, hx, he⟩
        obtain ⟨y, hy, rfl⟩ := List.mem_map.1 hmm
        rw [retag_eqv_right] at he
        rw [hw, mem_without] at hx
        rw [hx.2 y (hsub.subset hy)] at he; cases he
      have hne2 : NoEqual (ret.map (Match.retag f)) := by
        refine List.pairwise_map.2 (hnoe.imp (fun {a b} hab => ?_))
        rw [retag_eqv_left, retag_eqv_right]; exact hab
      have hfin := (appends_all r4 hall hne2).1
      have hno' := appends_noEqual r4 hc.noEqual
      have happ : thenAppend none (.many t.removed) t.matches_ =
          ((appendEach none [] t.removed t.matches_).1, .ok (some (.many ret2))) := by
        simp only [thenAppend]
        exact answerMany_ok r1
      refine ⟨(appendEach none [] t.removed t.matches_).1, t.lists, ?_, ⟨r2, r5 hc'.exact_, ?_⟩, ?_, hlist⟩
      · simp only [happ]; rfl
      · rw [hq2]; exact hno'
      · rw [hq2]; exact hfin
  obtain ⟨s', lists', r1, r2, r3, r4⟩ := hmain
  rw [hw] at r3 h4
  exact ⟨s', lists', ret, r1, r2, h4, r3, r4⟩


theorem truthy_of_lt {m : Match} (hl : m.start < m.stop) : m.truthy? = .ok true := by
  unfold Match.truthy?
  rw [if_neg (by omega)]
  have : (m.stop - m.start != 0) = true := by simp; omega
  rw [this]

/-- One answer, not of length 0. -/
theorem retag_one_spec (refs : Nat → Nat) (f : List String → List String) {s : Matches} (h : Clean s) (m : Match) (hl : m.start < m.stop)
    (lists : Nat → List String) (hm : m.marker = s.isMarkers) (hid : Identified s.delegate [m]) (hun : Unshared refs s.delegate [m]) :
    (¬ Holds s.delegate m → thenRetag refs f (.one m) s lists = (s, lists, none)) ∧
    (Holds s.delegate m → ∃ s' lists', thenRetag refs f (.one m) s lists = (s', lists', none) ∧ Clean s' ∧
      s'.delegate = without s.delegate [m] ++ [m.retag f] ∧ ∀ k, refs m.id ≠ k → lists' k = lists k) := by
  constructor
  · intro hh
    unfold thenRetag
    simp only [thenRemove]
    rw [if_neg (fun hx => hh ((has_iff s m).1 hx))]
    rfl
  · intro hh
    obtain ⟨h1, h2, h3, b, x, a, h4, h5, h6, h7⟩ := remove_step h.inv m hh
    have hc := clean_remove h m hh
    have hrem : Removes s.delegate [m] (s.remove m).1.delegate [m] := by rw [h4, h7]; exact .present h5 h6 (.done _)
    have hw := removes_without hrem h.noEqual
    have hgone := removed_gone hrem h.noEqual hid
    have hout : ∀ x ∈ (s.remove m).1.delegate, (refs x.id == refs m.id) = false := by
      intro x hx
      have hxs : x ∈ s.delegate := (removes_sublist hrem).1.subset hx
      by_cases hxi : refs x.id = refs m.id
      · exact absurd (hun m (by simp) x (List.mem_append_left _ hxs) hxi) (hgone m (by simp) x hx)
      · simpa using hxi
    have hsim := change_sim hc.exact_ _ (Match.retag f) hout
    have hc' := hc.sim hsim
    have hrw : thenRetag refs f (.one m) s lists =
        ((noResult (appendMissing (m.retag f) (retagOne refs f ⟨(s.remove m).1, lists, [m]⟩ m.id).matches_)).1,
          (retagOne refs f ⟨(s.remove m).1, lists, [m]⟩ m.id).lists,
          (noResult (appendMissing (m.retag f) (retagOne refs f ⟨(s.remove m).1, lists, [m]⟩ m.id).matches_)).2) := by
      unfold thenRetag
      simp only [thenRemove]
      rw [if_pos ((has_iff s m).2 hh), answerOne_ok m h1]
      simp only [retagRemoved, truthy_of_lt hl]
      rfl
    have hnot : ¬ Holds (s.remove m).1.delegate (m.retag f) := by
      rintro ⟨x, hx, he⟩
      rw [retag_eqv_right] at he
      rw [hw, mem_without] at hx
      rw [hx.2 m (by simp)] at he; cases he
    have hq : (retagOne refs f ⟨(s.remove m).1, lists, [m]⟩ m.id).matches_ =
        (s.remove m).1.change (fun x => refs x.id == refs m.id) (Match.retag f) := rfl
    have hnot' : ¬ ((s.remove m).1.change (fun x => refs x.id == refs m.id) (Match.retag f)).has (m.retag f) = true := by
      intro hx
      have := (has_iff _ _).1 hx
      rw [hsim.delegate] at this
      exact hnot this
    have hmk : (m.retag f).marker = ((s.remove m).1.change (fun x => refs x.id == refs m.id) (Match.retag f)).isMarkers := by
      rw [hsim.markers, h3]; exact hm
    obtain ⟨q1, q2, q3⟩ := inv_append hc'.inv (m.retag f) hmk
    have q4 := exact_append hc'.exact_ (m.retag f) hmk
    rw [hsim.delegate, hw] at q3
    have happ : Appends id (without s.delegate [m]) [m.retag f]
        (((s.remove m).1.change (fun x => refs x.id == refs m.id) (Match.retag f)).append (m.retag f)).1.delegate [m.retag f] := by
      rw [q3]
      exact .absent (by rw [← hw]; exact hnot) (.done _)
    rw [hrw, hq]
    unfold appendMissing
    rw [if_neg hnot', answerOne_ok _ q1]
    refine ⟨_, _, rfl, ⟨q2, q4, ?_⟩, q3, ?_⟩
    · exact appends_noEqual happ (by rw [← hw]; exact hc.noEqual)
    · intro k hk
      show (if (k == refs m.id) = true then _ else _) = _
      rw [if_neg (by simpa using fun hc => hk hc.symm)]

/-- `dropTags` takes out one occurrence of each tag, and keeps the others in order. -/
theorem dropTags_drops : ∀ (ts l : List String), DropsOnce ts l (dropTags ts l)
  | [], l => ⟨List.Sublist.refl _, fun t => by simp [dropTags]⟩
  | t :: ts, l => by
    have hstep : dropTags (t :: ts) l = dropTags ts (l.erase t) := by
      unfold dropTags
      rw [List.foldl_cons]
      by_cases ht : l.contains t = true
      · rw [if_pos ht]
      · rw [if_neg ht, List.erase_of_not_mem (by simpa using ht)]
    obtain ⟨h1, h2⟩ := dropTags_drops ts (l.erase t)
    rw [hstep]
    refine ⟨h1.trans List.erase_sublist, fun x => ?_⟩
    rw [h2 x, List.count_erase, List.count_cons]
    by_cases hx : t = x
    · subst hx; simp; omega
    · simp [hx]

/-- `AppendTags(ts)` with a list of answers, when no two matches share a tag list: the contained answers get the tags `ts` after theirs, nothing else
of them changes, they come at the end after all other matches, which are unchanged, and all lookups are right afterwards.

Missing from `C64`: matches sharing their tag list (`C65_refuted`), a single answer of length 0 (`C64_refuted`) and containers holding two equal
matches. -/
theorem C64_append_partial (refs : Nat → Nat) (ts : List String) {s : Matches} (h : Clean s) (ms : List Match)
    (lists : Nat → List String) (hm : ∀ m ∈ ms, m.marker = s.isMarkers) (hid : Identified s.delegate ms) (hun : Unshared refs s.delegate ms) :
    ∃ s' lists' removed, thenRetag refs (addTags ts) (.many ms) s lists = (s', lists', none) ∧ Clean s' ∧ LookupsRight s' ∧
      Removes s.delegate ms (without s.delegate ms) removed ∧
      s'.delegate = without s.delegate ms ++ removed.map (fun m => { m with tags := m.tags ++ ts }) := by
  obtain ⟨s', lists', removed, h1, h2, h3, h4, _⟩ := retag_spec refs (addTags ts) h ms lists hm hid hun
  exact ⟨s', lists', removed, h1, h2, clean_lookups h2, h3, h4⟩

/-- `RemoveTags(ts)` with a list of answers, when no two matches share a tag list: the contained answers lose one occurrence of each of `ts`, nothing
else of them changes, they come at the end after all other matches, which are unchanged, and all lookups are right afterwards.

Missing from `C64`: as for `C64_append_partial`. -/
theorem C64_remove_partial (refs : Nat → Nat) (ts : List String) {s : Matches} (h : Clean s) (ms : List Match)
    (lists : Nat → List String) (hm : ∀ m ∈ ms, m.marker = s.isMarkers) (hid : Identified s.delegate ms) (hun : Unshared refs s.delegate ms) :
    ∃ (s' : Matches) (lists' : Nat → List String) (removed : List Match) (after : Match → List String),
      thenRetag refs (dropTags ts) (.many ms) s lists = (s', lists', none) ∧ Clean s' ∧ LookupsRight s' ∧
      Removes s.delegate ms (without s.delegate ms) removed ∧
      s'.delegate = without s.delegate ms ++ removed.map (fun m => { m with tags := after m }) ∧ ∀ m, DropsOnce ts m.tags (after m) := by
  obtain ⟨s', lists', removed, h1, h2, h3, h4, _⟩ := retag_spec refs (dropTags ts) h ms lists hm hid hun
  exact ⟨s', lists', removed, fun m => dropTags ts m.tags, h1, h2, clean_lookups h2, h3, h4, fun m => dropTags_drops ts m.tags⟩

/-- A single answer which is not of length 0. -/
theorem C64_append_one (refs : Nat → Nat) (ts : List String) {s : Matches} (h : Clean s) (m : Match) (hl : m.start < m.stop)
    (lists : Nat → List String) (hm : m.marker = s.isMarkers) (hid : Identified s.delegate [m]) (hun : Unshared refs s.delegate [m]) :
    (¬ Holds s.delegate m → thenRetag refs (addTags ts) (.one m) s lists = (s, lists, none)) ∧
    (Holds s.delegate m → ∃ s' lists', thenRetag refs (addTags ts) (.one m) s lists = (s', lists', none) ∧ Clean s' ∧ LookupsRight s' ∧
      s'.delegate = without s.delegate [m] ++ [{ m with tags := m.tags ++ ts }]) := by
  obtain ⟨h1, h2⟩ := retag_one_spec refs (addTags ts) h m hl lists hm hid hun
  refine ⟨h1, fun hh => ?_⟩
  obtain ⟨s', lists', q1, q2, q3, _⟩ := h2 hh
  exact ⟨s', lists', q1, q2, clean_lookups q2, q3⟩

/-- A single answer which is not of length 0. -/
theorem C64_remove_one (refs : Nat → Nat) (ts : List String) {s : Matches} (h : Clean s) (m : Match) (hl : m.start < m.stop)
    (lists : Nat → List String) (hm : m.marker = s.isMarkers) (hid : Identified s.delegate [m]) (hun : Unshared refs s.delegate [m]) :
    (¬ Holds s.delegate m → thenRetag refs (dropTags ts) (.one m) s lists = (s, lists, none)) ∧
    (Holds s.delegate m → ∃ s' lists' after, thenRetag refs (dropTags ts) (.one m) s lists = (s', lists', none) ∧ Clean s' ∧ LookupsRight s' ∧
      s'.delegate = without s.delegate [m] ++ [{ m with tags := after }] ∧ DropsOnce ts m.tags after) := by
  obtain ⟨h1, h2⟩ := retag_one_spec refs (dropTags ts) h m hl lists hm hid hun
  refine ⟨h1, fun hh => ?_⟩
  obtain ⟨s', lists', q1, q2, q3, _⟩ := h2 hh
  exact ⟨s', lists', dropTags ts m.tags, q1, q2, clean_lookups q2, q3, dropTags_drops ts m.tags⟩

/-- A container of three matches with tags, looked up by tag. -/
def tagSample : Matches :=
  (Matches.empty false none).runOps
    [.append (cm 0 0 3 none ["t"]), .append (cm 1 4 6 none ["t"]), .tagged "t", .append (cm 2 7 8)]

theorem tagSample_reachable : ReachableInOrder false none tagSample := by
  refine ⟨_, by decide, ?_, rfl⟩
  intro k
  match k with
  | 0 => decide
  | 1 => decide
  | 2 => decide
  | 3 => decide
  | k + 4 => exact (by rw [List.take_of_length_le (by simp)]; decide)

theorem tagSample_delegate : tagSample.delegate = [cm 0 0 3 none ["t"], cm 1 4 6 none ["t"], cm 2 7 8] := by
  simp [tagSample, Matches.runOps, Matches.step, Matches.append, Matches.insert, Matches.addMatch, Matches.addMatchBase, Matches.empty,
      Matches.length, clampIdx, Matches.lookTag, cm]

example : Clean tagSample ∧ Identified tagSample.delegate [cm 0 0 3 none ["t"], cm 2 7 8] ∧
    Unshared (fun i => i) tagSample.delegate [cm 0 0 3 none ["t"], cm 2 7 8] ∧
    ((thenRetag (fun i => i) (addTags ["u"]) (.many [cm 0 0 3 none ["t"], cm 2 7 8]) tagSample (fun _ => [])).1.delegate.map
      (fun m => (m.id, m.tags))) = [(1, ["t"]), (0, ["t", "u"]), (2, ["u"])] ∧
    ((thenRetag (fun i => i) (dropTags ["t", "t"]) (.many [cm 0 0 3 none ["t"], cm 2 7 8]) tagSample (fun _ => [])).1.delegate.map
      (fun m => (m.id, m.tags))) = [(1, ["t"]), (0, []), (2, [])] := by
  refine ⟨clean_of_reachable tagSample_reachable, ?_, fun m _ x _ he => he, by decide, by decide⟩
  rw [tagSample_delegate]
  intro m hm x hx he
  simp only [List.mem_cons, List.not_mem_nil, or_false, List.cons_append, List.nil_append] at hm hx
  rcases hm with rfl | rfl <;> rcases hx with rfl | rfl | rfl | rfl | rfl <;> first | rfl | (simp [cm] at he)

/-- A single answer of length 0 loses its place in the container instead of getting the tags. -/
theorem C64_refuted : ∃ (s : Matches) (m : Match), ReachableInOrder false none s ∧ m ∈ s.delegate ∧
    (thenRetag (fun i => i) (addTags ["u"]) (.one m) s (fun _ => [])).1.delegate.map Match.id = [0, 1] ∧ s.delegate.map Match.id = [0, 1, 2] :=
  ⟨consSample, cm 2 5 5 (some "b"), consSample_reachable, by simp [consSample, Matches.runOps, Matches.step, Matches.append, Matches.insert,
    Matches.addMatch, Matches.addMatchBase, Matches.empty, Matches.length, clampIdx, Matches.lookTag, Matches.named, Matches.namedLoop, fromKeys,
    Matches.lookName, cm], by decide, by decide⟩

/-- Two matches found by one pattern given `tags=["t"]` share the list `0`. `AppendTags(["u"])` on the first changes the tags of the second, the
lookup by tag misses it, removing the second then raises, and the list of the pattern, used for the matches found later, has changed. -/
theorem C65_refuted : ∃ (s : Matches) (m other : Match), ReachableInOrder false none s ∧ m ∈ s.delegate ∧ other ∈ s.delegate ∧ other.eqv m = false ∧
    let r := thenRetag (fun i => if i = 2 then 1 else 0) (addTags ["u"]) (.many [m]) s (fun k => if k = 0 then ["t"] else [])
    r.2.2 = none ∧
    r.1.delegate.map (fun m => (m.id, m.tags)) = [(other.id, ["t", "u"]), (2, []), (m.id, ["t", "u"])] ∧
    (r.1.lookTag "u").2.map Match.id = [m.id] ∧
    ((r.1.delegate[0]?).map (fun x => match (thenRemove (.one x) r.1).2 with | .error e => some e | .ok _ => none)) = some (some .valueError) ∧
    r.2.1 0 = ["t", "u"] :=
  ⟨tagSample, cm 0 0 3 none ["t"], cm 1 4 6 none ["t"], tagSample_reachable, by rw [tagSample_delegate]; simp, by rw [tagSample_delegate]; simp,
    by decide, by decide, by decide, by decide, by decide, by decide⟩

/-- What holds of `C65`: when the answers share their tag lists with no other match, all other matches are unchanged, and so is every tag list other
than those of the answers, in particular the list of any pattern that does not share it with an answer. -/
theorem C65_partial (refs : Nat → Nat) (f : List String → List String) {s : Matches} (h : Clean s) (ms : List Match)
    (lists : Nat → List String) (hm : ∀ m ∈ ms, m.marker = s.isMarkers) (hid : Identified s.delegate ms) (hun : Unshared refs s.delegate ms) :
    ∃ s' lists', thenRetag refs f (.many ms) s lists = (s', lists', none) ∧
      (∀ x ∈ s.delegate, (∀ m ∈ ms, x.eqv m = false) → x ∈ s'.delegate) ∧
      ∀ k, (∀ m ∈ ms, refs m.id ≠ k) → lists' k = lists k := by
  obtain ⟨s', lists', removed, h1, h2, h3, h4, h5⟩ := retag_spec refs f h ms lists hm hid hun
  refine ⟨s', lists', h1, fun x hx hx' => ?_, h5⟩
  rw [h4]
  exact List.mem_append_left _ (mem_without.2 ⟨hx, hx'⟩)

theorem retag_fold_lists (refs : Nat → Nat) (f : List String → List String) (k : Nat) : ∀ (ids : List Nat) (t : Tagging),
    (ids.foldl (retagOne refs f) t).lists k = Nat.repeat f (ids.filter (fun i => refs i == k)).length (t.lists k)
  | [], _ => rfl
  | i :: ids, t => by
    rw [List.foldl_cons, retag_fold_lists refs f k ids]
    have hl : (retagOne refs f t i).lists k = if (k == refs i) = true then f (t.lists k) else t.lists k := rfl
    rw [hl]
    by_cases hk : refs i = k
    · subst hk
      simp only [beq_self_eq_true, if_true, List.filter_cons, List.length_cons]
      exact repeat_comm f _ _
    · have h1 : (k == refs i) = false := by simpa using fun hc => hk hc.symm
      have h2 : (refs i == k) = false := by simpa using hk
      simp [h1, h2]

/-- The leak, exactly: each tag list is changed as many times as there are answers taken out that hold it, whoever else holds it. -/
theorem C65_leak (refs : Nat → Nat) (f : List String → List String) {b : Bool} {input : Option Str} {s : Matches} (h : Reachable b input s)
    (ms : List Match) (lists : Nat → List String) (k : Nat) :
    ∃ removed left, Removes s.delegate ms left removed ∧
      (thenRetag refs f (.many ms) s lists).2.1 k = Nat.repeat f (removed.filter (fun m => refs m.id == k)).length (lists k) := by
  obtain ⟨ret, h1, h2, h3, h4, h5⟩ := removeEach_spec ms h.inv
  refine ⟨ret, _, h4, ?_⟩
  unfold thenRetag
  rw [thenRemove_many_ok h1]
  simp only [retagRemoved]
  by_cases hr : ret.isEmpty = true
  · rw [if_pos hr]
    have : ret = [] := by simpa using hr
    subst this
    rfl
  · rw [if_neg hr, foldl_ids]
    simp only [retag_fold_lists]
    rw [List.filter_map, List.length_map]
    rfl

example : Reachable false none tagSample ∧
    (thenRetag (fun _ => 0) (addTags ["u"]) (.many [cm 0 0 3 none ["t"], cm 1 4 6 none ["t"]]) tagSample (fun _ => ["t"])).2.1 0 = ["t", "u", "u"] :=
  ⟨reachableInOrder_reachable tagSample_reachable, by decide⟩

/-! ## C83: `Rule.then` -/

theorem runConsequences_runs {σ ρ : Type} : ∀ (cs : List (Consequence σ ρ)) (as : List ρ) (s s' : σ) (e : Option PyErr),
    runConsequences cs as s = (s', e) ↔ RunsAll cs as s s' e
  | [], as, s, s', e => by
    constructor
    · intro h; cases h; exact .done _ _
    · intro h; cases h; rfl
  | c :: cs, [], s, s', e => by
    constructor
    · intro h; cases h; exact .tooFew _ _ _
    · intro h; cases h; rfl
  | c :: cs, a :: as, s, s', e => by
    unfold runConsequences
    cases hc : c a s with
    | mk s1 o =>
      cases o with
      | some e1 =>
        simp only
        constructor
        · intro h; cases h; exact .raises hc
        · intro h
          cases h with
          | next h1 _ => rw [hc] at h1; cases h1
          | raises h1 => rw [hc] at h1; cases h1; rfl
      | none =>
        simp only
        rw [runConsequences_runs cs as s1 s' e]
        constructor
        · intro h; exact .next hc h
        · intro h
          cases h with
          | next h1 h2 => rw [hc] at h1; cases h1; exact h2
          | raises h1 => rw [hc] at h1; cases h1

/-- With an iterable of consequences, the `i`-th one gets the `i`-th element of the answer (an answer that is not iterable counts as its only
element), in order, until one raises; `StopIteration` if the elements run out; elements in excess are ignored. -/
theorem C83_many {σ ρ : Type} (cs : List (Consequence σ ρ)) (hcs : cs ≠ []) (items : ρ → Option (List ρ)) (a : ρ) (s s' : σ) (e : Option PyErr) :
    (∀ as, items a = some as → (ruleThen (.many cs) items a s = (s', e) ↔ RunsAll cs as s s' e)) ∧
    (items a = none → (ruleThen (.many cs) items a s = (s', e) ↔ RunsAll cs [a] s s' e)) := by
  have hne : ¬ cs.isEmpty = true := by cases cs with | nil => exact absurd rfl hcs | cons _ _ => simp
  constructor
  · intro as h
    unfold ruleThen
    simp only
    rw [if_neg hne, h]
    exact runConsequences_runs cs as s s' e
  · intro h
    unfold ruleThen
    simp only
    rw [if_neg hne, h]
    exact runConsequences_runs cs [a] s s' e

/-- A single consequence gets the whole answer. -/
theorem C83_one {σ ρ : Type} (c : Consequence σ ρ) (items : ρ → Option (List ρ)) (a : ρ) (s : σ) : ruleThen (.one c) items a s = c a s := rfl

/-- A rule without consequence raises and changes nothing. -/
theorem C83_none {σ ρ : Type} (items : ρ → Option (List ρ)) (a : ρ) (s : σ) :
    ruleThen .none items a s = (s, some .assertionError) ∧ ruleThen (.many []) items a s = (s, some .assertionError) := ⟨rfl, rfl⟩

/-- With as many answers as consequences and none raising, every consequence has been run on its own answer. -/
theorem C83_complete {σ ρ : Type} : ∀ {cs : List (Consequence σ ρ)} {as : List ρ} {s s' : σ}, RunsAll cs as s s' none →
    cs.length ≤ as.length ∧ s' = ((cs.zip as).foldl (fun s ca => (ca.1 ca.2 s).1) s)
  | _, _, _, _, .done as s => ⟨Nat.zero_le _, by simp⟩
  | _, _, _, _, .next h1 h2 => by
    obtain ⟨q1, q2⟩ := C83_complete h2
    refine ⟨by simpa using q1, ?_⟩
    rw [q2, List.zip_cons_cons, List.foldl_cons]
    simp only [h1]

/-- Two consequences on a list of numbers. -/
example : RunsAll [fun (a : Nat) (s : List Nat) => (a :: s, none), fun a s => (s ++ [a], none)] [1, 2, 3] [] [1, 2] none ∧
    RunsAll [fun (a : Nat) (s : List Nat) => (a :: s, none), fun a s => (s ++ [a], none)] [1] [] [1] (some .stopIteration) :=
  ⟨.next rfl (.next rfl (.done _ _)), .next rfl (.tooFew _ _ _)⟩

end Rebulk
