import Verif.Spec.Arguments
import Verif.Props.Holes
/-!
# Properties of the arguments of lookups: C17, and the matches returned by `holes` (C14)
-/
namespace Rebulk
open Spec Matches

/-! ## C17 -/

theorem pyGet_atPyIndex (l : List Match) (i : Int) : AtPyIndex l i (pyGet l i) := by
  unfold AtPyIndex pyGet normIdx
  constructor
  · intro k hk
    subst hk
    rw [if_pos (by omega)]
    by_cases h : (k : Int) < l.length
    · rw [if_pos h]; simp
    · rw [if_neg h]
      have : l.length ≤ k := by omega
      simp [List.getElem?_eq_none this]
  · intro k hk
    subst hk
    rw [if_neg (by omega)]
    by_cases h : k < l.length
    · rw [if_pos (by omega)]
      have : ((-(k : Int) - 1 + l.length).toNat) = l.length - 1 - k := by omega
      rw [List.getElem?_reverse h]
      simp only [this]
    · rw [if_neg (by omega), List.getElem?_eq_none (by simp; omega)]

theorem keepAndPick_selects (c : List Match) (predicate : Option (Match → Bool)) (index : Option Int) :
    Selects c predicate index (keepAndPick c (predArg predicate) (indexArg index)) := by
  unfold keepAndPick
  cases predicate with
  | none =>
    have : (predArg none).keep c = .ok c := rfl
    rw [this]
    cases index with
    | none => exact ⟨_, rfl, rfl, rfl⟩
    | some i => exact ⟨_, rfl, i, rfl, pyGet_atPyIndex _ _⟩
  | some f =>
    have : (predArg (some f)).keep c = .ok (c.filter f) := rfl
    rw [this]
    cases index with
    | none => exact ⟨_, rfl, rfl, rfl⟩
    | some i => exact ⟨_, rfl, i, rfl, pyGet_atPyIndex _ _⟩

/-- **C17.** The `predicate` and `index` arguments shared by all lookups, on the results `c` of the lookup: a predicate
keeps the satisfying elements in order; an index, given as `index` or in place of the predicate, then picks the element at this
Python index. -/
theorem C17_filter_index (c : List Match) :
    (∀ predicate index, Selects c predicate index (filterIndex c (predArg predicate) (indexArg index))) ∧
    (∀ i, Selects c none (some i) (filterIndex c (.int i) .none)) := by
  constructor
  · intro predicate index
    have h := keepAndPick_selects c predicate index
    cases predicate <;> cases index <;> exact h
  · intro i
    exact keepAndPick_selects c none (some i)

/-- **C17.** Every lookup that finds a list, and `range`. -/
theorem C17_lookup (s : Matches) (predicate : Option (Match → Bool)) (index : Option Int) :
    (∀ op c, (s.step op).2 = .list c →
      Selects c predicate index (s.lookupArgs op (predArg predicate) (indexArg index)).2 ∧
      (∀ i, Selects c none (some i) (s.lookupArgs op (.int i) .none).2) ∧
      (s.lookupArgs op (predArg predicate) (indexArg index)).1 = (s.step op).1) ∧
    (∀ start stop, Selects (s.range start stop) predicate index (s.rangeArgs start stop (predArg predicate) (indexArg index)) ∧
      ∀ i, Selects (s.range start stop) none (some i) (s.rangeArgs start stop (.int i) .none)) := by
  refine ⟨fun op c h => ⟨?_, ?_, rfl⟩, fun start stop => ⟨?_, ?_⟩⟩
  · unfold lookupArgs; simp only [h]; exact (C17_filter_index c).1 predicate index
  · intro i; unfold lookupArgs; simp only [h]; exact (C17_filter_index c).2 i
  · exact (C17_filter_index _).1 predicate index
  · exact (C17_filter_index _).2

theorem sortNamed_names (ns : List String) : ∀ (rest : List Arg) (acc : List String),
    sortNamedArgs (ns.map Arg.str ++ rest) acc [] = sortNamedArgs rest (acc ++ ns) [] := by
  induction ns with
  | nil => intro rest acc; simp
  | cons n ns ih =>
    intro rest acc
    simp only [List.map_cons, List.cons_append, sortNamedArgs]
    rw [ih]; simp

/-- The results of `named` for several names. -/
theorem fromKeys_firsts (ns : List String) : fromKeys ns = firsts ns := by
  unfold fromKeys
  suffices h : ∀ (l acc : List String),
      l.foldl (fun acc a => if acc.contains a then acc else acc ++ [a]) acc = acc ++ (firsts l).filter (fun x => !acc.contains x) by
    have := h ns []
    rw [this, List.nil_append, List.filter_eq_self.mpr (by intro x _; rfl)]
  intro l
  induction l with
  | nil => intro acc; simp [firsts]
  | cons a l ih =>
    intro acc
    simp only [List.foldl_cons]
    rw [ih]
    simp only [firsts, List.filter_cons]
    by_cases ha : acc.contains a = true
    · simp only [ha, if_true, Bool.not_true, Bool.false_eq_true, if_false, List.filter_filter]
      congr 1
      apply List.filter_congr
      intro x _
      by_cases hx : x = a
      · subst hx; simpa using ha
      · simp [hx]
    · simp only [ha, if_false, Bool.not_false, if_true, List.append_assoc, List.singleton_append, List.filter_filter,
        Bool.false_eq_true, Bool.not_eq_true] at *
      congr 2
      apply List.filter_congr
      intro x _
      by_cases hx : x = a
      · subst hx; simp
      · simp [hx]

/-- **C17, C01.** `named` with one or several names, after any history of additions, removals and lookups: `c` are the matches of the distinct names, in the
order of the names (`C03_lookups_ordered` gives the order within a name), and the predicate and the index select from them whether they are given by
keyword or by position after the names, the index also in the place of the predicate. -/
theorem C17_named (isMarkers : Bool) (input : Option Str) (ops : List Op)
    (hops : ∀ op ∈ ops, (isAddRemove op || isLookup op) = true ∧ Fits isMarkers op) (ns : List String) (hns : "" ∉ ns)
    (predicate : Option (Match → Bool)) (index : Option Int) :
    let s := (empty isMarkers input).runOps ops
    ∃ c, SameUpToEq c ((firsts ns).flatMap (Spec.named s.delegate)) ∧
      Selects c predicate index (s.namedArgs (ns.map .str) (predArg predicate) (indexArg index)).2 ∧
      Selects c predicate index (s.namedArgs (ns.map .str ++ [predArg predicate]) .none (indexArg index)).2 ∧
      Selects c predicate index (s.namedArgs (ns.map .str ++ [predArg predicate, indexArg index]) .none .none).2 ∧
      (∀ i, Selects c none (some i) (s.namedArgs (ns.map .str ++ [.int i]) .none .none).2) ∧
      (∀ i, Selects c none (some i) (s.namedArgs (ns.map .str) (.int i) .none).2) := by
  intro s
  have hi : Inv s := (inv_run (inv_empty isMarkers input) ops hops).1
  have key : ∀ rest p ix, sortNamedArgs (ns.map Arg.str ++ rest) [] [] = (ns, rest) →
      (s.namedArgs (ns.map Arg.str ++ rest) p ix).2 = filterIndex (s.named ns).2 (extraPredicate rest p) (extraIndex rest ix) := by
    intro rest p ix h
    unfold namedArgs
    rw [h]
  have k0 : sortNamedArgs (ns.map Arg.str ++ []) [] [] = (ns, []) := by rw [sortNamed_names]; simp [sortNamedArgs]
  have k1 : ∀ a : Arg, (∀ n, a ≠ .str n) → sortNamedArgs (ns.map Arg.str ++ [a]) [] [] = (ns, [a]) := by
    intro a ha
    rw [sortNamed_names]
    cases a with
    | str n => exact absurd rfl (ha n)
    | _ => rfl
  have k2 : ∀ a b : Arg, (∀ n, a ≠ .str n) → (∀ n, b ≠ .str n) → sortNamedArgs (ns.map Arg.str ++ [a, b]) [] [] = (ns, [a, b]) := by
    intro a b ha hb
    rw [sortNamed_names]
    cases a <;> cases b <;> first | rfl | exact absurd rfl (ha _) | exact absurd rfl (hb _)
  have hp : ∀ n, predArg predicate ≠ .str n := by intro n; cases predicate <;> exact (fun h => nomatch h)
  have hx : ∀ n, indexArg index ≠ .str n := by intro n; cases index <;> exact (fun h => nomatch h)
  have hc := C17_filter_index (s.named ns).2
  refine ⟨(s.named ns).2, ?_, ?_, ?_, ?_, ?_, ?_⟩
  · rw [(named_spec s ns).2, fromKeys_firsts]
    intro e
    rw [List.countP_flatMap, List.countP_flatMap]
    congr 1
    apply List.map_congr_left
    intro n hn
    simp only [Function.comp]
    refine hi.seesName (fun h => hns ?_) e
    have : ∀ l : List String, n ∈ firsts l → n ∈ l := by
      intro l
      induction l with
      | nil => intro h; exact h
      | cons a l ih =>
        intro h
        simp only [firsts, List.mem_cons, List.mem_filter] at h ⊢
        rcases h with h | h
        · exact Or.inl h
        · exact Or.inr (ih h.1)
    exact h ▸ this ns hn
  · have := key [] (predArg predicate) (indexArg index) k0
    simp only [List.append_nil] at this
    rw [this]; exact hc.1 _ _
  · rw [key [_] .none (indexArg index) (k1 _ hp)]; exact hc.1 _ _
  · rw [key [_, _] .none .none (k2 _ _ hp hx)]; exact hc.1 _ _
  · intro i
    rw [key [_] .none .none (k1 _ (by intro n h; cases h))]; exact hc.2 i
  · intro i
    have := key [] (.int i) .none k0
    simp only [List.append_nil] at this
    rw [this]; exact hc.2 i

example : (∀ op ∈ sampleOps, (isAddRemove op || isLookup op) = true ∧ Fits false op) ∧ "" ∉ ["a", "b", "a"] ∧ firsts ["a", "b", "a"] = ["a", "b"] ∧
    ∃ m, (sample.namedArgs [.str "a", .str "b", .str "a", .fn (fun m => decide (0 < m.start)), .int (-1)] .none .none).2 = .ok (.one (some m)) ∧
      m.span = (3, 5) := by
  refine ⟨by decide, by decide, by decide, ⟨_, rfl, by decide⟩⟩

/-- **C17.** What is given by keyword beats what is given by position: with a predicate by keyword, `named(*names, x, predicate=p, index=i)` is
`named(*names, predicate=p, index=i)` whatever `x` is (if it is not one more name), and an index by keyword beats the second argument after the names. -/
theorem C17_keyword_wins (s : Matches) (ns : List String) (x y : Arg) (hx : ∀ n, x ≠ .str n) (predicate : Match → Bool) (index : Int) :
    (∀ index, s.namedArgs (ns.map .str ++ [x]) (.fn predicate) (indexArg index) = s.namedArgs (ns.map .str) (.fn predicate) (indexArg index)) ∧
    (∀ predicate, s.namedArgs (ns.map .str ++ [x, y]) predicate (.int index) = s.namedArgs (ns.map .str ++ [x]) predicate (.int index)) := by
  have k0 : sortNamedArgs (ns.map Arg.str) [] [] = (ns, []) := by
    have := sortNamed_names ns [] []; simpa [sortNamedArgs] using this
  have k1 : sortNamedArgs (ns.map Arg.str ++ [x]) [] [] = (ns, [x]) := by
    rw [sortNamed_names]
    cases x with
    | str n => exact absurd rfl (hx n)
    | _ => rfl
  have k2 : sortNamedArgs (ns.map Arg.str ++ [x, y]) [] [] = (ns, [x, y]) := by
    rw [sortNamed_names]
    cases x with
    | str n => exact absurd rfl (hx n)
    | _ => cases y <;> rfl
  constructor
  · intro index
    unfold namedArgs
    rw [k0, k1]
    rfl
  · intro predicate
    unfold namedArgs
    rw [k1, k2]
    cases predicate <;> rfl

/-- **C17.** Once an argument of `named` is not a string, a string after it is not a name: it stands in the place of the index, and the call raises `TypeError`
(if it does not raise it already for the predicate). A string in the place of the predicate is never one: it is a name, if it is given by position. -/
theorem C17_names_come_first (s : Matches) (ns : List String) (predicate : Option (Match → Bool)) (n : String) :
    (s.namedArgs (ns.map .str ++ [predArg predicate, .str n]) .none .none).2 = .error .typeError ∧
    (∀ i, (s.namedArgs (ns.map .str ++ [.int i, .str n]) .none .none).2 = .error .typeError) := by
  have k : ∀ x : Arg, (∀ m, x ≠ .str m) → sortNamedArgs (ns.map Arg.str ++ [x, .str n]) [] [] = (ns, [x, .str n]) := by
    intro x hx
    rw [sortNamed_names]
    cases x with
    | str m => exact absurd rfl (hx m)
    | _ => rfl
  constructor
  · unfold namedArgs
    rw [k _ (by intro m h; cases predicate <;> cases h)]
    cases predicate <;> rfl
  · intro i
    unfold namedArgs
    rw [k _ (by intro m h; cases h)]
    simp only [extraPredicate, extraIndex, filterIndex, keepAndPick, Arg.keep]
    split
    · rename_i heq
      split at heq
      · cases heq
      · split at heq <;> cases heq; rfl
    · rfl

/-- **C17.** An integer as the predicate together with an index, as in `range(0, 10, 1, index=2)`: 0 is ignored, as a predicate that is not given; another
one is called when there is something to filter, which raises `TypeError`; when there is nothing the answer is `None`. The same for a string, the empty one being
the ignored one. -/
theorem C17_not_a_predicate (c : List Match) (j : Int) :
    Selects c none (some j) (filterIndex c (.int 0) (.int j)) ∧
    (∀ index, Selects c none index (filterIndex c (.str "") (indexArg index))) ∧
    (∀ i : Int, i ≠ 0 → filterIndex c (.int i) (.int j) = if c = [] then .ok (.one none) else .error .typeError) ∧
    (∀ n : String, n ≠ "" → filterIndex c (.str n) (.int j) = if c = [] then .ok (.one none) else .error .typeError) ∧
    (∀ n : String, n ≠ "" → filterIndex c (.str n) .none = if c = [] then .ok (.list []) else .error .typeError) := by
  have hp : pyGet ([] : List Match) j = none := by
    unfold pyGet normIdx
    by_cases h : 0 ≤ j
    · rw [if_pos h, if_neg (by simp; omega)]
    · rw [if_neg h, if_neg (by simp; omega)]
  refine ⟨?_, ?_, ?_, ?_, ?_⟩
  · exact keepAndPick_selects c none (some j)
  · intro index
    have h := keepAndPick_selects c none index
    cases index <;> exact h
  · intro i hi
    have ht : (Arg.int i).truthy = true := by simp [Arg.truthy, hi]
    cases c with
    | nil => simp [filterIndex, keepAndPick, Arg.keep, ht, Arg.pick, hp]
    | cons a l => simp [filterIndex, keepAndPick, Arg.keep, ht]
  · intro n hn
    have ht : (Arg.str n).truthy = true := by simp [Arg.truthy, hn]
    cases c with
    | nil => simp [filterIndex, keepAndPick, Arg.keep, ht, Arg.pick, hp]
    | cons a l => simp [filterIndex, keepAndPick, Arg.keep, ht]
  · intro n hn
    have ht : (Arg.str n).truthy = true := by simp [Arg.truthy, hn]
    cases c with
    | nil => simp [filterIndex, keepAndPick, Arg.keep, ht, Arg.pick]
    | cons a l => simp [filterIndex, keepAndPick, Arg.keep, ht]

example : (∃ m, (sample.namedArgs [.str "a", .str "b", .int 0, .int 0] (.fn (fun m => decide (0 < m.start))) (.int (-1))).2 = .ok (.one (some m)) ∧
      m.span = (3, 5)) ∧
    (sample.rangeArgs 0 none (.int 1) (.int 2)) = .error .typeError ∧
    (∃ m, sample.rangeArgs 0 none (.int 0) (.int 0) = .ok (.one (some m))) := ⟨⟨_, rfl, by decide⟩, rfl, ⟨_, rfl⟩⟩

/-! ## C14 -/

/-- **C14, C15, C16.** The matches returned by `holes` are the spans of these theorems: the raw value of a hole is the text of the input there, and its value
is this text or what the given formatter makes of it; it has neither name nor tags. -/
theorem C14_hole_matches (s : Matches) (formatter : Option (Val → Val)) (start : Int) (stop : Option Int) (ignore : Match → Bool) (seps : Option Str)
    (spans : List (Int × Int)) (h : (s.step (.holes start stop ignore seps)).2 = .spans spans) :
    ∃ l, (s.holeMatches formatter start stop ignore seps).2 = .ok l ∧ l.map Match.span = spans ∧
      ∀ m ∈ l, m.name = none ∧ m.tags = [] ∧ m.marker = false ∧ m.priv = false ∧
        (∀ (str : Str) (a b : Nat), s.inputString = some str → str ≠ [] → m.span = ((a : Int), (b : Int)) → a ≤ b → b ≤ str.length →
          m.raw = .str ((str.take b).drop a) ∧ m.value = (match formatter with
            | some f => f (.str ((str.take b).drop a))
            | none => .str ((str.take b).drop a))) := by
  have h' : (s.holes start stop ignore seps).2 = .ok spans := by
    have : (s.step (.holes start stop ignore seps)).2 = Out.ofSpans (s.holes start stop ignore seps).2 := rfl
    rw [this] at h
    cases hr : (s.holes start stop ignore seps).2 with
    | error e => rw [hr] at h; cases h
    | ok l => rw [hr] at h; cases h; rfl
  refine ⟨spans.map (holeMatch s formatter), ?_, ?_, ?_⟩
  · unfold holeMatches; simp only [h']
  · rw [List.map_map]
    conv => rhs; rw [← List.map_id spans]
    apply List.map_congr_left
    intro x _; rfl
  · intro m hm
    obtain ⟨sp, _, rfl⟩ := List.mem_map.mp hm
    refine ⟨rfl, rfl, rfl, rfl, ?_⟩
    intro str a b hs hne hsp hab hb
    have h1 : sp.1 = a := congrArg Prod.fst hsp
    have h2 : sp.2 = b := congrArg Prod.snd hsp
    have hraw : (holeMatch s formatter sp).raw = .str ((str.take b).drop a) := by
      have he : str.isEmpty = false := by simp [hne]
      unfold Match.raw holeMatch
      simp only [hs, he, Bool.false_eq_true, if_false, Match.rawStartOf, Match.rawEndOf, Option.getD_none, h1, h2, pySlice, clampIdx]
      rw [if_neg (by omega), if_neg (by omega)]
      simp only [Int.toNat_natCast]
      rw [Nat.min_eq_left hb, Nat.min_eq_left (by omega)]
    refine ⟨hraw, ?_⟩
    unfold Match.value
    rw [hraw]
    rfl

example : ∃ l, (sample.holeMatches none 0 none (fun m => decide (m.name = some "a")) none).2 = .ok l ∧
    l.map Match.value = [.str "ab-".toList] := ⟨_, rfl, by decide⟩

end Rebulk
