import Verif.Lemmas.MatchOps
import Verif.Lemmas.Sort
import Verif.Props.Holes
import Verif.Spec.Truth
import Verif.Lemmas.Initiator
/-!
# Properties of single matches: C26 – C31
-/
namespace Rebulk
open Matches Spec

/-! ## C26 -/

/-- **C26.** `==` on matches is an equivalence relation, `!=` its negation; equal matches hash alike. -/
theorem C26_equality :
    (∀ a : Match, a.eqv a = true) ∧
    (∀ a b : Match, a.eqv b = true → b.eqv a = true) ∧
    (∀ a b c : Match, a.eqv b = true → b.eqv c = true → a.eqv c = true) ∧
    (∀ a b : Match, a.nev b = !a.eqv b) ∧
    (∀ a b : Match, a.eqv b = true → a.hashKey = b.hashKey) := by
  refine ⟨Match.eqv_refl, fun _ _ => Match.eqv_symm, fun _ _ _ => Match.eqv_trans, ?_, ?_⟩
  · intro a b
    unfold Match.nev Match.eqv
    simp only [bne, Bool.not_and]
  · intro a b h
    simp [Match.hashKey, Match.eqv_start h, Match.eqv_stop h]

/-- **C26.** Equality means same start, end, value, name and parent chain (two matches have equal parent chains when both have no
parent, or when their parents are equal, recursively); tags, private, marker, formatter, pattern and identity do not matter. The
hash only depends on the span. -/
theorem C26_equality_fields (a b : Match) :
    (a.eqv b = true ↔ a.start = b.start ∧ a.stop = b.stop ∧ a.value = b.value ∧ a.name = b.name ∧ a.ancestors = b.ancestors) ∧
    (∀ v, ({ a with lit := v } : Match).hashKey = a.hashKey) ∧
    (∀ t p mk f s i, ({ a with tags := t, priv := p, marker := mk, pattern := f, solver := s, id := i } : Match).eqv a = true) := by
  refine ⟨?_, fun _ => rfl, ?_⟩
  · rw [Match.eqv_iff]
    simp only [Match.eqKey, Match.span, Match.EqKey.mk.injEq, Prod.mk.injEq, and_assoc]
  · intros
    rw [Match.eqv_iff]; rfl

example : (mk 0 3 (some "a") ["x"]).eqv (mk 0 3 (some "a")) = true ∧ (mk 0 3 (some "a")).eqv (mk 0 3 (some "b")) = false ∧
    (mk 0 3).eqv (mk 0 4) = false ∧ (mk 0 3).eqv { mk 0 3 with ancestors := [(mk 0 9).core] } = false ∧
    (mk 0 3).eqv { mk 0 3 with lit := .int 3 } = false := by decide

/-! ## C27 -/

/-- **C27.** The comparison operators compare `(start, end)` lexicographically and are total, transitive and mutually
consistent. -/
theorem C27_order :
    (∀ a b : Match, a.le b = true ↔ lexLe (a.start, a.stop) (b.start, b.stop)) ∧
    (∀ a b : Match, a.lt b = true ↔ lexLe (a.start, a.stop) (b.start, b.stop) ∧ (a.start, a.stop) ≠ (b.start, b.stop)) ∧
    (∀ a b : Match, a.gt b = b.lt a) ∧ (∀ a b : Match, a.ge b = b.le a) ∧
    (∀ a b : Match, a.le b = !b.lt a) ∧
    (∀ a b : Match, a.le b = true ∨ b.le a = true) ∧
    (∀ a b c : Match, a.le b = true → b.le c = true → a.le c = true) ∧
    (∀ a b c : Match, a.lt b = true → b.le c = true → a.lt c = true) ∧
    (∀ a b : Match, a.lt b = true → a.eqv b = false) := by
  have hle : ∀ a b : Match, a.le b = true ↔ lexLe (a.start, a.stop) (b.start, b.stop) := by
    intro a b
    have := tupleLt_iff (a.start, a.stop) (b.start, b.stop)
    simp only [Match.le, Match.span, Bool.or_eq_true, this, lexLe, beq_iff_eq, ne_eq, Prod.mk.injEq]
    omega
  have hlt : ∀ a b : Match, a.lt b = true ↔ lexLe (a.start, a.stop) (b.start, b.stop) ∧ (a.start, a.stop) ≠ (b.start, b.stop) := by
    intro a b; exact tupleLt_iff _ _
  refine ⟨hle, hlt, fun _ _ => rfl, ?_, ?_, ?_, ?_, ?_, ?_⟩
  · intro a b
    simp only [Match.ge, Match.le, Bool.beq_comm]
  · intro a b
    rw [Bool.eq_iff_iff, hle]
    simp only [Bool.not_eq_true']
    rw [← Bool.not_eq_true, hlt]
    simp only [lexLe, ne_eq, Prod.mk.injEq]
    omega
  · intro a b; rw [hle, hle]; exact lexLe_total _ _
  · intro a b c; rw [hle, hle, hle]; exact lexLe_trans _ _ _
  · intro a b c; rw [hlt, hle, hlt]
    simp only [lexLe, ne_eq, Prod.mk.injEq]
    omega
  · intro a b h
    rw [hlt] at h
    cases he : a.eqv b with
    | false => rfl
    | true => exact absurd (by rw [Match.eqv_start he, Match.eqv_stop he]) h.2

/-- **C27.** Sorting matches gives the stable sort by `(start, end)`. -/
theorem C27_sorted (l : List Match) : IsStableSort lexLe (fun m => (m.start, m.stop)) l (pySorted Match.lt l) := sorted_matches l

example : (pySorted Match.lt [mk 3 5, mk 0 4 (some "b"), mk 0 2, mk 0 4 (some "a")]).map (fun m => (m.start, m.stop, m.name)) =
    [(0, 2, none), (0, 4, some "b"), (0, 4, some "a"), (3, 5, none)] := by decide

/-! ## C28 -/

/-- **C28.** Cropping a non-empty match with spans (`start ≤ end`): copies of the match, non-empty and disjoint, covering exactly
the indexes of the match that no crop covers; when the crops are not empty these are exactly the maximal such runs. -/
theorem C28_crop (m : Match) (crops : List (Int × Int)) (hm : m.start < m.stop) (hc : ∀ c ∈ crops, c.1 ≤ c.2) :
    ∃ r, m.crop crops = .ok r ∧
      (∀ x ∈ r, x.start < x.stop ∧ x = { m with start := x.start, stop := x.stop }) ∧
      r.Pairwise (fun x y => x.stop ≤ y.start ∨ y.stop ≤ x.start) ∧
      (∀ i, (∃ x ∈ r, Covers x i) ↔ Covers m i ∧ ∀ c ∈ crops, ¬ (c.1 ≤ i ∧ i < c.2)) ∧
      ((∀ c ∈ crops, c.1 < c.2) → ∀ ab, ab ∈ r.map (fun x => (x.start, x.stop)) ↔
        IsMaxRun (fun i => ∀ c ∈ crops, ¬ (c.1 ≤ i ∧ i < c.2)) m.start m.stop ab) := by
  have hg0 : GoodSpans [m.span] := ⟨by simp [Match.span, hm], by simp⟩
  obtain ⟨h', ret', hr, hp⟩ := cropOuter_spec crops hc (h := (SpanHeap.alloc ⟨fun _ => (0, 0), 0⟩ m.span).1) (ret := [0])
    (by simp) (by simp [SpanHeap.alloc]) (by simpa [SpanHeap.alloc] using hg0)
  have h0 : [0].map (SpanHeap.alloc ⟨fun _ => (0, 0), 0⟩ m.span).1.span = [m.span] := by simp [SpanHeap.alloc]
  rw [h0] at hp
  obtain ⟨g1, g2, g3⟩ := cuts_spec m.start m.stop crops hc [] [m.span] hg0 (by intro i; simp [Match.span]) (by
    intro _ x hx; simp only [List.mem_singleton] at hx; subst hx; exact ⟨Or.inl rfl, Or.inl rfl⟩)
  simp only [List.nil_append] at g2 g3
  generalize hL : crops.foldl (fun l c => l.flatMap (cut c.1 c.2)) [m.span] = L at *
  have hgood := g1.perm hp.symm
  refine ⟨ret'.map (fun o => { m with start := (h'.span o).1, stop := (h'.span o).2 }), ?_, ?_, ?_, ?_, ?_⟩
  · unfold Match.crop
    simp only
    have : (SpanHeap.alloc ⟨fun _ => (0, 0), 0⟩ m.span).2 = 0 := rfl
    rw [this, hr]
  · intro x hx
    rw [List.mem_map] at hx
    obtain ⟨o, ho, rfl⟩ := hx
    exact ⟨hgood.1 _ (List.mem_map_of_mem ho), rfl⟩
  · rw [List.pairwise_map]
    have := hgood.2
    rw [List.pairwise_map] at this
    exact this
  · intro i
    have hiff := g2 i
    constructor
    · rintro ⟨x, hx, hxi⟩
      rw [List.mem_map] at hx
      obtain ⟨o, ho, rfl⟩ := hx
      exact hiff.1 ⟨h'.span o, hp.mem_iff.1 (List.mem_map_of_mem ho), hxi⟩
    · intro h
      obtain ⟨x, hx, hxi⟩ := hiff.2 h
      obtain ⟨o, ho, rfl⟩ := List.mem_map.1 (hp.mem_iff.2 hx)
      exact ⟨_, List.mem_map_of_mem ho, hxi⟩
  · intro hne ab
    have hmem : ab ∈ (ret'.map (fun o => ({ m with start := (h'.span o).1, stop := (h'.span o).2 } : Match))).map
        (fun x => (x.start, x.stop)) ↔ ab ∈ L := by
      rw [← hp.mem_iff, List.map_map]; rfl
    rw [hmem]
    have hrun : ∀ x ∈ L, IsMaxRun (fun i => ∀ c ∈ crops, ¬ (c.1 ≤ i ∧ i < c.2)) m.start m.stop x := by
      intro x hx
      have hx1 := g1.1 x hx
      have hcov := fun i h1 h2 => (g2 i).1 ⟨x, hx, h1, h2⟩
      obtain ⟨e1, e2⟩ := g3 hne x hx
      refine ⟨(hcov x.1 (by omega) hx1).1.1, hx1, by have := (hcov (x.2 - 1) (by omega) (by omega)).1.2; omega,
        fun i h1 h2 => (hcov i h1 h2).2, ?_, ?_⟩
      · rcases e1 with e1 | ⟨c, hcm, h⟩
        · exact Or.inl e1
        · exact Or.inr (fun hh => hh c hcm h)
      · rcases e2 with e2 | ⟨c, hcm, h⟩
        · exact Or.inl e2
        · exact Or.inr (fun hh => hh c hcm h)
    refine ⟨hrun ab, ?_⟩
    rintro ⟨h1, h2, h3, h4, h5, h6⟩
    obtain ⟨x, hx, hx1, hx2⟩ := (g2 ab.1).2 ⟨⟨h1, by omega⟩, h4 ab.1 (by omega) h2⟩
    obtain ⟨k1, k2, k3, k4, k5, k6⟩ := hrun x hx
    have e1 : x.1 = ab.1 := by
      rcases Int.lt_or_eq_of_le hx1 with hlt | heq
      · rcases h5 with h5 | h5
        · omega
        · exact absurd (k4 (ab.1 - 1) (by omega) (by omega)) h5
      · exact heq
    have e2 : x.2 = ab.2 := by
      rcases Int.lt_trichotomy x.2 ab.2 with hlt | heq | hgt
      · rcases k6 with k6 | k6
        · omega
        · exact absurd (h4 x.2 (by omega) hlt) k6
      · exact heq
      · rcases h6 with h6 | h6
        · omega
        · exact absurd (k4 ab.2 (by omega) hgt) h6
    have : x = ab := Prod.ext e1 e2
    rw [← this]; exact hx

example : (mk 0 10).start < (mk 0 10).stop ∧ (∀ c ∈ ([(2, 4), (8, 12), (3, 5)] : List (Int × Int)), c.1 < c.2) ∧
    ∃ r, (mk 0 10).crop [(2, 4), (8, 12), (3, 5)] = .ok r ∧ r.map Match.span = [(0, 2), (5, 8)] := ⟨by decide, by decide, _, rfl, by decide⟩

/-- With an empty crop the pieces are cut at it although nothing is removed (so they are not the maximal runs). -/
example : ∃ r, (mk 0 10).crop [(4, 4)] = .ok r ∧ r.map Match.span = [(0, 4), (4, 10)] := ⟨_, rfl, by decide⟩

/-! ## C29 -/

/-- **C29.** Splitting a match lying inside its input string (without distinct raw bounds): copies of the match on exactly the
maximal runs of indexes whose character is not a separator, in order. -/
theorem C29_split (m : Match) (seps : Str) (str : Str) (hstr : m.inputString = some str) (hraw : m.rawStart = none ∧ m.rawStop = none)
    (h0 : 0 ≤ m.start) (h1 : m.start < m.stop) (h2 : m.stop ≤ str.length) :
    ∃ r, m.split seps = .ok r ∧ (∀ x ∈ r, x = { m with start := x.start, stop := x.stop }) ∧
      ListsMaxRuns (fun i => ∀ c ∈ seps, str[i.toNat]? ≠ some c) m.start m.stop (r.map (fun x => (x.start, x.stop))) := by
  -- the raw text
  have hne : str.isEmpty = false := by
    cases str with
    | nil => simp at h2; omega
    | cons => rfl
  have hrawv : m.raw = .str ((str.take m.stop.toNat).drop m.start.toNat) := by
    unfold Match.raw
    rw [hstr]
    simp only [hne, Bool.false_eq_true, if_false, Match.rawStartOf, Match.rawEndOf, hraw.1, hraw.2, Option.getD_none, pySlice, clampIdx]
    rw [if_neg (by omega), if_neg (by omega), Nat.min_eq_left (by omega), Nat.min_eq_left (by omega)]
  generalize hr : (str.take m.stop.toNat).drop m.start.toNat = raw at hrawv
  have hlen : (raw.length : Int) = m.stop - m.start := by
    rw [← hr]; simp only [List.length_drop, List.length_take]; omega
  have hget : ∀ k (hk : k < raw.length), str[m.start.toNat + k]? = some raw[k] := by
    intro k hk
    have : raw[k]? = some raw[k] := List.getElem?_eq_getElem hk
    rw [← this, ← hr, List.getElem?_drop, List.getElem?_take]
    rw [if_pos (by omega)]
  let cur : Int → Bool := fun i => match str[i.toNat]? with | some c => seps.contains c | none => false
  have hcur : ∀ k (hk : k < raw.length), cur (m.start + ((0 : Nat) : Int) + k) = seps.contains raw[k] := by
    intro k hk
    simp only [cur]
    have : (m.start + ((0 : Nat) : Int) + (k : Int)).toNat = m.start.toNat + k := by omega
    rw [this, hget k hk]
  have hrel : SplitRel m.stop ⟨(SpanHeap.alloc ⟨fun _ => (0, 0), 0⟩ m.span).1, 0, some 0, []⟩ { rindex := 0 } := by
    refine ⟨by simp, by simp, by simp, fun _ => ⟨rfl, 0, rfl, by simp, by simp [SpanHeap.alloc], ?_, ?_⟩⟩
    · simp [SpanHeap.alloc, Match.span]
    · simp [SpanHeap.alloc, Match.span, h1]
  obtain ⟨s', h', hs', hrel', hI⟩ := splitLoop_rel (start := m.start) (E := m.stop) (seps := seps) raw cur 0 (by
    push_cast; omega) hcur hrel [] (by
      have := hinv_fresh cur (fun _ => false) [] m.start { rindex := 0 } rfl rfl
      simpa using this)
  have hF : ∀ i, cur i = false ↔ ∀ c ∈ seps, str[i.toNat]? ≠ some c := by
    intro i
    simp only [cur]
    cases hg : str[i.toNat]? with
    | none => simp
    | some c =>
      simp only [Option.some.injEq, ne_eq]
      constructor
      · intro h d hd hc
        subst hc
        simp at h; exact h hd
      · intro h
        cases hc : seps.contains c with
        | false => rfl
        | true => exact absurd rfl (h c (by simpa using hc))
  obtain ⟨c, hc1, hc2⟩ := hI.result hF (he := m.stop) (fun _ _ => by omega)
  simp only [List.nil_append] at hc1
  have hspans : s'.ret.map s'.heap.span = c := by
    rw [← hc1]
    cases ho : h'.openAt with
    | none => exact (hrel'.closed ho).1
    | some a =>
      obtain ⟨_, _, hsp, pre, hret, hmap⟩ := hrel'.opened a ho
      simp only [Int.min_self]
      rw [hret, List.map_append, hmap]; simp [hsp]
  refine ⟨s'.ret.map (fun o => { m with start := (s'.heap.span o).1, stop := (s'.heap.span o).2 }), ?_, ?_, ?_⟩
  · unfold Match.split
    rw [hrawv]
    simp only
    have : (SpanHeap.alloc ⟨fun _ => (0, 0), 0⟩ m.span).2 = 0 := rfl
    rw [this, hs']
  · intro x hx
    rw [List.mem_map] at hx
    obtain ⟨o, _, rfl⟩ := hx
    rfl
  · rw [List.map_map]
    have : (fun x : Match => (x.start, x.stop)) ∘ (fun o => ({ m with start := (s'.heap.span o).1, stop := (s'.heap.span o).2 } : Match)) =
        s'.heap.span := rfl
    rw [this, hspans]
    have hsimp : (fun _ : Int => false = true) = fun _ => False := by simp
    rw [hsimp] at hc2
    exact hc2.maxRuns

example : ∃ r, ({ mk 1 12 with inputString := some "-ab--c-def-".toList, stop := 11 } : Match).split "-".toList = .ok r ∧
    r.map Match.span = [(1, 3), (5, 6), (7, 10)] := ⟨_, rfl, by decide⟩

/-! ## C30 -/

/-- **C30.** Precedence: a truthy literal, else the formatter applied to the raw text, else the raw text. A falsy literal (`0`, `""`,
`False`, `[]`) is ignored. `has_literal_value` says whether the literal is used. -/
theorem C30_value (m : Match) :
    (IsTrue m.lit → m.value = m.lit ∧ m.hasLiteralValue = true) ∧
    (¬ IsTrue m.lit → m.hasLiteralValue = false ∧
      (∀ f, m.formatter = some f → m.value = f m.raw) ∧ (m.formatter = none → m.value = m.raw)) := by
  rw [← isTrue_iff, Bool.not_eq_true]
  unfold Match.value Match.hasLiteralValue
  constructor
  · intro h; simp [h]
  · intro h; simp only [h, Bool.false_eq_true, if_false, true_and]
    constructor
    · intro f hf; rw [hf]
    · intro hf; rw [hf]

/-- **C30.** The raw text: no raw text without input; else the slice of the input between the raw bounds (by default the
bounds of the match), here for bounds inside the input: character by character. -/
theorem C30_raw (m : Match) (str : Str) (hstr : m.inputString = some str) (hne : str ≠ []) (a b : Nat)
    (ha : m.rawStart.getD m.start = a) (hb : m.rawStop.getD m.stop = b) (hab : a ≤ b) (hbl : b ≤ str.length) :
    ∃ text, m.raw = .str text ∧ text.length = b - a ∧ ∀ k, k < b - a → text[k]? = str[a + k]? := by
  have he : str.isEmpty = false := by simp [hne]
  refine ⟨(str.take b).drop a, ?_, by simp; omega, ?_⟩
  · unfold Match.raw
    rw [hstr]
    simp only [he, Bool.false_eq_true, if_false, Match.rawStartOf, Match.rawEndOf, ha, hb, pySlice, clampIdx]
    rw [if_neg (by omega), if_neg (by omega)]
    simp only [Int.toNat_natCast]
    rw [Nat.min_eq_left hbl, Nat.min_eq_left (by omega)]
  · intro k hk
    rw [List.getElem?_drop, List.getElem?_take, if_pos (by omega)]

/-- **C30.** Without an input string, or with an empty one, there is no raw text. -/
theorem C30_no_raw (m : Match) (h : m.inputString = none ∨ m.inputString = some []) : m.raw = .none := by
  unfold Match.raw
  rcases h with h | h <;> rw [h]
  rfl

example : ({ mk 0 0 with inputString := some [] } : Match).value = .none ∧ (mk 0 3).value = .none := by decide

example : ({ mk 1 3 with inputString := some "abcd".toList, formatter := some (fun _ => .int 7) } : Match).value = .int 7 ∧
    ({ mk 1 3 with inputString := some "abcd".toList, lit := .int 0 } : Match).value = .str "bc".toList ∧
    ({ mk 1 3 with inputString := some "abcd".toList, rawStop := some 4 } : Match).raw = .str "bcd".toList := by decide

/-! ## C31 -/

/-- **C31.** When no ancestor is empty, the initiator is the root of the parent chain: the last ancestor, or the match
itself without parent. -/
theorem C31_initiator (m : Match) (h : ∀ p ∈ m.ancestors, p.start ≠ p.stop) :
    m.initiator = m.ancestors.getLast?.getD m.core := by
  unfold Match.initiator
  suffices H : ∀ (ps : List Core) (c : Core), (∀ p ∈ ps, p.start ≠ p.stop) → Match.initiatorFrom c ps = ps.getLast?.getD c from
    H _ _ h
  intro ps
  induction ps with
  | nil => intro c _; rfl
  | cons p ps ih =>
    intro c hp
    have hp0 := hp p List.mem_cons_self
    unfold Match.initiatorFrom
    rw [if_neg (by simp; omega), ih p (fun q hq => hp q (List.mem_cons_of_mem _ hq))]
    cases ps with
    | nil => rfl
    | cons q ps => simp [List.getLast?_cons]

/-- **C31.** In general, the climb from parent to parent ends below the first empty one. -/
theorem C31_climb (m : Match) : m.initiator = topOf m := initiator_top m

/-- **C31.** The length of the initiator. -/
theorem C31_length (m : Match) : m.initLen = (topOf m).stop - (topOf m).start := by
  unfold Match.initLen; rw [initiator_top]

example : (topOf { mk 2 3 with ancestors := [(mk 1 4).core, (mk 0 9).core] }).stop = 9 ∧
    (topOf { mk 2 3 with ancestors := [(mk 1 4).core, (mk 5 5).core, (mk 0 9).core] }).stop = 4 := by decide

/-- `leaf` is a leaf of the tree (a match without children). -/
inductive Spec.IsLeaf : MTree → Match → Prop
  | here (m : Match) : IsLeaf (.node m []) m
  | child (m : Match) (cs : List MTree) (c : MTree) (x : Match) : c ∈ cs → IsLeaf c x → IsLeaf (.node m cs) x

theorem mem_namesList (cs : List MTree) (n : Option String) : n ∈ MTree.namesList cs ↔ ∃ c ∈ cs, n ∈ c.names := by
  induction cs with
  | nil => simp [MTree.namesList]
  | cons c cs ih => simp [MTree.namesList, ih]

/-- **C31.** `names`: exactly the names of the leaves below the match (its own name when it has no children). -/
theorem C31_names (t : MTree) (n : Option String) : n ∈ t.names ↔ ∃ x, IsLeaf t x ∧ x.name = n := by
  constructor
  · suffices H : ∀ k (t : MTree), sizeOf t ≤ k → n ∈ t.names → ∃ x, IsLeaf t x ∧ x.name = n from H _ t (Nat.le_refl _)
    intro k
    induction k with
    | zero => intro t ht; cases t; simp at ht
    | succ k ih =>
      intro t ht hn
      cases t with
      | node m cs =>
        cases cs with
        | nil => simp only [MTree.names, List.mem_singleton] at hn; exact ⟨m, .here m, hn.symm⟩
        | cons c cs =>
          simp only [MTree.names] at hn
          obtain ⟨d, hd, hnd⟩ := (mem_namesList _ _).1 hn
          have hsz : sizeOf d < sizeOf (c :: cs) := List.sizeOf_lt_of_mem hd
          have hsz2 : sizeOf (MTree.node m (c :: cs)) = 1 + sizeOf m + sizeOf (c :: cs) := by simp [MTree.node.sizeOf_spec]
          obtain ⟨x, hx, hxn⟩ := ih d (by omega) hnd
          exact ⟨x, .child m _ d x hd hx, hxn⟩
  · rintro ⟨x, hx, rfl⟩
    induction hx with
    | here m => simp [MTree.names]
    | child m cs c x hc _ ih =>
      cases cs with
      | nil => cases hc
      | cons d cs => simp only [MTree.names]; exact (mem_namesList _ _).2 ⟨c, hc, ih⟩

/-- **C31.** `m.named(*names)`: at least one of the names given is the name of a leaf below the match. -/
theorem C31_named (t : MTree) (ns : List String) : t.isNamed ns = true ↔ ∃ n ∈ ns, ∃ x, IsLeaf t x ∧ x.name = some n := by
  unfold MTree.isNamed
  simp only [List.any_eq_true, List.contains_iff_mem, C31_names]

/-- **C31.** `m.tagged(*tags)`: at least one of the tags given is a tag of the match. -/
theorem C31_tagged (m : Match) (ts : List String) : m.tagged ts = true ↔ ∃ t ∈ ts, t ∈ m.tags := by
  unfold Match.tagged
  simp only [List.any_eq_true, List.contains_iff_mem]

example : (mk 0 1 none ["a"]).tagged ["b", "a"] = true ∧ (mk 0 1 none ["a"]).tagged ["b"] = false ∧ (mk 0 1 none ["a"]).tagged [] = false := by
  decide

example : (MTree.node (mk 0 9 (some "p")) [.node (mk 0 2 (some "a")) [], .node (mk 3 9 (some "q")) [.node (mk 3 4 (some "b")) []]]).names =
    [some "a", some "b"] := by simp [MTree.names, MTree.namesList, mk]

example : let m := { mk 3 4 with ancestors := [(mk 2 5).core, (mk 0 9).core] }
    (∀ p ∈ m.ancestors, p.start ≠ p.stop) ∧ m.initiator = (mk 0 9).core := by decide

end Rebulk
