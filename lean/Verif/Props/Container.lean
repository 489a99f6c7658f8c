import Verif.Lemmas.Container
/-!
# Properties of the containers: C01 – C07, C18 – C20

`Matches.step` performs one call on a container and returns the new state and what the caller sees; `Matches.runOps`
performs a history of calls. `s.delegate` is what iterating over the container yields.
-/
namespace Rebulk
open Matches Spec

instance (b : Bool) (op : Op) : Decidable (Fits b op) := by unfold Fits; infer_instance
instance (l : List Match) : Decidable (NoEqual l) := by unfold NoEqual; infer_instance

/-- Sample matches for the examples. -/
def mk (a b : Int) (n : Option String := none) (t : List String := []) : Match := { start := a, stop := b, name := n, tags := t }

/-! ## C01 -/

/-- **C01.** After any history of adding, removing and lookup calls, every lookup returns exactly the contained matches with
the requested attribute, with multiplicities, up to `==`. (A name is a non-empty string; `named("")` is always empty. A
match carrying a tag several times is returned as many times.) -/
theorem C01_lookups_coherent (isMarkers : Bool) (input : Option Str) (ops : List Op)
    (hops : ∀ op ∈ ops, (isAddRemove op || isLookup op) = true ∧ Fits isMarkers op) :
    let s := (empty isMarkers input).runOps ops
    (∀ n, n ≠ "" → ∃ r, (s.step (.named [n])).2 = .list r ∧ SameUpToEq r (Spec.named s.delegate n)) ∧
    (∃ r, (s.step (.named [""])).2 = .list r ∧ r = []) ∧
    (∀ t, ∃ r, (s.step (.tagged t)).2 = .list r ∧ SameUpToEq r (Spec.taggedTimes s.delegate t)) ∧
    (∀ i, ∃ r, (s.step (.starting i)).2 = .list r ∧ SameUpToEq r (Spec.starting s.delegate i)) ∧
    (∀ i, ∃ r, (s.step (.ending i)).2 = .list r ∧ SameUpToEq r (Spec.ending s.delegate i)) ∧
    (∀ i, ∃ r, (s.step (.atIndex i)).2 = .list r ∧ SameUpToEq r (Spec.covering s.delegate i)) := by
  intro s
  have hi : Inv s := (inv_run (inv_empty isMarkers input) ops hops).1
  refine ⟨?_, ?_, ?_, ?_, ?_, ?_⟩
  · intro n hn
    refine ⟨_, rfl, ?_⟩
    rw [(named_spec s [n]).2]
    simpa [fromKeys] using hi.seesName hn
  · refine ⟨_, rfl, ?_⟩
    rw [(named_spec s [""]).2]
    have := hi.viewName ""
    rw [filed_name_empty] at this
    simpa [fromKeys] using this.length_eq
  · intro t; exact ⟨_, rfl, hi.seesTag t⟩
  · intro i; exact ⟨_, rfl, hi.seesStart i⟩
  · intro i; exact ⟨_, rfl, hi.seesEnd i⟩
  · intro i; exact ⟨_, rfl, hi.seesIndex i⟩

/-- A history meeting the hypotheses of C01: lookups between the changes, insertion in the middle, removal, negative index. -/
example : ∀ op ∈ [Op.append (mk 0 3 (some "a") ["x", "x"]), .named ["a"], .atIndex 1, .insert 0 (mk 2 5 (some "b")), .tagged "x",
      .extend [mk 0 3 (some "a"), mk 7 7], .remove (mk 0 3 (some "a")), .ending 5, .pop (-1), .previous (mk 6 9), .clear],
    (isAddRemove op || isLookup op) = true ∧ Fits false op := by decide

/-- Multiplicities without repeated tags: the tagged matches. -/
theorem C01_tagged_simple (l : List Match) (t : String) (h : ∀ m ∈ l, m.tags.Nodup) :
    Spec.taggedTimes l t = Spec.tagged l t := filed_tag l t h

example : ∀ m ∈ [mk 0 3 none ["x", "y"], mk 1 2], m.tags.Nodup := by decide

/-- **C01**, several names: `named(n1, n2, ...)` is the concatenation over the distinct given names in the order given. -/
theorem C01_named_many (isMarkers : Bool) (input : Option Str) (ops : List Op)
    (hops : ∀ op ∈ ops, (isAddRemove op || isLookup op) = true ∧ Fits isMarkers op) (ns : List String) (hns : "" ∉ ns)
    (hnd : ns.Nodup) :
    let s := (empty isMarkers input).runOps ops
    ∃ r, (s.step (.named ns)).2 = .list r ∧ SameUpToEq r (ns.flatMap (Spec.named s.delegate)) := by
  intro s
  have hi : Inv s := (inv_run (inv_empty isMarkers input) ops hops).1
  refine ⟨_, rfl, ?_⟩
  rw [(named_spec s ns).2]
  have hfk : fromKeys ns = ns := by
    unfold fromKeys
    suffices h : ∀ (l acc : List String), (acc ++ l).Nodup →
        l.foldl (fun acc a => if acc.contains a then acc else acc ++ [a]) acc = acc ++ l by
      simpa using h ns [] (by simpa using hnd)
    intro l
    induction l with
    | nil => intro acc _; simp
    | cons a l ih =>
      intro acc h
      have ha : a ∉ acc := by
        intro hc
        rw [List.nodup_append] at h
        exact h.2.2 a hc a List.mem_cons_self rfl
      simp only [List.foldl_cons]
      rw [if_neg (by simpa using ha), ih _ (by simpa using h)]
      simp
  rw [hfk]
  intro e
  rw [List.countP_flatMap, List.countP_flatMap]
  congr 1
  apply List.map_congr_left
  intro n hn
  simp only [Function.comp]
  exact hi.seesName (fun hc => hns (hc ▸ hn)) e

example : "" ∉ ["a", "b"] ∧ ["a", "b"].Nodup := by decide

/-! ## C02 -/

/-- **C02 is false**: after `m[0] = new`, a lookup built before still returns the replaced match. -/
theorem C02_setItem_refuted :
    ∃ (ops : List Op) (i : Int), (∀ op ∈ ops, Fits false op) ∧
      let s := (empty false none).runOps ops
      ∃ r, (s.step (.starting i)).2 = .list r ∧ ¬ SameUpToEq r (Spec.starting s.delegate i) := by
  refine ⟨[.append (mk 0 3), .starting 0, .setItem 0 (mk 5 8)], 0, by decide, _, rfl, ?_⟩
  intro h
  have := h (mk 0 3)
  revert this
  decide

/-- **C02, partial**: item assignment and `reverse()` are coherent as long as no lookup and no removal happened before the
last of them (missing: assignment after a lookup or a removal, false by `C02_setItem_refuted`). -/
theorem C02_setItem_partial (isMarkers : Bool) (input : Option Str) (ops₁ ops₂ : List Op)
    (h₁ : ∀ op ∈ ops₁, Spec.isBlind op = true ∧ Fits isMarkers op)
    (h₂ : ∀ op ∈ ops₂, (isAddRemove op || isLookup op) = true ∧ Fits isMarkers op) :
    let s := (empty isMarkers input).runOps (ops₁ ++ ops₂)
    (∀ n, n ≠ "" → ∃ r, (s.step (.named [n])).2 = .list r ∧ SameUpToEq r (Spec.named s.delegate n)) ∧
    (∀ t, ∃ r, (s.step (.tagged t)).2 = .list r ∧ SameUpToEq r (Spec.taggedTimes s.delegate t)) ∧
    (∀ i, ∃ r, (s.step (.starting i)).2 = .list r ∧ SameUpToEq r (Spec.starting s.delegate i)) ∧
    (∀ i, ∃ r, (s.step (.ending i)).2 = .list r ∧ SameUpToEq r (Spec.ending s.delegate i)) ∧
    (∀ i, ∃ r, (s.step (.atIndex i)).2 = .list r ∧ SameUpToEq r (Spec.covering s.delegate i)) := by
  intro s
  have h0 : FreshInv isMarkers (empty isMarkers input) :=
    ⟨⟨rfl, rfl, rfl, rfl, rfl⟩, by simp [empty], by simp [empty], rfl, by simp [empty]⟩
  have hF : FreshInv isMarkers ((empty isMarkers input).runOps ops₁) := freshInv_run h0 ops₁ h₁
  have hI : Inv ((empty isMarkers input).runOps ops₁) := by
    obtain ⟨h1, h2, h3, h4, h5⟩ := hF.fresh
    refine ⟨?_, ?_, ?_, ?_, ?_, hF.bound, hF.nonneg⟩
    · rw [h1]; exact CohO_none _ _
    · rw [h2]; exact CohO_none _ _
    · rw [h3]; exact CohO_none _ _
    · rw [h4]; exact CohO_none _ _
    · rw [h5]; exact CohO_none _ _
  have hs : s = ((empty isMarkers input).runOps ops₁).runOps ops₂ := by
    simp only [s, runOps, List.foldl_append]
  have hi : Inv s := by rw [hs]; exact (inv_run hI ops₂ (by rw [hF.kind]; exact h₂)).1
  refine ⟨?_, fun t => ⟨_, rfl, hi.seesTag t⟩, fun i => ⟨_, rfl, hi.seesStart i⟩, fun i => ⟨_, rfl, hi.seesEnd i⟩,
    fun i => ⟨_, rfl, hi.seesIndex i⟩⟩
  intro n hn
  refine ⟨_, rfl, ?_⟩
  rw [(named_spec s [n]).2]
  simpa [fromKeys] using hi.seesName hn

example : (∀ op ∈ [Op.append (mk 0 3), .append (mk 4 6), .setItem 0 (mk 5 8), .reverse], Spec.isBlind op = true ∧ Fits false op) ∧
    (∀ op ∈ [Op.starting 0, .remove (mk 4 6)], (isAddRemove op || isLookup op) = true ∧ Fits false op) := by decide

/-! ## C03 -/

/-- **C03.** For histories of adding at the end, removing and looking up that never hold two equal matches, lookups return
literally the filtered sequence, in order. -/
theorem C03_lookups_ordered (isMarkers : Bool) (input : Option Str) (ops : List Op)
    (hops : ∀ op ∈ ops, (isAppendRemove op || isLookup op) = true ∧ Fits isMarkers op)
    (hne : ∀ n, NoEqual ((empty isMarkers input).runOps (ops.take n)).delegate) :
    let s := (empty isMarkers input).runOps ops
    (∀ n, n ≠ "" → (s.step (.named [n])).2 = .list (Spec.named s.delegate n)) ∧
    (∀ t, (s.step (.tagged t)).2 = .list (Spec.taggedTimes s.delegate t)) ∧
    (∀ i, (s.step (.starting i)).2 = .list (Spec.starting s.delegate i)) ∧
    (∀ i, (s.step (.ending i)).2 = .list (Spec.ending s.delegate i)) ∧
    (∀ i, (s.step (.atIndex i)).2 = .list (Spec.covering s.delegate i)) := by
  intro s
  have he : Exact s := exact_run (inv_empty isMarkers input) (exact_empty isMarkers input) ops hops hne
  refine ⟨?_, ?_, ?_, ?_, ?_⟩
  · intro n hn
    show Out.list (s.named [n]).2 = _
    rw [(named_spec s [n]).2]
    simp only [fromKeys, List.foldl_cons, List.foldl_nil, List.contains_nil, Bool.false_eq_true, if_false,
      List.nil_append, List.flatMap_cons, List.flatMap_nil, List.append_nil]
    rw [he.viewName, filed_name _ hn]
  · intro t; exact congrArg Out.list (he.viewTag t)
  · intro i; exact congrArg Out.list ((he.viewStart i).trans (filed_start _ _))
  · intro i; exact congrArg Out.list ((he.viewEnd i).trans (filed_end _ _))
  · intro i; exact congrArg Out.list ((he.viewIndex i).trans (filed_index _ _))

/-- A history meeting the hypotheses of C03: the same match is added, removed and added again between lookups. -/
example : let ops := [Op.append (mk 0 3 (some "a")), .atIndex 1, .append (mk 2 5), .remove (mk 0 3 (some "a")), .append (mk 0 3 (some "a"))]
    (∀ op ∈ ops, (isAppendRemove op || isLookup op) = true ∧ Fits false op) ∧
    (∀ n, NoEqual ((empty false none).runOps (ops.take n)).delegate) := by
  refine ⟨by decide, ?_⟩
  intro n
  match n with
  | 0 => decide
  | 1 => decide
  | 2 => decide
  | 3 => decide
  | 4 => decide
  | n + 5 => rw [List.take_of_length_le (by simp)]; decide

/-- Equal matches are allowed when matches are removed by value only (`remove`, `clear`): the first equal one goes, everywhere. -/
theorem C03_equal_matches (isMarkers : Bool) (input : Option Str) (ops : List Op)
    (hops : ∀ op ∈ ops, (isByValue op || isLookup op) = true ∧ Fits isMarkers op) :
    let s := (empty isMarkers input).runOps ops
    (∀ n, n ≠ "" → (s.step (.named [n])).2 = .list (Spec.named s.delegate n)) ∧
    (∀ t, (s.step (.tagged t)).2 = .list (Spec.taggedTimes s.delegate t)) ∧
    (∀ i, (s.step (.starting i)).2 = .list (Spec.starting s.delegate i)) ∧
    (∀ i, (s.step (.ending i)).2 = .list (Spec.ending s.delegate i)) ∧
    (∀ i, (s.step (.atIndex i)).2 = .list (Spec.covering s.delegate i)) := by
  intro s
  have he : Exact s := (exact_byValue_run (inv_empty isMarkers input) (exact_empty isMarkers input) ops hops).2.1
  refine ⟨?_, ?_, ?_, ?_, ?_⟩
  · intro n hn
    show Out.list (s.named [n]).2 = _
    rw [(named_spec s [n]).2]
    simp only [fromKeys, List.foldl_cons, List.foldl_nil, List.contains_nil, Bool.false_eq_true, if_false,
      List.nil_append, List.flatMap_cons, List.flatMap_nil, List.append_nil]
    rw [he.viewName, filed_name _ hn]
  · intro t; exact congrArg Out.list (he.viewTag t)
  · intro i; exact congrArg Out.list ((he.viewStart i).trans (filed_start _ _))
  · intro i; exact congrArg Out.list ((he.viewEnd i).trans (filed_end _ _))
  · intro i; exact congrArg Out.list ((he.viewIndex i).trans (filed_index _ _))

example : (∀ op ∈ [Op.append (mk 0 3 none ["a"]), .append (mk 0 3 none ["b"]), .starting 0, .tagged "b", .remove (mk 0 3)],
      (isByValue op || isLookup op) = true ∧ Fits false op) ∧
    ((empty false none).runOps [Op.append (mk 0 3 none ["a"]), .append (mk 0 3 none ["b"]), .starting 0, .tagged "b", .remove (mk 0 3)]).delegate.map Match.tags = [["b"]] := by
  decide

/-- Not with `pop`: the last of two equal matches is taken out of the sequence, and the first one out of the lookup tables, which then show
a match that is no longer there (equal, but another object). -/
theorem C03_pop_refuted : ∃ ops : List Op, (∀ op ∈ ops, (isAppendRemove op || isLookup op) = true ∧ Fits false op) ∧
    let s := (empty false none).runOps ops
    s.delegate.map Match.tags = [["a"]] ∧ ∃ l, (s.step (.starting 0)).2 = .list l ∧ l.map Match.tags = [["b"]] :=
  ⟨[.append (mk 0 3 none ["a"]), .append (mk 0 3 none ["b"]), .starting 0, .pop (-1)], by decide, by decide, _, rfl, by decide⟩

/-! ## C04 -/

/-- **C04.** A container behaves as a Python list under adding, removing and lookup calls: same content, same exceptions;
lookups never change the sequence. -/
theorem C04_behaves_like_list (isMarkers : Bool) (input : Option Str) (ops : List Op)
    (hops : ∀ op ∈ ops, (isAddRemove op || isLookup op) = true ∧ Fits isMarkers op) :
    let s := (empty isMarkers input).runOps ops
    s.delegate = listRun [] ops ∧ s.length = (listRun [] ops).length ∧
    (∀ i, s.getItem i = match pyGet (listRun [] ops) i with | some m => .ok m | none => .error .indexError) ∧
    (∀ op, isAddRemove op = true → Fits isMarkers op →
      (s.step op).1.delegate = (listStep s.delegate op).1 ∧ raisedBy (s.step op).2 = (listStep s.delegate op).2) ∧
    (∀ i k, normIdx s.delegate.length i = some k → ∃ m, s.delegate[k]? = some m ∧ (s.step (.pop i)).2 = .one m) ∧
    (∀ op, isLookup op = true → (s.step op).1.delegate = s.delegate) := by
  intro s
  have h := inv_run (inv_empty isMarkers input) ops hops
  have hd : s.delegate = listRun [] ops := h.2.1
  refine ⟨hd, by rw [← hd]; rfl, by intro i; rw [← hd]; rfl, ?_, ?_, ?_⟩
  · intro op ho hf
    have := step_addRemove h.1 op ho (by rw [h.2.2]; exact hf)
    exact ⟨this.2.1, this.2.2.1⟩
  · intro i k hk
    obtain ⟨⟨m, hm, hp⟩, _⟩ := inv_pop h.1 hk
    refine ⟨m, hm, ?_⟩
    simp only [step, s, hp]; rfl
  · intro op ho; exact (step_lookup_sim s op ho).delegate

example : let ops := [Op.append (mk 0 3), .insert (-5) (mk 2 4), .starting 2, .remove (mk 9 9), .pop 7, .delItem (-1)]
    (∀ op ∈ ops, (isAddRemove op || isLookup op) = true ∧ Fits false op) ∧ (listRun [] ops).map Match.span = [(2, 4)] := by decide

/-! ## C05 -/

/-- **C05 is false**: asking for a name makes it appear in `names`; and the name of a removed match stays. -/
theorem C05_names_refuted :
    (∃ ops : List Op, (∀ op ∈ ops, (isAddRemove op || isLookup op) = true ∧ Fits false op) ∧
      let s := (empty false none).runOps ops
      s.delegate = [] ∧ (s.step .names).2 = .keys ["x"]) ∧
    (∃ ops : List Op, (∀ op ∈ ops, (isAddRemove op || op matches .names) = true ∧ Fits false op) ∧
      let s := (empty false none).runOps ops
      s.delegate = [] ∧ (s.step .names).2 = .keys ["a"]) := by
  constructor
  · exact ⟨[.named ["x"]], by decide, rfl, rfl⟩
  · exact ⟨[.append (mk 0 3 (some "a")), .names, .remove (mk 0 3 (some "a"))], by decide, rfl, rfl⟩

/-- **C05, partial**: `names` (`tags`) always contains every (non-empty) name (tag) present, and it is exact when the name
index is built by this very call (missing: exactness after `named(unknown)` or removals, false by
`C05_names_refuted`). -/
theorem C05_names_partial (isMarkers : Bool) (input : Option Str) (ops : List Op)
    (hops : ∀ op ∈ ops, (isAddRemove op || isLookup op) = true ∧ Fits isMarkers op) :
    let s := (empty isMarkers input).runOps ops
    (∃ ks, (s.step .names).2 = .keys ks ∧ (∀ m ∈ s.delegate, ∀ n, m.name = some n → n ≠ "" → n ∈ ks) ∧
      (s.nameD = none → ∀ n, n ∈ ks → n ≠ "" ∧ ∃ m ∈ s.delegate, m.name = some n)) ∧
    (∃ ks, (s.step .tags).2 = .keys ks ∧ (∀ m ∈ s.delegate, ∀ t ∈ m.tags, t ∈ ks) ∧
      (s.tagD = none → ∀ t, t ∈ ks → ∃ m ∈ s.delegate, t ∈ m.tags)) := by
  intro s
  have hi : Inv s := (inv_run (inv_empty isMarkers input) ops hops).1
  refine ⟨⟨_, rfl, ?_, ?_⟩, ⟨_, rfl, ?_, ?_⟩⟩
  · intro m hm n hn h0
    apply mem_keys_of_getList_ne
    intro hc
    have := hi.viewName n
    rw [hc, filed_name _ h0] at this
    have hmem : m ∈ Spec.named s.delegate n := by simp [Spec.named, hm, hn]
    have := this.length_eq
    simp only [List.map_nil, List.length_nil, List.length_map] at this
    rw [List.length_eq_zero_iff.1 this.symm] at hmem
    cases hmem
  · intro hf n hn
    simp only [Matches.names] at hn
    rw [show s.nameDict = buildName s.delegate by simp [nameDict, hf]] at hn
    exact (mem_names_build _ _).1 hn
  · intro m hm t ht
    apply mem_keys_of_getList_ne
    intro hc
    have := hi.viewTag t
    rw [hc] at this
    have hmem : m ∈ filed tagKeys s.delegate t := by
      simp only [filed, List.mem_flatMap]
      refine ⟨m, hm, ?_⟩
      rw [List.mem_replicate]
      exact ⟨by have := List.count_pos_iff.2 ht; simp only [tagKeys]; omega, rfl⟩
    have := this.length_eq
    simp only [List.map_nil, List.length_nil, List.length_map] at this
    rw [List.length_eq_zero_iff.1 this.symm] at hmem
    cases hmem
  · intro hf t ht
    simp only [Matches.tags] at ht
    rw [show s.tagDict = buildTag s.delegate by simp [tagDict, hf]] at ht
    unfold buildTag buildEach at ht
    have aux : ∀ (l : List Match) (d : Index String),
        t ∈ Dict.keys (l.foldl (fun d m => (tagKeys m).foldl (fun d k => d.append k m) d) d) →
        t ∈ d.keys ∨ ∃ m ∈ l, t ∈ m.tags := by
      intro l
      induction l with
      | nil => intro d h; exact Or.inl h
      | cons m l ih =>
        intro d h
        rw [List.foldl_cons] at h
        rcases ih _ h with h | ⟨x, hx, hxt⟩
        · have inner : ∀ (ks : List String) (d : Index String), t ∈ Dict.keys (ks.foldl (fun d k => d.append k m) d) →
              t ∈ d.keys ∨ t ∈ ks := by
            intro ks
            induction ks with
            | nil => intro d h; exact Or.inl h
            | cons k ks ihk =>
              intro d h
              rw [List.foldl_cons] at h
              rcases ihk _ h with h | h
              · rcases (Dict.mem_keys_append _ _ _ _).1 h with rfl | h
                · exact Or.inr List.mem_cons_self
                · exact Or.inl h
              · exact Or.inr (List.mem_cons_of_mem _ h)
          rcases inner _ _ h with h | h
          · exact Or.inl h
          · exact Or.inr ⟨m, List.mem_cons_self, h⟩
        · exact Or.inr ⟨x, List.mem_cons_of_mem _ hx, hxt⟩
    rcases aux _ _ ht with h | h
    · simp [Dict.keys] at h
    · exact h

/-- Hypotheses of `C05_names_partial` with an unbuilt name index and a non-empty content. -/
example : let ops := [Op.append (mk 0 3 (some "a") ["t"]), .starting 0, .append (mk 1 2 (some "b")), .remove (mk 0 3 (some "a"))]
    (∀ op ∈ ops, (isAddRemove op || isLookup op) = true ∧ Fits false op) ∧
    ((empty false none).runOps ops).nameD.isNone = true ∧ ((empty false none).runOps ops).delegate.length = 1 := by decide

/-! ## C06 -/

/-- **C06.** `range(start, end)` returns the stable sort by `(start, end)` of exactly the contained matches that overlap
`[start, end)` (of those whose end is after `start` when `end` is omitted), for a container of non-empty matches. -/
theorem C06_range (isMarkers : Bool) (input : Option Str) (ops : List Op)
    (hops : ∀ op ∈ ops, (isAddRemove op || isLookup op) = true ∧ Fits isMarkers op) (start : Int) :
    let s := (empty isMarkers input).runOps ops
    (∀ m ∈ s.delegate, m.start < m.stop) →
    (∀ e, IsStableSort lexLe Match.span (s.delegate.filter (fun m => decide (m.start < e ∧ start < m.stop)))
      (s.range start (some e))) ∧
    IsStableSort lexLe Match.span (s.delegate.filter (fun m => decide (start < m.stop))) (s.range start none) := by
  intro s hne
  have hi : Inv s := (inv_run (inv_empty isMarkers input) ops hops).1
  have hmax : ∀ m ∈ s.delegate, m.stop ≤ s.maxEndP := by
    intro m hm
    have := hi.bound m hm
    unfold maxEndP
    split
    · exact this
    · split <;> omega
  have hsort := sorted_matches s.delegate
  refine ⟨?_, ?_⟩
  · intro e
    have h := IsStableSort.filter hsort (fun m => decide (m.start < s.clampEnd (some e)) && decide (m.stop > start))
    have hc : s.delegate.filter (fun m => decide (m.start < s.clampEnd (some e)) && decide (m.stop > start)) =
        s.delegate.filter (fun m => decide (m.start < e ∧ start < m.stop)) := by
      apply List.filter_congr
      intro m hm
      have h1 := hne m hm; have h2 := hmax m hm
      have h3 : s.clampEnd (some e) = min s.maxEndP e := rfl
      rw [Bool.eq_iff_iff, h3]
      simp only [Bool.and_eq_true, decide_eq_true_eq]
      omega
    rw [hc] at h
    exact h
  · have h := IsStableSort.filter hsort (fun m => decide (m.start < s.clampEnd none) && decide (m.stop > start))
    have hc : s.delegate.filter (fun m => decide (m.start < s.clampEnd none) && decide (m.stop > start)) =
        s.delegate.filter (fun m => decide (start < m.stop)) := by
      apply List.filter_congr
      intro m hm
      have h1 := hne m hm; have h2 := hmax m hm
      have h3 : s.clampEnd none = s.maxEndP := rfl
      rw [Bool.eq_iff_iff, h3]
      simp only [Bool.and_eq_true, decide_eq_true_eq]
      omega
    rw [hc] at h
    exact h

/-- The stable sort is unique, so C06 determines the result. -/
theorem C06_sort_unique {l r r' : List Match} (h : IsStableSort lexLe Match.span l r)
    (h' : IsStableSort lexLe Match.span l r') : r = r' :=
  IsStableSort.unique (fun a b => lexLe_antisymm a b) (fun a => by unfold lexLe; omega) h h'

example : let s := (empty false none).runOps [.append (mk 4 6), .append (mk 0 3), .append (mk 0 3 (some "a")), .remove (mk 0 3)]
    (∀ m ∈ s.delegate, m.start < m.stop) ∧ (s.range 1 (some 5)).map Match.span = [(0, 3), (4, 6)] := by decide

/-! ## C07 -/

/-- **C07 is false** for the minimality: removing the match with the greatest end does not lower `max_end`, and a mere
lookup can raise the value it takes at a later removal. -/
theorem C07_max_end_refuted :
    (∃ ops : List Op, (∀ op ∈ ops, isAddRemove op = true ∧ Fits false op) ∧
      let s := (empty false none).runOps ops
      s.delegate = [] ∧ s.maxEndP = 5) ∧
    (∃ ops : List Op, (∀ op ∈ ops, (isAddRemove op || isLookup op) = true ∧ Fits false op) ∧
      let s := (empty false none).runOps ops
      s.delegate = [] ∧ s.maxEndP = 1000) := by
  constructor
  · exact ⟨[.append (mk 0 5), .delItem 0], by decide, rfl, rfl⟩
  · exact ⟨[.append (mk 0 5), .ending 1000, .delItem 0], by decide, rfl, rfl⟩

/-- **C07, partial**: `max_end` is never below the end of a contained match nor below the input length, whatever the history;
and it is the least such value for histories that never remove (missing: minimality after removals, false by
`C07_max_end_refuted`). -/
theorem C07_max_end_partial (isMarkers : Bool) (input : Option Str) (ops : List Op)
    (hops : ∀ op ∈ ops, (isAddRemove op || isLookup op) = true ∧ Fits isMarkers op) :
    let s := (empty isMarkers input).runOps ops
    (∀ m ∈ s.delegate, m.stop ≤ s.maxEndP) ∧ (∀ str, input = some str → (str.length : Int) ≤ s.maxEndP) ∧
    ((∀ op ∈ ops, (Spec.isAdd op || isLookup op) = true) →
      s.maxEndP = 0 ∨ (∃ str, input = some str ∧ s.maxEndP = str.length) ∨ ∃ m ∈ s.delegate, m.stop = s.maxEndP) := by
  intro s
  have hrun := inv_run (inv_empty isMarkers input) ops hops
  have hi : Inv s := hrun.1
  have hin : ∀ (t : Matches), t.isMarkers = isMarkers → t.inputString = input → Tight t → 0 ≤ t.maxEnd → ∀ (os : List Op),
      (∀ op ∈ os, (Spec.isAdd op || isLookup op) = true ∧ Fits isMarkers op) →
      Tight (t.runOps os) := by
    intro t hk hin ht hn os
    induction os generalizing t with
    | nil => intro _; exact ht
    | cons op os ih =>
      intro ho
      have h0 := ho op List.mem_cons_self
      have hrest : ∀ o ∈ os, (Spec.isAdd o || isLookup o) = true ∧ Fits isMarkers o := fun o h => ho o (List.mem_cons_of_mem _ h)
      rcases Bool.or_eq_true _ _ |>.mp h0.1 with ha | hl
      · have hf := h0.2
        rw [← hk] at hf
        have hex : ∀ (ms : List Match) (t : Matches), (t.extend ms).1.isMarkers = t.isMarkers ∧
            (t.extend ms).1.inputString = t.inputString := by
          intro ms
          induction ms with
          | nil => intro t; exact ⟨rfl, rfl⟩
          | cons m ms ihm =>
            intro t
            have hst := append_static t m
            unfold extend
            cases hap : t.append m with
            | mk t' e =>
              rw [hap] at hst
              cases e with
              | none => exact ⟨(ihm t').1.trans hst.1, (ihm t').2.trans hst.2⟩
              | some e => exact hst
        cases op with
        | append m =>
          have := tight_insert ht hn t.length m (hf m (by simp [added]))
          exact ih _ ((append_static t m).1.trans hk) ((append_static t m).2.trans hin) this.1 this.2 hrest
        | insert i m =>
          have := tight_insert ht hn i m (hf m (by simp [added]))
          exact ih _ ((insert_static t i m).1.trans hk) ((insert_static t i m).2.trans hin) this.1 this.2 hrest
        | extend ms =>
          have := tight_extend ht hn ms hf
          exact ih _ ((hex ms t).1.trans hk) ((hex ms t).2.trans hin) this.1 this.2 hrest
        | remove | pop | delItem | clear | delSlice | setItem | reverse | named | tagged | starting | ending | atIndex | names
        | tags | previous | next | conflicting | atSpan | chainBefore | chainAfter | holes => cases ha
      · have hs := step_lookup_sim t op hl
        refine ih (t.step op).1 (hs.markers.trans hk) (hs.input.trans hin) ?_ (by rw [hs.maxEnd]; exact hn) hrest
        unfold Tight at ht ⊢
        rw [hs.maxEnd, hs.delegate]; exact ht
  have hstatic : s.inputString = input := by
    have : ∀ (os : List Op) (t : Matches), Inv t → (∀ op ∈ os, (isAddRemove op || isLookup op) = true ∧ Fits t.isMarkers op) →
        (t.runOps os).inputString = t.inputString := by
      intro os
      induction os with
      | nil => intro t _ _; rfl
      | cons op os ih =>
        intro t hti ho
        have h0 := ho op List.mem_cons_self
        have hone : (t.step op).1.inputString = t.inputString := by
          have hdel : ∀ (t : Matches) (i : Int), (t.delItem i).1.inputString = t.inputString := by
            intro t i
            unfold delItem
            split
            · rfl
            · split
              · rfl
              · exact (removeMatch_input _ _).1
          have hex : ∀ (ms : List Match) (t : Matches), (t.extend ms).1.inputString = t.inputString := by
            intro ms
            induction ms with
            | nil => intro t; rfl
            | cons m ms ihm =>
              intro t
              have hst := append_static t m
              unfold extend
              cases hap : t.append m with
              | mk t' e =>
                rw [hap] at hst
                cases e with
                | none => exact (ihm t').trans hst.2
                | some e => exact hst.2
          have hcl : ∀ (n : Nat) (t : Matches), (clearLoop n t).1.inputString = t.inputString := by
            intro n
            induction n with
            | zero => intro t; rfl
            | succ n ihn =>
              intro t
              have hp : (t.pop (-1)).1.inputString = t.inputString := by rw [pop_state]; exact hdel t _
              unfold clearLoop
              cases hpop : t.pop (-1) with
              | mk t' r =>
                rw [hpop] at hp
                cases r with
                | ok m => exact (ihn t').trans hp
                | error e => cases e <;> exact hp
          cases op with
          | append m => exact (append_static t m).2
          | insert i m => exact (insert_static t i m).2
          | extend ms => exact hex ms t
          | remove m => simp only [step, remove]; split
                        · rfl
                        · exact hdel _ _
          | pop i => simp only [step]; rw [pop_state]; exact hdel t i
          | delItem i => exact hdel t i
          | clear => exact hcl _ t
          | delSlice | setItem | reverse => exact absurd h0.1 (by simp [isAddRemove, isLookup])
          | named | tagged | starting | ending | atIndex | names | tags | previous | next | conflicting | atSpan | chainBefore
          | chainAfter | holes => exact (step_lookup_sim t _ rfl).input
        have hnext : Inv (t.step op).1 ∧ (t.step op).1.isMarkers = t.isMarkers := by
          rcases Bool.or_eq_true _ _ |>.mp h0.1 with ha | hl
          · have := step_addRemove hti op ha h0.2; exact ⟨this.1, this.2.2.2⟩
          · have hs := step_lookup_sim t op hl; exact ⟨hti.sim hs, hs.markers⟩
        exact (ih (t.step op).1 hnext.1 (fun o h => by rw [hnext.2]; exact ho o (List.mem_cons_of_mem _ h))).trans hone
    exact this ops _ (inv_empty isMarkers input) hops
  refine ⟨?_, ?_, ?_⟩
  · intro m hm
    have := hi.bound m hm
    unfold maxEndP
    split
    · exact this
    · split <;> omega
  · intro str hstr
    unfold maxEndP
    rw [hstatic, hstr]
    simp only
    split
    · next he =>
      have : str = [] := by simpa using he
      subst this
      exact hi.nonneg
    · omega
  · intro hadd
    have ht := hin (empty isMarkers input) rfl rfl (Or.inl rfl) (by simp [empty]) ops
      (fun op ho => ⟨hadd op ho, (hops op ho).2⟩)
    have ht : Tight s := ht
    unfold maxEndP
    rw [hstatic]
    cases hin' : input with
    | none => exact ht.elim Or.inl (fun h => Or.inr (Or.inr h))
    | some str =>
      simp only
      split
      · exact ht.elim Or.inl (fun h => Or.inr (Or.inr h))
      · by_cases hc : s.maxEnd ≤ str.length
        · right; left; exact ⟨str, rfl, by omega⟩
        · rcases ht with h | ⟨m, hm, hm'⟩
          · exact absurd h (by omega)
          · right; right; exact ⟨m, hm, by omega⟩

example : let ops := [Op.append (mk 0 5), .ending 1000, .insert 0 (mk 2 9)]
    (∀ op ∈ ops, (isAddRemove op || isLookup op) = true ∧ Fits false op) ∧ (∀ op ∈ ops, (Spec.isAdd op || isLookup op) = true) ∧
    ((empty false (some "abc".toList)).runOps ops).maxEndP = 9 := by decide

/-! ## C18 -/

/-- **C18 is false**: a refused `append` leaves the match in the sequence, so that matches and markers do mix. -/
theorem C18_refused_add_refuted :
    ∃ m : Match, m.marker = true ∧ ((empty false none).step (.append m)).2 = .raised .assertionError ∧
      (((empty false none).step (.append m)).1.delegate).length = 1 := by
  exact ⟨{ start := 0, stop := 3, marker := true }, rfl, rfl, rfl⟩

/-- **C18, partial**: `append`, `insert` and `extend` are refused exactly when a match of the wrong kind is given, and after any
history of add / remove / lookup calls in which none was refused all elements are of the right kind (missing: a refused
call does change the sequence, see `C18_refused_add_refuted`). -/
theorem C18_kinds_partial (s : Matches) :
    (∀ m, (s.step (.append m)).2 = .raised .assertionError ↔ m.marker ≠ s.isMarkers) ∧
    (∀ i m, (s.step (.insert i m)).2 = .raised .assertionError ↔ m.marker ≠ s.isMarkers) ∧
    (∀ ms, (s.step (.extend ms)).2 = .raised .assertionError ↔ ∃ m ∈ ms, m.marker ≠ s.isMarkers) ∧
    (∀ op, (isAddRemove op || isLookup op) = true → Inv s → (∀ x ∈ s.delegate, x.marker = s.isMarkers) →
      (s.step op).2 ≠ .raised .assertionError →
      (s.step op).1.isMarkers = s.isMarkers ∧ ∀ x ∈ (s.step op).1.delegate, x.marker = s.isMarkers) := by
  have hins : ∀ (s : Matches) i m, (s.insert i m).2 = some .assertionError ↔ m.marker ≠ s.isMarkers := by
    intro s i m
    unfold Matches.insert addMatch
    simp only
    by_cases h : m.marker = s.isMarkers <;> simp [h]
  have hins2 : ∀ (s : Matches) i m, (s.insert i m).2 = none ∨ (s.insert i m).2 = some .assertionError := by
    intro s i m
    unfold Matches.insert addMatch
    simp only
    by_cases h : m.marker = s.isMarkers <;> simp [h]
  have hext : ∀ (ms : List Match) (s : Matches), ((s.extend ms).2 = some .assertionError ↔ ∃ m ∈ ms, m.marker ≠ s.isMarkers) ∧
      ((s.extend ms).2 = none ∨ (s.extend ms).2 = some .assertionError) := by
    intro ms
    induction ms with
    | nil => intro s; simp [extend]
    | cons m ms ih =>
      intro s
      have h1 := hins s s.length m
      have h2 := hins2 s s.length m
      have hst := (insert_static s s.length m).1
      unfold extend append
      cases ha : s.insert (s.length : Int) m with
      | mk s' e =>
        rw [ha] at h1 h2 hst
        rcases h2 with rfl | rfl
        · simp only
          have hm : m.marker = s.isMarkers := by
            by_cases h : m.marker = s.isMarkers
            · exact h
            · exact absurd (h1.2 h) (by simp)
          refine ⟨?_, (ih s').2⟩
          rw [(ih s').1, hst]
          simp [hm]
        · exact ⟨⟨fun _ => ⟨m, List.mem_cons_self, h1.1 rfl⟩, fun _ => rfl⟩, Or.inr rfl⟩
  have hof : ∀ o : Option PyErr, Out.ofErr o = .raised .assertionError ↔ o = some .assertionError := by
    intro o; cases o <;> simp [Out.ofErr]
  refine ⟨fun m => ?_, fun i m => ?_, fun ms => ?_, ?_⟩
  · exact (hof _).trans (hins s _ m)
  · exact (hof _).trans (hins s i m)
  · exact (hof _).trans (hext ms s).1
  · intro op hop hi hk hno
    rcases Bool.or_eq_true _ _ |>.mp hop with ha | hl
    · have hfits : Fits s.isMarkers op := by
        intro m hm
        by_cases hmk : m.marker = s.isMarkers
        · exact hmk
        · exfalso
          apply hno
          cases op with
          | append x => simp [added] at hm; subst hm; exact (hof _).2 ((hins s _ m).2 hmk)
          | insert i x => simp [added] at hm; subst hm; exact (hof _).2 ((hins s i m).2 hmk)
          | extend xs => exact (hof _).2 ((hext xs s).1.2 ⟨m, hm, hmk⟩)
          | setItem => cases ha
          | remove | pop | delItem | clear | delSlice | reverse | named | tagged | starting | ending | atIndex | names
          | tags | previous | next | conflicting | atSpan | chainBefore | chainAfter | holes => simp [added] at hm
      have h := step_addRemove hi op ha hfits
      refine ⟨h.2.2.2, ?_⟩
      rw [h.2.1]
      intro x hx
      cases op with
      | append m => simp only [listStep, List.mem_append, List.mem_singleton] at hx
                    rcases hx with hx | rfl
                    · exact hk x hx
                    · exact hfits x (by simp [added])
      | insert i m =>
        have := (List.perm_insertIdx m s.delegate (clampIdx_le s.delegate.length i)).subset hx
        rcases List.mem_cons.1 this with rfl | h'
        · exact hfits x (by simp [added])
        · exact hk x h'
      | extend ms => simp only [listStep, List.mem_append] at hx
                     rcases hx with hx | hx
                     · exact hk x hx
                     · exact hfits x (by simpa [added] using hx)
      | remove m =>
        simp only [listStep] at hx
        split at hx
        · next l' hl' =>
          obtain ⟨a, y, b, e1, e2, _, _⟩ := removeFirst_some _ _ _ hl'
          apply hk x
          rw [e1]; simp only [e2] at hx
          rcases List.mem_append.1 hx with h1 | h1
          · exact List.mem_append_left _ h1
          · exact List.mem_append_right _ (List.mem_cons_of_mem _ h1)
        · exact hk x hx
      | pop i => simp only [listStep] at hx; split at hx
                 · exact hk x (List.mem_of_mem_eraseIdx hx)
                 · exact hk x hx
      | delItem i => simp only [listStep] at hx; split at hx
                     · exact hk x (List.mem_of_mem_eraseIdx hx)
                     · exact hk x hx
      | clear => simp [listStep] at hx
      | delSlice | setItem | reverse | named | tagged | starting | ending | atIndex | names | tags | previous | next
      | conflicting | atSpan | chainBefore | chainAfter | holes => cases ha
    · have hs := step_lookup_sim s op hl
      exact ⟨hs.markers, by rw [hs.delegate]; exact hk⟩

example : let s := (empty true none).runOps [.append { start := 0, stop := 3, marker := true }]
    (∀ x ∈ s.delegate, x.marker = s.isMarkers) ∧ s.delegate.length = 1 := by decide

/-! ## C19 -/

/-- **C19 is false** for markers: slicing a non-empty markers sequence raises `AssertionError`. -/
theorem C19_slice_refuted :
    ∃ s : Matches, (∀ x ∈ s.delegate, x.marker = s.isMarkers) ∧ s.getSlice none none = .error .assertionError := by
  refine ⟨(empty true none).runOps [.append { start := 0, stop := 3, marker := true }], by decide, rfl⟩

/-- **C19, partial**: for a container of non-marker matches `matches[a:b]` is a new coherent container with exactly the slice
(missing: markers, false by `C19_slice_refuted`). -/
theorem C19_slice_partial (s : Matches) (hk : ∀ x ∈ s.delegate, x.marker = false) (a b : Option Int) :
    ∃ s', s.getSlice a b = .ok s' ∧ s'.delegate = pySlice s.delegate a b ∧ s'.isMarkers = false ∧ Inv s' := by
  have hm : ∀ m ∈ pySlice s.delegate a b, m.marker = (empty false none).isMarkers := by
    intro m hm
    unfold pySlice at hm
    exact hk m (List.mem_of_mem_take (List.mem_of_mem_drop hm))
  have h := inv_extend (inv_empty false none) _ hm
  unfold getSlice
  cases he : (empty false none).extend (pySlice s.delegate a b) with
  | mk s' e =>
    rw [he] at h
    obtain rfl : e = none := h.1
    exact ⟨s', rfl, by rw [h.2.2.1]; rfl, h.2.2.2, h.2.1⟩

example : let s := (empty false none).runOps [.append (mk 0 3), .append (mk 4 6), .append (mk 5 8)]
    (∀ x ∈ s.delegate, x.marker = false) ∧ (pySlice s.delegate (some 1) (some (-1))).map Match.span = [(4, 6)] := by decide

/-! ## C20 -/

/-- **C20 is false**: deleting a slice can raise `ValueError` on a coherent container. -/
theorem C20_del_slice_refuted :
    ∃ ops : List Op, (∀ op ∈ ops, isAddRemove op = true ∧ Fits false op) ∧
      (((empty false none).runOps ops).step (.delSlice (some 0) (some 2))).2 = .raised .valueError :=
  ⟨[.append (mk 0 5), .append (mk 0 3)], by decide, rfl⟩

/-- **C20, partial**: when the end index is already built (any `ending` or `previous` lookup does it) or the slice has at most
one element, `del matches[a:b]` removes exactly the slice, raises nothing and keeps the container coherent (missing: the other
case, where it may fail, see `C20_del_slice_refuted`). -/
theorem C20_del_slice_partial (s : Matches) (hi : Inv s) (a b : Option Int)
    (h : s.endD.isSome = true ∨ (pySlice s.delegate a b).length ≤ 1) :
    (s.step (.delSlice a b)).2 = .unit ∧ Inv (s.step (.delSlice a b)).1 ∧
      ∃ pre post, s.delegate = pre ++ pySlice s.delegate a b ++ post ∧ (s.step (.delSlice a b)).1.delegate = pre ++ post := by
  have hsplit : ∃ pre post, s.delegate = pre ++ pySlice s.delegate a b ++ post ∧
      (if (sliceBounds s.delegate.length a b).1 < (sliceBounds s.delegate.length a b).2 then
        s.delegate.take (sliceBounds s.delegate.length a b).1 ++ s.delegate.drop (sliceBounds s.delegate.length a b).2
        else s.delegate) = pre ++ post := by
    have hsl : pySlice s.delegate a b = (s.delegate.take (sliceBounds s.delegate.length a b).2).drop (sliceBounds s.delegate.length a b).1 := by
      unfold pySlice sliceBounds; rfl
    rw [hsl]
    generalize (sliceBounds s.delegate.length a b).1 = lo
    generalize (sliceBounds s.delegate.length a b).2 = hi'
    by_cases hlt : lo < hi'
    · refine ⟨s.delegate.take lo, s.delegate.drop hi', ?_, by rw [if_pos hlt]⟩
      have : s.delegate.take lo = (s.delegate.take hi').take lo := by rw [List.take_take]; congr 1; omega
      rw [this, List.take_append_drop, List.take_append_drop]
    · refine ⟨s.delegate, [], ?_, by rw [if_neg hlt]; simp⟩
      have : (s.delegate.take hi').drop lo = [] := by
        apply List.drop_eq_nil_of_le
        rw [List.length_take]; omega
      simp [this]
  obtain ⟨pre, post, h1, h2⟩ := hsplit
  have hperm : s.delegate.Perm (pySlice s.delegate a b ++ (pre ++ post)) := by
    have e : s.delegate.Perm (pre ++ pySlice s.delegate a b ++ post) := by rw [← h1]
    refine e.trans ?_
    rw [← List.append_assoc]
    exact List.perm_append_comm.append_right post
  simp only [step, delSlice]
  rw [show (if (sliceBounds s.delegate.length a b).1 < (sliceBounds s.delegate.length a b).2 then
      s.delegate.take (sliceBounds s.delegate.length a b).1 ++ s.delegate.drop (sliceBounds s.delegate.length a b).2 else s.delegate)
      = pre ++ post from h2]
  rcases h with he | hlen
  · have := inv_removeAll (pySlice s.delegate a b) (s := { s with delegate := pre ++ post }) (l := s.delegate) hi hperm he
    rw [this.1]
    exact ⟨rfl, this.2.1, pre, post, h1, this.2.2⟩
  · match hsl : pySlice s.delegate a b with
    | [] =>
      simp only [removeAll]
      rw [hsl] at h1
      have hd : s.delegate = pre ++ post := by simpa using h1
      refine ⟨rfl, ?_, pre, post, by simpa using hd, rfl⟩
      rw [← hd]; exact hi
    | [m] =>
      rw [hsl] at hperm h1
      have := inv_remove (s := { s with delegate := pre ++ post }) (l := s.delegate) m hi hperm
      simp only [removeAll]
      cases hr : ({ s with delegate := pre ++ post } : Matches).removeMatch m with
      | mk s' e =>
        rw [hr] at this
        obtain rfl : e = none := this.1
        exact ⟨rfl, this.2.1, pre, post, h1, this.2.2⟩
    | _ :: _ :: _ => rw [hsl] at hlen; simp at hlen

example : let s := (empty false none).runOps [.append (mk 0 5), .append (mk 0 3), .append (mk 6 8), .ending 3]
    s.endD.isSome = true ∧ (pySlice s.delegate (some 0) (some 2)).length = 2 := by decide

end Rebulk
