import Verif.Lemmas.ChainRegular
/-!
# Backtracking over the last part of a chain match
-/
namespace Rebulk
open Spec

theorem rebase_below {old new l : List Core} (h : old <:+ l) : new <:+ rebase old new l := by
  unfold rebase
  rw [if_pos (by rw [List.isSuffixOf_iff_suffix]; exact h)]
  exact List.suffix_append _ _

theorem rebase_comp {old mid new l : List Core} (h : old <:+ l) : rebase mid new (rebase old mid l) = rebase old new l := by
  obtain ⟨a, rfl⟩ := h
  have e : ∀ x y : List Core, rebase x y (a ++ x) = a ++ y := by
    intro x y
    unfold rebase
    rw [if_pos (by rw [List.isSuffixOf_iff_suffix]; exact List.suffix_append _ _)]
    simp
  rw [e, e, e]

theorem rebase_id (old l : List Core) : rebase old old l = l := by
  unfold rebase
  split
  · rename_i h
    rw [List.isSuffixOf_iff_suffix] at h
    obtain ⟨a, rfl⟩ := h
    simp
  · rfl

mutual
theorem relink_comp {old mid new : List Core} : ∀ {t : MTree}, Below old t → (t.relink old mid).relink mid new = t.relink old new
  | .node m cs, h => by
    obtain ⟨h1, h2⟩ := h
    simp only [MTree.relink, rebase_comp h1, relinkList_comp h2]
theorem relinkList_comp {old mid new : List Core} : ∀ {l : List MTree}, BelowList old l →
    MTree.relinkList mid new (MTree.relinkList old mid l) = MTree.relinkList old new l
  | [], _ => by simp [MTree.relinkList]
  | t :: ts, h => by
    obtain ⟨h1, h2⟩ := h
    simp only [MTree.relinkList, relink_comp h1, relinkList_comp h2]
end

mutual
theorem relink_below {old new : List Core} : ∀ {t : MTree}, Below old t → Below new (t.relink old new)
  | .node m cs, h => by
    obtain ⟨h1, h2⟩ := h
    simp only [MTree.relink]
    exact ⟨rebase_below h1, relinkList_below h2⟩
theorem relinkList_below {old new : List Core} : ∀ {l : List MTree}, BelowList old l → BelowList new (MTree.relinkList old new l)
  | [], _ => by simp [MTree.relinkList, BelowList]
  | t :: ts, h => by
    obtain ⟨h1, h2⟩ := h
    simp only [MTree.relinkList]
    exact ⟨relink_below h1, relinkList_below h2⟩
end

mutual
theorem relink_id (old : List Core) : ∀ t : MTree, t.relink old old = t
  | .node m cs => by simp only [MTree.relink, rebase_id, relinkList_id old cs]
theorem relinkList_id (old : List Core) : ∀ l : List MTree, MTree.relinkList old old l = l
  | [] => by simp [MTree.relinkList]
  | t :: ts => by simp only [MTree.relinkList, relink_id old t, relinkList_id old ts]
end

theorem belowList_iff {old : List Core} : ∀ {l : List MTree}, BelowList old l ↔ ∀ t ∈ l, Below old t
  | [] => by simp [BelowList]
  | t :: ts => by simp [BelowList, belowList_iff (l := ts)]

theorem configure_form (p : Pattern) (idx : Nat) (child : Bool) (m0 : Match) : ∃ (b : Bool) (v : Val) (f : Formatter),
    ∀ m : Match, m.name = m0.name → p.configure idx child m = { m with
      matchIndex := idx
      priv := m.priv || b
      lit := if v.truthy = true then v else m.lit
      formatter := if ((if child then p.shouldIncludeChildren else p.shouldIncludeParent) || p.formatAll) = true then f else m.formatter } := by
  have hk : ∀ m : Match, m.name = m0.name → m.nameKey = m0.nameKey := fun m h => by unfold Match.nameKey; rw [h]
  have hc : ∀ m : Match, m.name = m0.name → Pattern.configKeys m child = Pattern.configKeys m0 child :=
    fun m h => by unfold Pattern.configKeys; rw [hk m h]
  have hp : ∃ b, ∀ m : Match, m.name = m0.name → p.processPrivate child m = { m with priv := m.priv || b } :=
    ⟨_, fun m h => (ite_priv _ m).trans (by rw [hk m h])⟩
  have hv : ∃ v, ∀ m : Match, m.name = m0.name → p.processValue child m = { m with lit := if v.truthy = true then v else m.lit } :=
    ⟨_, fun m h => (ite_lit _ _ m).trans (by rw [hc m h])⟩
  have hf : ∃ f, ∀ m : Match, m.name = m0.name → p.processFormatter child m = { m with formatter :=
      if ((if child then p.shouldIncludeChildren else p.shouldIncludeParent) || p.formatAll) = true then f else m.formatter } :=
    ⟨_, fun m h => (ite_formatter _ _ m).trans (by rw [hc m h])⟩
  obtain ⟨b, hp⟩ := hp
  obtain ⟨v, hv⟩ := hv
  obtain ⟨f, hf⟩ := hf
  refine ⟨b, v, f, fun m h => ?_⟩
  unfold Pattern.configure
  rw [hp, hv, hf]
  · rfl
  all_goals exact h

theorem ite_ite_same {α : Type} (c : Prop) [Decidable c] (a b : α) :
    (if c then a else if c then a else b) = if c then a else b := by
  split <;> rfl

theorem configure_stop (p : Pattern) (idx : Nat) (child : Bool) (m : Match) (e : Int) :
    p.configure idx child { m with stop := e } = { p.configure idx child m with stop := e } := by
  obtain ⟨b, v, f, h⟩ := configure_form p idx child m
  rw [h m rfl, h]
  rfl

theorem configure_idem (p : Pattern) (idx : Nat) (child : Bool) (m : Match) :
    p.configure idx child (p.configure idx child m) = p.configure idx child m := by
  obtain ⟨b, v, f, h⟩ := configure_form p idx child m
  rw [h (p.configure idx child m) (by rw [h m rfl]), h m rfl]
  simp only [Match.mk.injEq, true_and, and_true]
  refine ⟨?_, ?_, by simp⟩
  · split <;> rfl
  · exact ite_ite_same _ _ _

/-! ## Dropping children -/

theorem drop_set {x : MTree} : ∀ (all : List MTree) (fs : List Bool) (k : Nat), all.length = fs.length → all[k]? = some x →
    (∀ (j : Nat) y, all[j]? = some y → j ≠ k → y.root.eqv x.root = false) → Chain.drop x all fs = fs.set k false
  | [], fs, k, _, h, _ => by simp at h
  | t :: ts, [], k, hl, _, _ => by simp at hl
  | t :: ts, f :: fs, 0, hl, h, hd => by
    have : t = x := by simpa using h
    subst this
    unfold Chain.drop
    cases f with
    | true => simp [Match.eqv_refl]
    | false =>
      simp only [Bool.false_and, Bool.false_eq_true, if_false, List.set_cons_zero, List.cons.injEq, true_and]
      have : ∀ (ts : List MTree) (fs : List Bool), ts.length = fs.length → (∀ y ∈ ts, y.root.eqv t.root = false) →
          Chain.drop t ts fs = fs := by
        intro ts
        induction ts with
        | nil => intro fs _ _; cases fs <;> simp [Chain.drop]
        | cons y ys ih =>
          intro fs hl hy
          cases fs with
          | nil => simp at hl
          | cons f fs =>
            unfold Chain.drop
            rw [hy y (by simp)]
            simp only [Bool.and_false, Bool.false_eq_true, if_false, List.cons.injEq, true_and]
            exact ih fs (by simpa using hl) (fun y h => hy y (List.mem_cons_of_mem _ h))
      refine this ts fs (by simpa using hl) ?_
      intro y hy
      obtain ⟨j, hj⟩ := List.getElem?_of_mem hy
      exact hd (j + 1) y (by simpa using hj) (by omega)
  | t :: ts, f :: fs, k + 1, hl, h, hd => by
    have h0 := hd 0 t rfl (by omega)
    unfold Chain.drop
    rw [h0]
    simp only [Bool.and_false, Bool.false_eq_true, if_false, List.set_cons_succ, List.cons.injEq, true_and]
    exact drop_set ts fs k (by simpa using hl) (by simpa using h) (fun j y hj hne => hd (j + 1) y (by simpa using hj) (by omega))

theorem dropAll_get {all : List MTree} (hd : ∀ (i j : Nat) x y, all[i]? = some x → all[j]? = some y → i ≠ j → x.root.eqv y.root = false) :
    ∀ (ks : List Nat) (fs : List Bool), all.length = fs.length → (∀ k ∈ ks, k < all.length) →
      (Chain.dropAll all ks fs).length = fs.length ∧
      ∀ j, (Chain.dropAll all ks fs)[j]? = if j ∈ ks then some false else fs[j]?
  | [], fs, _, _ => by simp [Chain.dropAll]
  | k :: ks, fs, hl, hk => by
    have hk0 := hk k (by simp)
    have hx := List.getElem?_eq_getElem hk0
    unfold Chain.dropAll
    rw [hx]
    simp only
    rw [drop_set all fs k hl hx (fun j y hj hne => hd j k y _ hj hx hne)]
    obtain ⟨h1, h2⟩ := dropAll_get hd ks (fs.set k false) (by simpa using hl) (fun k h => hk k (List.mem_cons_of_mem _ h))
    refine ⟨by rw [h1]; simp, ?_⟩
    intro j
    rw [h2]
    by_cases hj : j ∈ ks
    · simp [hj]
    · rw [if_neg hj, List.getElem?_set]
      by_cases hjk : k = j
      · subst hjk
        simp; omega
      · have : j ∉ k :: ks := by simp [hj]; omega
        rw [if_neg hjk, if_neg this]

theorem dropAll_positions {all : List MTree} (hd : ∀ (i j : Nat) x y, all[i]? = some x → all[j]? = some y → i ≠ j → x.root.eqv y.root = false)
    (pat : Option Nat) (i : Nat) (keep : MTree → Bool) :
    Chain.dropAll all (Chain.positions all pat i) (all.map keep) =
      all.map (fun c => keep c && !(decide (c.root.pattern = pat) && decide (c.root.matchIndex = i))) := by
  have hk : ∀ k, k ∈ Chain.positions all pat i ↔ ∃ x, all[k]? = some x ∧ x.root.pattern = pat ∧ x.root.matchIndex = i := by
    intro k
    unfold Chain.positions
    rw [List.mem_filter, List.mem_range]
    constructor
    · rintro ⟨h1, h2⟩
      rw [List.getElem?_eq_getElem h1] at h2 ⊢
      simp only [Bool.and_eq_true, decide_eq_true_eq] at h2
      exact ⟨_, rfl, h2⟩
    · rintro ⟨x, h1, h2, h3⟩
      refine ⟨(List.getElem?_eq_some_iff.1 h1).1, ?_⟩
      rw [h1]; simp [h2, h3]
  obtain ⟨_, h2⟩ := dropAll_get hd (Chain.positions all pat i) (all.map keep) (by simp) (by
    intro k h
    obtain ⟨x, h, _⟩ := (hk k).1 h
    exact (List.getElem?_eq_some_iff.1 h).1)
  apply List.ext_getElem?
  intro j
  rw [h2, List.getElem?_map, List.getElem?_map]
  by_cases hj : j ∈ Chain.positions all pat i
  · obtain ⟨x, h3, h4, h5⟩ := (hk j).1 hj
    rw [if_pos hj, h3]; simp [h4, h5]
  · rw [if_neg hj]
    cases hx : all[j]? with
    | none => rfl
    | some x =>
      have : ¬ (x.root.pattern = pat ∧ x.root.matchIndex = i) := fun h => hj ((hk j).2 ⟨x, hx, h⟩)
      have : (decide (x.root.pattern = pat) && decide (x.root.matchIndex = i)) = false := by
        rw [Bool.and_eq_false_iff]
        by_cases h : x.root.pattern = pat
        · exact Or.inr (by simpa using fun h' => this ⟨h, h'⟩)
        · exact Or.inl (by simpa using h)
      simp only [Option.map_some, this, Bool.not_false, Bool.and_true]

theorem alive_filter (keep : MTree → Bool) : ∀ all : List MTree, Chain.alive all (all.map keep) = all.filter keep
  | [] => rfl
  | a :: l => by
    have ih := alive_filter keep l
    unfold Chain.alive at ih ⊢
    simp only [List.map_cons, List.zip_cons_cons, List.filter_cons]
    cases keep a with
    | true => simp [ih]
    | false => simp [ih]

theorem distinct_eqv {l : List MTree} (h : Distinct l) {g : MTree → MTree} (hg : ∀ t, SameButLinks t.root (g t).root) :
    ∀ (i j : Nat) x y, (l.map g)[i]? = some x → (l.map g)[j]? = some y → i ≠ j → x.root.eqv y.root = false := by
  have main : ∀ (i j : Nat) x y, l[i]? = some x → l[j]? = some y → i < j →
      ¬ (x.root.span = y.root.span ∧ x.root.value = y.root.value ∧ x.root.name = y.root.name) := by
    intro i j x y hx hy hij
    obtain ⟨hi, rfl⟩ := List.getElem?_eq_some_iff.1 hx
    obtain ⟨hj, rfl⟩ := List.getElem?_eq_some_iff.1 hy
    exact (List.pairwise_iff_getElem.1 h) i j hi hj hij
  intro i j x y hx hy hne
  rw [List.getElem?_map] at hx hy
  obtain ⟨x0, hx0, rfl⟩ := Option.map_eq_some_iff.1 hx
  obtain ⟨y0, hy0, rfl⟩ := Option.map_eq_some_iff.1 hy
  rw [Bool.eq_false_iff]
  intro he
  unfold Match.eqv at he
  simp only [Bool.and_eq_true, beq_iff_eq] at he
  obtain ⟨⟨⟨h1, h2⟩, h3⟩, _⟩ := he
  rw [← (hg x0).span, ← (hg y0).span] at h1
  rw [← (hg x0).value, ← (hg y0).value] at h2
  rw [← (hg x0).name, ← (hg y0).name] at h3
  rcases Nat.lt_or_gt_of_ne hne with hlt | hlt
  · exact main i j x0 y0 hx0 hy0 hlt ⟨h1, h2, h3⟩
  · exact main j i y0 x0 hy0 hx0 hlt ⟨h1.symm, h2.symm, h3.symm⟩

/-! ## The backtracking loop -/

theorem setRoot_setRoot {t : MTree} {m m' : Match} (hb : BelowList (t.root.core :: t.root.ancestors) t.children) :
    (t.setRoot m).setRoot m' = t.setRoot m' := by
  have : ((t.setRoot m).setRoot m').children = (t.setRoot m').children := by
    show MTree.relinkList _ _ (MTree.relinkList _ _ t.children) = MTree.relinkList _ _ t.children
    exact relinkList_comp hb
  show MTree.node m' _ = MTree.node m' _
  exact congrArg _ this

theorem setRoot_self (t : MTree) : t.setRoot t.root = t := by
  cases t with
  | node m cs =>
    show MTree.node m (MTree.relinkList _ _ cs) = _
    rw [show (MTree.node m cs).root = m from rfl, relinkList_id]

theorem configure_ancestors (p : Pattern) (idx : Nat) (child : Bool) (m : Match) : (p.configure idx child m).ancestors = m.ancestors := by
  obtain ⟨b, v, f, h⟩ := configure_form p idx child m
  rw [h m rfl]

/-- The match during backtracking: configured, with the end `e`. -/
def reached (p : Pattern) (idx : Nat) (child : Bool) (t : MTree) (e : Int) : MTree :=
  t.setRoot { p.configure idx child t.root with stop := e }

theorem reached_stop {p : Pattern} {idx : Nat} {child : Bool} {t : MTree} (hb : BelowList (t.root.core :: t.root.ancestors) t.children)
    (e e' : Int) : (reached p idx child t e).setRoot { (reached p idx child t e).root with stop := e' } = reached p idx child t e' := by
  unfold reached
  rw [setRoot_setRoot hb]
  rfl

theorem reached_configured (p : Pattern) (idx : Nat) (child : Bool) (t : MTree) (e : Int) :
    (reached p idx child t e).setRoot (p.configure idx child (reached p idx child t e).root) = reached p idx child t e := by
  have : p.configure idx child (reached p idx child t e).root = (reached p idx child t e).root := by
    show p.configure idx child { p.configure idx child t.root with stop := e } = { p.configure idx child t.root with stop := e }
    rw [configure_stop, configure_idem]
  rw [this]
  exact setRoot_self _

theorem reached_init (p : Pattern) (idx : Nat) (child : Bool) (t : MTree) : configured p idx child t = reached p idx child t t.root.stop := by
  unfold configured reached
  have : (p.configure idx child t.root) = { p.configure idx child t.root with stop := t.root.stop } := by
    obtain ⟨b, v, f, h⟩ := configure_form p idx child t.root
    rw [h t.root rfl]
  exact congrArg _ this

theorem endOf_map {g : MTree → MTree} (hg : ∀ t, SameButLinks t.root (g t).root) (s : Int) (l : List MTree) :
    Chain.endOf s (l.map g) = lastStop s l := by
  unfold Chain.endOf lastStop
  rw [List.getLast?_map]
  cases l.getLast? with
  | none => rfl
  | some c => exact (congrArg Prod.snd (hg c).span).symm

theorem filter_map_same {g : MTree → MTree} (keep : MTree → Bool) (hk : ∀ t, keep (g t) = keep t) : ∀ l : List MTree,
    (l.map g).filter keep = (l.filter keep).map g
  | [] => rfl
  | a :: l => by
    simp only [List.map_cons, List.filter_cons, hk, filter_map_same keep hk l]
    split <;> rfl

theorem Spec.SameButLinks.pattern {a b : Match} (h : SameButLinks a b) : a.pattern = b.pattern := by
  unfold SameButLinks at h
  have := congrArg Match.pattern h
  exact this

theorem Spec.SameButLinks.index {a b : Match} (h : SameButLinks a b) : a.matchIndex = b.matchIndex := by
  unfold SameButLinks at h
  have := congrArg Match.matchIndex h
  exact this

theorem configured_shortened {p : Pattern} {idx : Nat} {child : Bool} {t : MTree} {pat : Option Nat} {n : Nat} {e : Int}
    (hb : BelowList (t.root.core :: t.root.ancestors) t.children)
    (he : e = lastStop t.root.start (remaining pat n t.children)) :
    configured p idx child (shortened t pat n) = .node (reached p idx child t e).root
      ((remaining pat n t.children).map (MTree.relink (t.root.core :: t.root.ancestors)
        ((reached p idx child t e).root.core :: (reached p idx child t e).root.ancestors))) := by
  have hb' : BelowList (t.root.core :: t.root.ancestors) (remaining pat n t.children) := by
    rw [belowList_iff] at hb ⊢
    exact fun x hx => hb x (List.mem_filter.1 hx).1
  unfold configured shortened
  rw [← he, setRoot_setRoot (t := .node t.root (remaining pat n t.children)) hb']
  have hr : p.configure idx child (((MTree.node t.root (remaining pat n t.children)).setRoot { t.root with stop := e }).root) =
      (reached p idx child t e).root := by
    show p.configure idx child { t.root with stop := e } = { p.configure idx child t.root with stop := e }
    exact configure_stop p idx child t.root e
  rw [hr]
  show MTree.node _ (MTree.relinkList _ _ _) = _
  rw [relinkList_eq]
  rfl

theorem backtrack_spec {p : Pattern} {idx : Nat} {child : Bool} {t : MTree} {pat : Option Nat}
    (hb : BelowList (t.root.core :: t.root.ancestors) t.children) (hd : Distinct t.children) :
    ∀ (is : List Nat) (e : Int) (keep : MTree → Bool), is.Pairwise (fun a b => b < a) →
      (∀ x y : MTree, SameButLinks x.root y.root → keep x = keep y) →
      (∀ c ∈ t.children, keep c = decide (¬ (c.root.pattern = pat ∧ c.root.matchIndex ∉ is))) →
      (∀ c ∈ t.children, c.root.pattern = pat → c.root.matchIndex ∈ is ∨ ∀ i ∈ is, i < c.root.matchIndex) →
      let r := Chain.backtrack p idx child pat is (reached p idx child t e) (t.children.map keep)
      (∃ n ∈ is, p.processValidator child (configured p idx child (shortened t pat n)) = true ∧
        (∀ k ∈ is, n < k → p.processValidator child (configured p idx child (shortened t pat k)) = false) ∧
        r.2 = some (configured p idx child (shortened t pat n))) ∨
      ((∀ k ∈ is, p.processValidator child (configured p idx child (shortened t pat k)) = false) ∧ r.2 = none ∧
        ∃ e', r.1 = reached p idx child t e')
  | [], e, keep, _, _, _, _ => by
    refine Or.inr ⟨by simp, rfl, e, rfl⟩
  | i :: is, e, keep, hs, hinv, hkeep, hidx => by
    obtain ⟨hs1, hs2⟩ := List.pairwise_cons.1 hs
    let keep' : MTree → Bool := fun c => keep c && !(decide (c.root.pattern = pat) && decide (c.root.matchIndex = i))
    have hinv' : ∀ x y : MTree, SameButLinks x.root y.root → keep' x = keep' y := by
      intro x y h
      simp only [keep', hinv x y h, h.pattern, h.index]
    have hkeep1 : ∀ c ∈ t.children, keep' c = decide (¬ (c.root.pattern = pat ∧ i ≤ c.root.matchIndex)) := by
      intro c hc
      simp only [keep', hkeep c hc]
      by_cases hp : c.root.pattern = pat
      · rcases hidx c hc hp with h | h
        · rcases List.mem_cons.1 h with h | h
          · simp [hp, h]
          · have := hs1 _ h
            have h1 : c.root.matchIndex ≠ i := by omega
            have h2 : ¬ i ≤ c.root.matchIndex := by omega
            simp [hp, h, h1, h2]
        · have := h i (by simp)
          have h1 : c.root.matchIndex ∉ i :: is := by
            intro hm
            exact absurd (h _ hm) (Nat.lt_irrefl _)
          have h2 : i ≤ c.root.matchIndex := by omega
          have h3 : c.root.matchIndex ≠ i := fun h => h1 (by simp [h])
          have h4 : c.root.matchIndex ∉ is := fun h => h1 (by simp [h])
          simp [hp, h2, h3, h4]
      · simp [hp]
    have hkeep2 : ∀ c ∈ t.children, keep' c = decide (¬ (c.root.pattern = pat ∧ c.root.matchIndex ∉ is)) := by
      intro c hc
      rw [hkeep1 c hc, decide_eq_decide]
      refine not_congr (and_congr_right ?_)
      intro hp
      rcases hidx c hc hp with h | h
      · rcases List.mem_cons.1 h with h | h
        · rw [h]
          refine ⟨fun _ hm => absurd (hs1 _ hm) (Nat.lt_irrefl _), fun _ => Nat.le_refl _⟩
        · have := hs1 _ h
          exact ⟨fun hle => by omega, fun hn => absurd h hn⟩
      · refine ⟨fun _ hm => ?_, fun _ => Nat.le_of_lt (h i (by simp))⟩
        exact absurd (h _ (List.mem_cons_of_mem _ hm)) (Nat.lt_irrefl _)
    have hrem : t.children.filter keep' = remaining pat i t.children := by
      unfold remaining
      exact List.filter_congr hkeep1
    have hmap : ∀ e, (reached p idx child t e).children = t.children.map
        (MTree.relink (t.root.core :: t.root.ancestors) ((reached p idx child t e).root.core :: (reached p idx child t e).root.ancestors)) := by
      intro e
      exact setRoot_children t _
    have hflags : ∀ e (k : MTree → Bool), (∀ x y : MTree, SameButLinks x.root y.root → k x = k y) →
        t.children.map k = (reached p idx child t e).children.map k := by
      intro e k hk
      rw [hmap, List.map_map]
      refine List.map_congr_left ?_
      intro c _
      exact hk _ _ (relink_same _ _ c)
    have halive : ∀ e, Chain.alive (reached p idx child t e).children (t.children.map keep') = (remaining pat i t.children).map
        (MTree.relink (t.root.core :: t.root.ancestors) ((reached p idx child t e).root.core :: (reached p idx child t e).root.ancestors)) := by
      intro e
      rw [hflags e keep' hinv', alive_filter, hmap, filter_map_same keep' (fun c => (hinv' _ _ (relink_same _ _ c)).symm), hrem]
    have hdrop : Chain.dropAll (reached p idx child t e).children (Chain.positions (reached p idx child t e).children pat i)
        (t.children.map keep) = t.children.map keep' := by
      rw [hflags e keep hinv, dropAll_positions (by rw [hmap]; exact distinct_eqv hd (relink_same _ _)), hflags e keep' hinv']
    have hend : Chain.endOf (reached p idx child t e).root.start (Chain.alive (reached p idx child t e).children (t.children.map keep')) =
        lastStop t.root.start (remaining pat i t.children) := by
      have hst : (reached p idx child t e).root.start = t.root.start := by
        obtain ⟨b, v, f, h⟩ := configure_form p idx child t.root
        show (p.configure idx child t.root).start = _
        rw [h t.root rfl]
      rw [halive, endOf_map (relink_same _ _), hst]
    intro r
    have hr : r = Chain.backtrack p idx child pat (i :: is) (reached p idx child t e) (t.children.map keep) := rfl
    unfold Chain.backtrack at hr
    simp only at hr
    rw [hdrop, hend, reached_stop hb, reached_configured, halive, ← configured_shortened hb rfl] at hr
    by_cases hv : p.processValidator child (configured p idx child (shortened t pat i)) = true
    · rw [if_pos hv] at hr
      refine Or.inl ⟨i, by simp, hv, ?_, by rw [hr]⟩
      intro k hk hlt
      rcases List.mem_cons.1 hk with rfl | hk
      · omega
      · have := hs1 k hk; omega
    · rw [if_neg hv] at hr
      have hv : p.processValidator child (configured p idx child (shortened t pat i)) = false := by simpa using hv
      have ih := backtrack_spec (p := p) (idx := idx) (child := child) (pat := pat) hb hd is (lastStop t.root.start (remaining pat i t.children))
        keep' hs2 hinv' hkeep2 (by
          intro c hc hp
          rcases hidx c hc hp with h | h
          · rcases List.mem_cons.1 h with h | h
            · exact Or.inr (fun k hk => by have := hs1 k hk; omega)
            · exact Or.inl h
          · exact Or.inr (fun k hk => h k (List.mem_cons_of_mem _ hk)))
      rw [← hr] at ih
      rcases ih with ⟨n, hn, h1, h2, h3⟩ | ⟨h1, h2, h3⟩
      · refine Or.inl ⟨n, List.mem_cons_of_mem _ hn, h1, ?_, h3⟩
        intro k hk hlt
        rcases List.mem_cons.1 hk with rfl | hk
        · exact hv
        · exact h2 k hk hlt
      · refine Or.inr ⟨?_, h2, h3⟩
        intro k hk
        rcases List.mem_cons.1 hk with rfl | hk
        · exact hv
        · exact h1 k hk

theorem groupBy_keys {α : Type} (key : α → Nat) : ∀ {l : List α}, l.Pairwise (fun a b => key a ≤ key b) →
    (Dict.keys (groupBy key l)).Pairwise (fun a b => a < b) ∧ ∀ k, k ∈ Dict.keys (groupBy key l) ↔ ∃ x ∈ l, key x = k
  | [], _ => by simp [groupBy, Dict.keys]
  | [a], _ => by simp [groupBy, groupCons, Dict.keys, eq_comm]
  | a :: b :: l, h => by
    obtain ⟨h1, h2⟩ := List.pairwise_cons.1 h
    obtain ⟨i1, i2⟩ := groupBy_keys key h2
    obtain ⟨g, r, hg⟩ := groupBy_head key b l
    have step : groupBy key (a :: b :: l) = groupCons key a (groupBy key (b :: l)) := rfl
    rw [step, hg]
    rw [hg] at i1 i2
    have hab := h1 b (by simp)
    simp only [groupCons]
    by_cases he : key a = key b
    · rw [if_pos (by simpa using he)]
      refine ⟨i1, ?_⟩
      intro k
      rw [show Dict.keys ((key b, a :: g) :: r) = Dict.keys ((key b, g) :: r) from rfl, i2]
      constructor
      · rintro ⟨x, hx, rfl⟩; exact ⟨x, List.mem_cons_of_mem _ hx, rfl⟩
      · rintro ⟨x, hx, rfl⟩
        rcases List.mem_cons.1 hx with rfl | hx
        · exact ⟨b, by simp, he.symm⟩
        · exact ⟨x, hx, rfl⟩
    · rw [if_neg (by simpa using he)]
      have hk : Dict.keys ((key a, [a]) :: (key b, g) :: r) = key a :: Dict.keys ((key b, g) :: r) := rfl
      rw [hk]
      refine ⟨List.pairwise_cons.2 ⟨?_, i1⟩, ?_⟩
      · intro k hk
        obtain ⟨x, hx, rfl⟩ := (i2 k).1 hk
        have hbx : key b ≤ key x := by
          rcases List.mem_cons.1 hx with rfl | hx
          · exact Nat.le_refl _
          · exact (List.pairwise_cons.1 h2).1 x hx
        omega
      · intro k
        rw [List.mem_cons, i2]
        constructor
        · rintro (rfl | ⟨x, hx, rfl⟩)
          · exact ⟨a, by simp, rfl⟩
          · exact ⟨x, List.mem_cons_of_mem _ hx, rfl⟩
        · rintro ⟨x, hx, rfl⟩
          rcases List.mem_cons.1 hx with rfl | hx
          · exact Or.inl rfl
          · exact Or.inr ⟨x, hx, rfl⟩

theorem groupByIndex_keys (l : List MTree) : (groupByIndex l).keys.Pairwise (fun a b => a < b) ∧
    ∀ k, k ∈ (groupByIndex l).keys ↔ ∃ x ∈ l, x.root.matchIndex = k := by
  have hs := sorted_by_index l
  obtain ⟨h1, h2⟩ := groupBy_keys (fun t : MTree => t.root.matchIndex) hs.sorted
  refine ⟨h1, fun k => ?_⟩
  unfold groupByIndex
  rw [h2 k]
  constructor
  · rintro ⟨x, hx, h⟩; exact ⟨x, hs.perm.mem_iff.1 hx, h⟩
  · rintro ⟨x, hx, h⟩; exact ⟨x, hs.perm.mem_iff.2 hx, h⟩

end Rebulk
