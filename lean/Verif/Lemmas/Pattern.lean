import Verif.Spec.Pattern
import Verif.Lemmas.Utils
namespace Rebulk
open Spec

/-! ## Resolution of options -/

theorem getFirstDefined_keys {α : Type} (d : Dict (Option String) α) (dflt : α) (m : Match) (child : Bool) :
    getFirstDefined d (Pattern.configKeys m child) dflt =
      (((match m.name with | some n => if n = "" then none else d.get? (some n) | none => none).or
        (d.get? (some (if child then "__children__" else "__parent__")))).or (d.get? none)).getD dflt := by
  have tail : getFirstDefined d [some (if child then "__children__" else "__parent__"), none] dflt =
      ((d.get? (some (if child then "__children__" else "__parent__"))).or (d.get? none)).getD dflt := by
    simp only [getFirstDefined]
    cases d.get? (some (if child then "__children__" else "__parent__")) <;> cases d.get? none <;> rfl
  unfold Pattern.configKeys Match.nameKey
  cases hn : m.name with
  | none => simp [tail]
  | some n =>
    by_cases he : n = ""
    · subst he; simp [tail]
    · have : n.isEmpty = false := by simpa using he
      simp only [this, Bool.false_eq_true, if_false, he, List.cons_append, List.nil_append, getFirstDefined]
      cases hd : d.get? (some n) with
      | none => simp only [Option.none_or]; exact tail
      | some v => simp

/-- The attributes computed by `ensure_dict` give the chosen declaration. -/
theorem chosen_eq {α : Type} (truthy : α → Bool) (arg : DictArg α) (dflt : α) (m : Match) (child : Bool)
    (hone : ∀ a, arg = .one a → truthy a = false → a = dflt) :
    getFirstDefined (ensureDict truthy arg dflt).1 (Pattern.configKeys m child) (ensureDict truthy arg dflt).2 =
      chosen arg dflt m.name child := by
  rw [getFirstDefined_keys]
  unfold chosen
  have hr : ∀ (o : Option α), (o.or none) = o := by intro o; cases o <;> rfl
  cases arg with
  | absent =>
    cases m.name with
    | none => simp [ensureDict, declared, Dict.get?]
    | some n => by_cases h : n = "" <;> simp [ensureDict, declared, Dict.get?, h]
  | one a =>
    cases ht : truthy a with
    | true =>
      cases m.name with
      | none => simp [ensureDict, declared, Dict.get?, ht]
      | some n => by_cases h : n = "" <;> simp [ensureDict, declared, Dict.get?, h, ht]
    | false =>
      have := hone a rfl ht
      subst this
      cases m.name with
      | none => simp [ensureDict, declared, Dict.get?, ht]
      | some n => by_cases h : n = "" <;> simp [ensureDict, declared, Dict.get?, h, ht]
  | dict d =>
    cases d with
    | nil =>
      cases m.name with
      | none => simp [ensureDict, declared, Dict.get?]
      | some n => by_cases h : n = "" <;> simp [ensureDict, declared, Dict.get?, h]
    | cons x xs =>
      simp only [ensureDict, declared]
      cases m.name <;> rfl

/-- Same for a value, whatever its truthiness, as far as truthiness goes. -/
theorem chosen_value (arg : DictArg Val) (m : Match) (child : Bool) :
    let v := getFirstDefined (ensureDict Val.truthy arg .none).1 (Pattern.configKeys m child) (ensureDict Val.truthy arg .none).2
    let w := chosen arg .none m.name child
    v.truthy = w.truthy ∧ (w.truthy = true → v = w) := by
  by_cases h : ∀ a, arg = .one a → a.truthy = false → a = .none
  · rw [chosen_eq Val.truthy arg .none m child h]
    exact ⟨rfl, fun _ => rfl⟩
  · have ⟨a, ha⟩ : ∃ a, ¬ (arg = .one a → a.truthy = false → a = .none) := Classical.not_forall.1 h
    obtain ⟨rfl, ht, _⟩ : arg = .one a ∧ a.truthy = false ∧ a ≠ .none := by
      refine ⟨Classical.byContradiction (fun h => ha (fun h2 => absurd h2 h)),
        Classical.byContradiction (fun h => ha (fun _ h2 => absurd h2 h)), fun h => ha (fun _ _ => h)⟩
    rw [getFirstDefined_keys]
    have hw : chosen (.one a) .none m.name child = a := by
      unfold chosen
      cases m.name with
      | none => simp [declared]
      | some n => by_cases h : n = "" <;> simp [declared, h]
    have hv : ∀ (x : Option Val), x = none ∨ x = some Val.none → ((x.or (Dict.get? (ensureDict Val.truthy (.one a) .none).1
        (some (if child = true then "__children__" else "__parent__")))).or (Dict.get? (ensureDict Val.truthy (.one a) .none).1 none)).getD
        (ensureDict Val.truthy (.one a) .none).2 = Val.none := by
      intro x hx
      rcases hx with rfl | rfl <;> simp [ensureDict, ht, Dict.get?]
    simp only [hw]
    have : ∀ n, Dict.get? (ensureDict Val.truthy (.one a) .none).1 (some n) = none := by
      intro n; simp [ensureDict, ht, Dict.get?]
    rw [hv _ (by cases m.name with
      | none => exact Or.inl rfl
      | some n => by_cases h : n = "" <;> simp [h, this])]
    exact ⟨by rw [ht]; rfl, fun h => by rw [ht] at h; cases h⟩

/-! ## Configuration of one match -/

theorem nameIn_nameKey (m : Match) (l : List String) : Pattern.nameIn m.nameKey l = true ↔ Named m l := by
  unfold Match.nameKey Named Pattern.nameIn
  cases m.name with
  | none => simp
  | some n =>
    by_cases h : n = ""
    · subst h; simp
    · have : n.isEmpty = false := by simpa using h
      simp [this, h]

theorem included_iff (id : Nat) (o : PatternOpts) (child : Bool) :
    (if child then (Pattern.init id o).shouldIncludeChildren else (Pattern.init id o).shouldIncludeParent) = true ↔ Included o child := by
  cases child <;> simp [Pattern.shouldIncludeChildren, Pattern.shouldIncludeParent, Pattern.init, Included, ParentIncluded,
    ChildrenIncluded]

theorem ite_priv (b : Bool) (m : Match) : (if b = true then { m with priv := true } else m) = { m with priv := m.priv || b } := by
  cases b <;> simp

theorem ite_lit (b : Bool) (v : Val) (m : Match) :
    (if b = true then { m with lit := v } else m) = { m with lit := if b = true then v else m.lit } := by
  cases b <;> simp

theorem ite_formatter (b : Bool) (v : Formatter) (m : Match) :
    (if b = true then { m with formatter := v } else m) = { m with formatter := if b = true then v else m.formatter } := by
  cases b <;> simp

theorem configure_spec (id : Nat) (o : PatternOpts) (hf : Proper o.formatter) (idx : Nat) (child : Bool) (m : Match) :
    ConfiguredMatch o idx child m ((Pattern.init id o).configure idx child m) ∧
      ((Pattern.init id o).configure idx child m).ancestors = m.ancestors := by
  have hp : ∀ m : Match, ((Pattern.init id o).processPrivate child m) =
      { m with priv := m.priv || (Pattern.nameIn m.nameKey o.privateNames || (!child && o.privateParent) || (child && o.privateChildren)) } := by
    intro m
    exact ite_priv _ m
  have hv : ∀ m : Match, ((Pattern.init id o).processValue child m) =
      { m with lit := if (chosen o.value .none m.name child).truthy then chosen o.value .none m.name child else m.lit } := by
    intro m
    obtain ⟨h1, h2⟩ := chosen_value o.value m child
    refine (ite_lit _ _ m).trans ?_
    have e1 : (Pattern.init id o).values = (ensureDict Val.truthy o.value .none).1 := rfl
    have e2 : (Pattern.init id o).defaultValue = (ensureDict Val.truthy o.value .none).2 := rfl
    rw [e1, e2, h1]
    cases h : (chosen o.value .none m.name child).truthy with
    | false => simp
    | true => rw [h2 h]
  have hff : ∀ m : Match, ((Pattern.init id o).processFormatter child m) =
      { m with formatter := if (if child then (Pattern.init id o).shouldIncludeChildren else (Pattern.init id o).shouldIncludeParent) ||
          o.formatAll then chosen o.formatter (some (fun v => v)) m.name child else m.formatter } := by
    intro m
    unfold Pattern.processFormatter
    have hc := chosen_eq Option.isSome o.formatter (some (fun v => v)) m child (by
      intro a ha hn
      have := hf a ha
      cases a with
      | none => exact absurd rfl this
      | some _ => cases hn)
    simp only
    have e1 : (Pattern.init id o).formatters = (ensureDict Option.isSome o.formatter (some (fun v => v))).1 := rfl
    have e2 : (Pattern.init id o).defaultFormatter = (ensureDict Option.isSome o.formatter (some (fun v => v))).2 := rfl
    have e3 : (Pattern.init id o).formatAll = o.formatAll := rfl
    rw [e1, e2, e3, hc]
    exact ite_formatter _ _ m
  unfold Pattern.configure Pattern.processIndex
  rw [hp, hv, hff]
  refine ⟨⟨rfl, ?_, ?_, ?_, ?_, ?_, rfl, rfl, rfl, rfl, rfl, ⟨rfl, rfl⟩, rfl, rfl⟩, rfl⟩
  · simp only [Bool.or_eq_true]
    have : Pattern.nameIn ({ m with matchIndex := idx } : Match).nameKey o.privateNames = true ↔ Named m o.privateNames :=
      nameIn_nameKey _ _
    rw [this]
    simp [or_assoc]
  · intro h; rw [← isTrue_iff] at h; simp only [h, if_true]
  · intro h; rw [← isTrue_iff, Bool.not_eq_true] at h; simp only [h]; simp
  · intro h
    have : ((if child then (Pattern.init id o).shouldIncludeChildren else (Pattern.init id o).shouldIncludeParent) || o.formatAll) = true := by
      rw [Bool.or_eq_true, included_iff]; exact h
    simp only [this, if_true]
  · intro h
    have : ((if child then (Pattern.init id o).shouldIncludeChildren else (Pattern.init id o).shouldIncludeParent) || o.formatAll) = false := by
      rw [← Bool.not_eq_true, Bool.or_eq_true, included_iff]; exact h
    simp only [this]; simp

theorem validator_spec (id : Nat) (o : PatternOpts) (hv : Proper o.validator) (child : Bool) (t : MTree) :
    (Pattern.init id o).processValidator child t = true ↔ Accepts o child t := by
  unfold Pattern.processValidator Accepts
  have hc := chosen_eq Option.isSome o.validator (some (fun _ => true)) t.root child (by
    intro a ha hn
    have := hv a ha
    cases a with
    | none => exact absurd rfl this
    | some _ => cases hn)
  have e1 : (Pattern.init id o).validators = (ensureDict Option.isSome o.validator (some (fun _ => true))).1 := rfl
  have e2 : (Pattern.init id o).defaultValidator = (ensureDict Option.isSome o.validator (some (fun _ => true))).2 := rfl
  have e3 : (Pattern.init id o).validateAll = o.validateAll := rfl
  simp only
  rw [e1, e2, e3, hc]
  have hi := included_iff id o child
  by_cases h : ((if child then (Pattern.init id o).shouldIncludeChildren else (Pattern.init id o).shouldIncludeParent) || o.validateAll) = true
  · rw [if_pos h]
    rw [Bool.or_eq_true, hi] at h
    cases chosen o.validator (some (fun _ => true)) t.root.name child with
    | none => simp
    | some v => simp [h]
  · rw [if_neg h]
    rw [Bool.or_eq_true, hi] at h
    simp [h]

/-! ## Trees -/

theorem relinkList_eq (old new : List Core) : ∀ l : List MTree, MTree.relinkList old new l = l.map (MTree.relink old new)
  | [] => by simp [MTree.relinkList]
  | t :: ts => by simp [MTree.relinkList, relinkList_eq old new ts]

theorem relink_root (old new : List Core) (t : MTree) : (t.relink old new).root =
    { t.root with ancestors := rebase old new t.root.ancestors } := by
  cases t with
  | node m cs => rw [MTree.relink]; rfl

theorem relink_children (old new : List Core) (t : MTree) : (t.relink old new).children = t.children.map (MTree.relink old new) := by
  cases t with
  | node m cs => rw [MTree.relink, relinkList_eq]; rfl

theorem rebase_self (old new : List Core) : rebase old new old = new := by
  unfold rebase
  rw [if_pos (by rw [List.isSuffixOf_iff_suffix]; exact List.suffix_refl _)]
  simp

theorem relink_same (old new : List Core) (t : MTree) : SameButLinks t.root (t.relink old new).root := by
  rw [relink_root]; unfold SameButLinks; rfl

theorem setRoot_root (t : MTree) (m : Match) : (t.setRoot m).root = m := rfl
theorem setRoot_children (t : MTree) (m : Match) :
    (t.setRoot m).children = t.children.map (MTree.relink (t.root.core :: t.root.ancestors) (m.core :: m.ancestors)) := by
  simp [MTree.setRoot, MTree.children, relinkList_eq]

theorem setRoot_linked {t : MTree} {m : Match} (h : Linked t) : Linked (t.setRoot m) := by
  intro c hc
  rw [setRoot_children, List.mem_map] at hc
  obtain ⟨c0, h0, rfl⟩ := hc
  have := h c0 h0
  rw [relink_root, setRoot_root, this, rebase_self]

/-! ## Processing -/

/-- The children once configured. -/
def configuredChildren (p : Pattern) (idx : Nat) (l : List MTree) : List MTree := l.map (fun c => (p.processMatch idx true c).1)

theorem processChildren_eq (p : Pattern) (idx : Nat) : ∀ l : List MTree,
    Pattern.processChildren p.processMatch idx l = if l.all (fun c => (p.processMatch idx true c).2) then some (configuredChildren p idx l) else none
  | [] => by simp [Pattern.processChildren, configuredChildren]
  | c :: cs => by
    unfold Pattern.processChildren
    rw [processChildren_eq p idx cs]
    cases hc : p.processMatch idx true c with
    | mk c' b =>
      cases b with
      | false => simp [hc]
      | true =>
        simp only [List.all_cons, hc, Bool.true_and, configuredChildren, List.map_cons]
        split <;> rfl

theorem after_iff (f : Option (MTree → ProcRet)) (t : MTree) (r : Option MTree) :
    After f t r ↔ Pattern.processProcessor f t = r := by
  constructor
  · intro h
    cases h with
    | absent h => simp [Pattern.processProcessor, h]
    | unchanged g h h2 => simp [Pattern.processProcessor, h, h2]
    | replaced g r h h2 => simp [Pattern.processProcessor, h, h2]
    | dropped g h h2 => simp [Pattern.processProcessor, h, h2]
  · intro h
    subst h
    cases hf : f with
    | none => exact .absent rfl
    | some g =>
      cases hg : g t with
      | none => simpa [Pattern.processProcessor, hg] using After.unchanged g rfl hg
      | falsy => simpa [Pattern.processProcessor, hg] using After.dropped g rfl hg
      | tree r => simpa [Pattern.processProcessor, hg] using After.replaced g r rfl hg

theorem keepGoing_pos {t : MTree} (h : t.root.start < t.root.stop) : Pattern.keepGoing (some t) = .ok (some t) := by
  unfold Pattern.keepGoing Match.truthy?
  have h1 : ¬ (t.root.stop - t.root.start < 0) := by omega
  have h2 : (t.root.stop - t.root.start != 0) = true := by rw [bne_iff_ne]; omega
  simp [h1, h2]

theorem keepGoing_zero {t : MTree} (h : t.root.start = t.root.stop) : Pattern.keepGoing (some t) = .ok none := by
  unfold Pattern.keepGoing Match.truthy?
  have h1 : ¬ (t.root.stop - t.root.start < 0) := by omega
  have h2 : (t.root.stop - t.root.start != 0) = false := by simp; omega
  simp [h1, h2]

theorem keepGoing_neg {t : MTree} (h : t.root.stop < t.root.start) : Pattern.keepGoing (some t) = .error .valueError := by
  have : t.root.truthy? = .error .valueError := by unfold Match.truthy?; rw [if_pos (by omega)]
  simp only [Pattern.keepGoing, this]

theorem ignored_iff (id : Nat) (o : PatternOpts) (m : Match) : (!(Pattern.init id o).ignored m) = true ↔ NotIgnored o m := by
  unfold Pattern.ignored Pattern.nameIn NotIgnored
  cases m.name <;> simp [Pattern.init]

theorem emitted_eq (id : Nat) (o : PatternOpts) (T : MTree) : (Pattern.init id o).emitted T = emission o T := by
  unfold Pattern.emitted emission
  have hp := included_iff id o false
  have hc := included_iff id o true
  simp only [Bool.false_eq_true, if_false, if_true, Included] at hp hc
  congr 1
  · have e1 : (Pattern.init id o).privateParent = o.privateParent := rfl
    rw [e1]
    by_cases h : (ParentIncluded o ∨ o.privateParent = true) ∧ NotIgnored o T.root
    · rw [if_pos (by rw [Bool.and_eq_true, Bool.or_eq_true, hp, ignored_iff]; exact h), if_pos h]
    · rw [if_neg (by rw [Bool.and_eq_true, Bool.or_eq_true, hp, ignored_iff]; exact h), if_neg h]
  · have e1 : (Pattern.init id o).privateChildren = o.privateChildren := rfl
    rw [e1]
    have ef : (T.children.filter (fun c => !(Pattern.init id o).ignored c.root)) =
        T.children.filter (fun c => @decide (NotIgnored o c.root) (Classical.propDecidable _)) := by
      apply List.filter_congr
      intro c _
      rw [Bool.eq_iff_iff, ignored_iff]
      simp
    by_cases h : ChildrenIncluded o ∨ o.privateChildren = true
    · rw [if_pos (by rw [Bool.or_eq_true, hc]; exact h), if_pos h, ef]
    · rw [if_neg (by rw [Bool.or_eq_true, hc]; exact h), if_neg h]

/-- What `_process_matches` does, in terms of the specification. -/
theorem processMatches_spec (id : Nat) (o : PatternOpts) (hf : Proper o.formatter) (hv : Proper o.validator) (idx : Nat) (t t1 : MTree)
    (hpre : After o.preMatch t (some t1)) (hlen : t1.root.start < t1.root.stop) :
    ∃ V T, ParentConfigured o idx t1 V ∧ ChildrenConfigured o idx V T ∧
      (¬ Accepted o V T → (Pattern.init id o).processMatches idx t = .ok []) ∧
      (Accepted o V T → ∀ r, After o.postMatch T r →
        (r = none → (Pattern.init id o).processMatches idx t = .ok []) ∧
        (∀ T', r = some T' → T'.root.start = T'.root.stop → (Pattern.init id o).processMatches idx t = .ok []) ∧
        (∀ T', r = some T' → T'.root.start < T'.root.stop → (Pattern.init id o).processMatches idx t = .ok (emission o T')) ∧
        (∀ T', r = some T' → T'.root.stop < T'.root.start → (Pattern.init id o).processMatches idx t = .error .valueError)) := by
  let p := Pattern.init id o
  let V := t1.setRoot (p.configure idx false t1.root)
  let T : MTree := .node V.root (configuredChildren p idx V.children)
  have hacc : (p.processValidator false V = true ∧ V.children.all (fun c => (p.processMatch idx true c).2) = true) ↔ Accepted o V T := by
    unfold Accepted
    rw [validator_spec id o hv, List.all_eq_true]
    have : (∀ x ∈ V.children, (p.processMatch idx true x).2 = true) ↔ ∀ C ∈ T.children, Accepts o true C := by
      show _ ↔ ∀ C ∈ configuredChildren p idx V.children, _
      unfold configuredChildren
      simp only [List.mem_map, forall_exists_index, and_imp, forall_apply_eq_imp_iff₂]
      constructor
      · intro h c hc
        exact (validator_spec id o hv true _).1 (h c hc)
      · intro h c hc
        exact (validator_spec id o hv true _).2 (h c hc)
    rw [this]
  refine ⟨V, T, ⟨(configure_spec id o hf idx false t1.root).1, (configure_spec id o hf idx false t1.root).2, ?_, ?_, setRoot_linked⟩,
    ⟨rfl, ?_, ?_⟩, ?_, ?_⟩
  · show (t1.setRoot _).children.length = _
    rw [setRoot_children, List.length_map]
  · intro i c C hc hC
    have : (t1.setRoot (p.configure idx false t1.root)).children[i]? = some C := hC
    rw [setRoot_children, List.getElem?_map, hc] at this
    cases this
    exact relink_same _ _ _
  · show (configuredChildren p idx V.children).length = _
    rw [configuredChildren, List.length_map]
  · intro i c C hc hC
    have : (configuredChildren p idx V.children)[i]? = some C := hC
    rw [configuredChildren, List.getElem?_map, hc] at this
    cases this
    exact ⟨(configure_spec id o hf idx true c.root).1, (configure_spec id o hf idx true c.root).2⟩
  · intro hna
    rw [after_iff] at hpre
    unfold Pattern.processMatches Pattern.processMatchesWith
    have : (Pattern.init id o).preMatch = o.preMatch := rfl
    rw [this, hpre, keepGoing_pos hlen]
    simp only
    have hpm : (Pattern.init id o).processMatch idx false t1 = (V, p.processValidator false V) := rfl
    rw [hpm]
    cases h1 : p.processValidator false V with
    | false => rfl
    | true =>
      cases h2 : V.children.all (fun c => (p.processMatch idx true c).2) with
      | false =>
        simp only
        rw [processChildren_eq, if_neg (by rw [show (Pattern.init id o) = p from rfl, h2]; simp)]
      | true => exact absurd (hacc.1 ⟨h1, h2⟩) hna
  · intro ha r hr
    rw [after_iff] at hpre hr
    obtain ⟨h1, h2⟩ := hacc.2 ha
    have key : (Pattern.init id o).processMatches idx t = match Pattern.keepGoing r with
        | .error e => .error e
        | .ok none => .ok []
        | .ok (some t) => .ok ((Pattern.init id o).emitted t) := by
      unfold Pattern.processMatches Pattern.processMatchesWith
      have : (Pattern.init id o).preMatch = o.preMatch := rfl
      rw [this, hpre, keepGoing_pos hlen]
      simp only
      have hpm : (Pattern.init id o).processMatch idx false t1 = (V, p.processValidator false V) := rfl
      rw [hpm, h1]
      simp only
      rw [processChildren_eq, if_pos h2]
      simp only
      have : (Pattern.init id o).postMatch = o.postMatch := rfl
      rw [this]
      have hr' : Pattern.processProcessor o.postMatch (.node V.root (configuredChildren (Pattern.init id o) idx V.children)) = r := hr
      rw [hr']
      rfl
    refine ⟨?_, ?_, ?_, ?_⟩
    · rintro rfl
      rw [key]; rfl
    · rintro T' rfl h0
      rw [key, keepGoing_zero h0]
    · rintro T' rfl h0
      rw [key, keepGoing_pos h0]
      simp only [emitted_eq]
    · rintro T' rfl h0
      rw [key, keepGoing_neg h0]

theorem processMatches_dropped (id : Nat) (o : PatternOpts) (idx : Nat) (t : MTree) (r : Option MTree) (hpre : After o.preMatch t r)
    (h : r = none ∨ ∃ t1, r = some t1 ∧ t1.root.start = t1.root.stop) :
    (Pattern.init id o).processMatches idx t = .ok [] := by
  rw [after_iff] at hpre
  unfold Pattern.processMatches Pattern.processMatchesWith
  have : (Pattern.init id o).preMatch = o.preMatch := rfl
  rw [this, hpre]
  rcases h with rfl | ⟨t1, rfl, h⟩
  · rfl
  · rw [keepGoing_zero h]

/-! ## All raw matches -/

theorem processRaws_spec (process : Nat → MTree → Except PyErr (List MTree)) (f : Nat → MTree → List MTree) :
    ∀ (l : List MTree) (i : Nat), (∀ k t, l[k]? = some t → process (i + k) t = .ok (f (i + k) t)) →
      Pattern.processRaws process i l = .ok ((l.zipIdx i).flatMap (fun x => f x.2 x.1))
  | [], _, _ => rfl
  | t :: ts, i, h => by
    have h0 := h 0 t rfl
    rw [Nat.add_zero] at h0
    unfold Pattern.processRaws
    rw [h0]
    simp only
    rw [processRaws_spec process f ts (i + 1) (by
      intro k t' hk
      have := h (k + 1) t' (by simpa using hk)
      rwa [show i + (k + 1) = i + 1 + k by omega] at this)]
    simp

theorem processAll_spec (process : Nat → MTree → Except PyErr (List MTree)) (f : Nat → MTree → List MTree) :
    ∀ (L : List (List MTree)), (∀ l ∈ L, ∀ (k : Nat) t, l[k]? = some t → process k t = .ok (f k t)) →
      Pattern.processAll process L = .ok (L.flatMap (fun l => l.zipIdx.flatMap (fun x => f x.2 x.1)))
  | [], _ => rfl
  | l :: L, h => by
    unfold Pattern.processAll
    rw [processRaws_spec process f l 0 (by
      intro k t hk; rw [Nat.zero_add]; exact h l (List.mem_cons_self ..) k t hk)]
    simp only
    rw [processAll_spec process f L (fun l' hl' => h l' (List.mem_cons_of_mem _ hl'))]
    simp

/-- Every emitted match comes from a raw match. -/
theorem processRaws_mem {process : Nat → MTree → Except PyErr (List MTree)} : ∀ {l : List MTree} {i : Nat} {out : List MTree},
    Pattern.processRaws process i l = .ok out → ∀ x ∈ out, ∃ (k : Nat) (t : MTree) (r : List MTree), l[k]? = some t ∧ process (i + k) t = .ok r ∧ x ∈ r
  | [], i, out, h, x, hx => by cases h; cases hx
  | t :: ts, i, out, h, x, hx => by
    unfold Pattern.processRaws at h
    cases h1 : process i t with
    | error e => rw [h1] at h; cases h
    | ok l =>
      rw [h1] at h
      simp only at h
      cases h2 : Pattern.processRaws process (i + 1) ts with
      | error e => rw [h2] at h; cases h
      | ok r =>
        rw [h2] at h
        cases h
        rcases List.mem_append.1 hx with hx | hx
        · exact ⟨0, t, l, rfl, h1, hx⟩
        · obtain ⟨k, t', r', hk, hp, hm⟩ := processRaws_mem h2 x hx
          exact ⟨k + 1, t', r', by simpa using hk, by rw [show i + (k + 1) = i + 1 + k by omega]; exact hp, hm⟩

theorem processAll_mem {process : Nat → MTree → Except PyErr (List MTree)} : ∀ {L : List (List MTree)} {out : List MTree},
    Pattern.processAll process L = .ok out →
      ∀ x ∈ out, ∃ (raws : List MTree) (k : Nat) (t : MTree) (r : List MTree), raws ∈ L ∧ raws[k]? = some t ∧ process k t = .ok r ∧ x ∈ r
  | [], out, h, x, hx => by cases h; cases hx
  | l :: L, out, h, x, hx => by
    unfold Pattern.processAll at h
    cases h1 : Pattern.processRaws process 0 l with
    | error e => rw [h1] at h; cases h
    | ok a =>
      rw [h1] at h
      simp only at h
      cases h2 : Pattern.processAll process L with
      | error e => rw [h2] at h; cases h
      | ok r =>
        rw [h2] at h
        cases h
        rcases List.mem_append.1 hx with hx | hx
        · obtain ⟨k, t, r', hk, hp, hm⟩ := processRaws_mem h1 x hx
          exact ⟨l, k, t, r', List.mem_cons_self .., hk, by rwa [Nat.zero_add] at hp, hm⟩
        · obtain ⟨raws, k, t, r', hr, hk, hp, hm⟩ := processAll_mem h2 x hx
          exact ⟨raws, k, t, r', List.mem_cons_of_mem _ hr, hk, hp, hm⟩

theorem collectRaws_ok : ∀ (L : List (List MTree)), collectRaws (L.map Except.ok) = .ok L
  | [] => rfl
  | l :: L => by simp [collectRaws, collectRaws_ok L]

theorem collectRaws_inv : ∀ {xs : List (Except PyErr (List MTree))} {L : List (List MTree)}, collectRaws xs = .ok L → xs = L.map Except.ok
  | [], L, h => by cases h; rfl
  | .error e :: xs, L, h => by cases h
  | .ok l :: xs, L, h => by
    unfold collectRaws at h
    cases h2 : collectRaws xs with
    | error e => rw [h2] at h; cases h
    | ok r => rw [h2] at h; cases h; simp [collectRaws_inv h2]

end Rebulk
