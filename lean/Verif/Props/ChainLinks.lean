import Verif.Spec.ChainLinks
import Verif.Props.ChainValid
/-!
# C129: matches found inside a chain belong to the chain match
-/
namespace Rebulk
open Spec

theorem shortened_family {t : MTree} (pat : Option Nat) (n : Nat) (h : Linked t) : Linked (shortened t pat n) :=
  setRoot_linked (t := .node t.root (remaining pat n t.children)) (fun c hc => h c (List.mem_filter.1 hc).1)

theorem remaining_sub {pat : Option Nat} {n : Nat} {cs : List MTree} : (remaining pat n cs).Sublist cs := List.filter_sublist

theorem shortened_spans (t : MTree) (pat : Option Nat) (n : Nat) :
    ∀ c ∈ (shortened t pat n).children, ∃ x ∈ remaining pat n t.children, c.root.span = x.root.span := by
  intro c hc
  unfold shortened at hc
  rw [setRoot_children] at hc
  obtain ⟨x, hx, rfl⟩ := List.mem_map.1 hc
  exact ⟨x, hx, (relink_same _ _ x).span.symm⟩

/-- Children inside, from left to right: they are inside what is left of the match. -/
theorem shortened_inside {t : MTree} (pat : Option Nat) (n : Nat) (hin : ∀ c ∈ t.children, t.root.start ≤ c.root.start ∧ c.root.start < c.root.stop ∧ c.root.stop ≤ t.root.stop)
    (ho : LeftToRight t.children) (ht : t.root.start ≤ t.root.stop) :
    (shortened t pat n).root.stop ≤ t.root.stop ∧
    ∀ c ∈ (shortened t pat n).children, (shortened t pat n).root.start ≤ c.root.start ∧ c.root.stop ≤ (shortened t pat n).root.stop := by
  have hstop : (shortened t pat n).root.stop = lastStop t.root.start (remaining pat n t.children) := rfl
  have hstart : (shortened t pat n).root.start = t.root.start := rfl
  rw [hstop, hstart]
  refine ⟨?_, ?_⟩
  · unfold lastStop
    cases h : (remaining pat n t.children).getLast? with
    | none => exact ht
    | some c => exact (hin c (remaining_sub.subset (List.mem_of_getLast? h))).2.2
  · intro c hc
    obtain ⟨x, hx, he⟩ := shortened_spans t pat n c hc
    have e1 : c.root.start = x.root.start := congrArg Prod.fst he
    have e2 : c.root.stop = x.root.stop := congrArg Prod.snd he
    rw [e1, e2]
    refine ⟨(hin x (remaining_sub.subset hx)).1, ?_⟩
    have hr : LeftToRight (remaining pat n t.children) := ho.sublist remaining_sub
    unfold lastStop
    cases h : (remaining pat n t.children).getLast? with
    | none => rw [List.getLast?_eq_none_iff] at h; rw [h] at hx; cases hx
    | some y =>
      obtain ⟨l, hl⟩ := List.getLast?_eq_some_iff.1 h
      rw [hl] at hx hr
      rcases List.mem_append.1 hx with hx | hx
      · have h1 := (List.pairwise_append.1 hr).2.2 x hx y (by simp)
        have h2 := hin y (remaining_sub.subset (List.mem_of_getLast? h))
        show x.root.stop ≤ y.root.stop
        omega
      · rw [List.mem_singleton] at hx; subst hx; exact Int.le_refl _

theorem after_absent {f : Option (MTree → ProcRet)} (hf : f = none) {t r : MTree} (h : After f t (some r)) : r = t := by
  generalize hr : some r = x at h
  cases h with
  | absent _ => cases hr; rfl
  | unchanged _ h _ => rw [hf] at h; cases h
  | replaced _ _ h _ => rw [hf] at h; cases h
  | dropped _ h _ => rw [hf] at h; cases h

/-- What is emitted for a match that is a family is that match or its children. -/
theorem emits_family {o : PatternOpts} (hpre : o.preMatch = none) (hpost : o.postMatch = none) {idx : Nat} {t : MTree} {l : List MTree}
    (h : Emits o idx t l) (hl : Linked t) (htop : t.root.ancestors = []) :
    ∀ e ∈ l, ∃ T, T.root.ancestors = [] ∧ T.root.span = t.root.span ∧ T.root.pattern = t.root.pattern ∧ (e = T ∨ (e ∈ T.children ∧
      e.root.ancestors = [T.root.core] ∧ ∃ c ∈ t.children, e.root.span = c.root.span)) := by
  cases h with
  | @emitted t1 V T r h1 _ h3 h4 _ h6 _ =>
    have e1 := after_absent hpre h1
    have e2 := after_absent hpost h6
    subst e1 e2
    have hV := h3.linked hl
    have htopV : V.root.ancestors = [] := by rw [h3.rootLink, htop]
    have htopT : r.root.ancestors = [] := by rw [h4.root, htopV]
    have key : ∀ e ∈ r.children, e.root.ancestors = [r.root.core] ∧ ∃ c ∈ t1.children, e.root.span = c.root.span := by
      intro e he
      obtain ⟨i, hi⟩ := List.getElem?_of_mem he
      have hlt : i < V.children.length := by rw [← h4.count]; exact (List.getElem?_eq_some_iff.1 hi).1
      have hlt' : i < t1.children.length := by rw [← h3.count]; exact hlt
      obtain ⟨c1, c2⟩ := h4.child i _ e (List.getElem?_eq_getElem hlt) hi
      have c3 := h3.child i _ _ (List.getElem?_eq_getElem hlt') (List.getElem?_eq_getElem hlt)
      refine ⟨?_, _, List.getElem_mem hlt', ?_⟩
      · rw [c2, hV _ (List.getElem_mem hlt), htopV, h4.root]
      · rw [c1.span, c3.span]
    intro e he
    refine ⟨r, htopT, by rw [h4.root, h3.root.span], by rw [h4.root, h3.root.pattern], ?_⟩
    unfold emission at he
    rcases List.mem_append.1 he with he | he
    · split at he
      · rw [List.mem_singleton] at he; exact Or.inl he
      · cases he
    · split at he
      · have hm := (List.mem_filter.1 he).1
        exact Or.inr ⟨hm, key e hm⟩
      · cases he
  | _ => simp

/-- What is needed of a match of the search. -/
structure Searched (t : MTree) : Prop where
  linked : Linked t
  top : t.root.ancestors = []
  order : t.root.start < t.root.stop
  inside : ∀ c ∈ t.children, t.root.start ≤ c.root.start ∧ c.root.start < c.root.stop ∧ c.root.stop ≤ t.root.stop
  ltr : LeftToRight t.children

theorem chainEmits_belongs {o : PatternOpts} (hpre : o.preMatch = none) (hpost : o.postMatch = none) {idx : Nat} {t : MTree} {l : List MTree}
    (h : ChainEmits o idx t l) (ht : Searched t) : ∀ e ∈ l, Belongs [t] e := by
  have key : ∀ t' : MTree, Linked t' → t'.root.ancestors = [] → t'.root.start = t.root.start → t'.root.stop ≤ t.root.stop → t'.root.pattern = t.root.pattern →
      (∀ c ∈ t'.children, t'.root.start ≤ c.root.start ∧ c.root.start < c.root.stop ∧ c.root.stop ≤ t'.root.stop) →
      ∀ l, Emits o idx t' l → ∀ e ∈ l, Belongs [t] e := by
    intro t' h1 h2 h3 h4 h5 h6 l hl e he
    obtain ⟨T, a1, a2, a3, a4⟩ := emits_family hpre hpost hl h1 h2 e he
    have b1 : T.root.start = t'.root.start := congrArg Prod.fst a2
    have b2 : T.root.stop = t'.root.stop := congrArg Prod.snd a2
    have hos : OfSearch [t] T := ⟨t, by simp, by rw [b1, h3], by rw [b2]; exact h4, by rw [a3, h5]⟩
    rcases a4 with rfl | ⟨c1, c2, c, c3, c4⟩
    · exact Or.inl ⟨hos, a1⟩
    · have d1 : e.root.start = c.root.start := congrArg Prod.fst c4
      have d2 : e.root.stop = c.root.stop := congrArg Prod.snd c4
      obtain ⟨g1, g2, g3⟩ := h6 c c3
      have hi : e.root.initiator = T.root.core := by
        have hne : (T.root.core.stop - T.root.core.start == 0) = false := by
          have : T.root.core.stop - T.root.core.start ≠ 0 := by
            show T.root.stop - T.root.start ≠ 0
            rw [b1, b2]; omega
          simpa using this
        unfold Match.initiator
        rw [c2]
        simp only [Match.initiatorFrom, hne, Bool.false_eq_true, if_false]
      refine Or.inr ⟨T, hos, c1, c2, by rw [b1, d1]; exact g1, by rw [b2, d2]; exact g3, hi, ?_⟩
      unfold Match.initLen
      rw [hi]
      rfl
  cases h with
  | whole _ he => exact key t ht.linked ht.top rfl (Int.le_refl _) rfl ht.inside l he
  | @shortened last n _ _ hlast _ _ _ he =>
    obtain ⟨s1, s2⟩ := shortened_inside last.root.pattern n ht.inside ht.ltr (Int.le_of_lt ht.order)
    refine key _ (shortened_family _ _ ht.linked) ht.top rfl s1 rfl ?_ l he
    intro c hc
    obtain ⟨x, hx, e⟩ := shortened_spans t _ _ c hc
    have e1 : c.root.start = x.root.start := congrArg Prod.fst e
    have e2 : c.root.stop = x.root.stop := congrArg Prod.snd e
    have := (ht.inside x (remaining_sub.subset hx)).2.1
    exact ⟨(s2 c hc).1, by omega, (s2 c hc).2⟩
  | refused _ _ => simp

theorem belongs_mono {ts ts' : List MTree} (h : ∀ t ∈ ts, t ∈ ts') {e : MTree} (hb : Belongs ts e) : Belongs ts' e := by
  have hos : ∀ {T}, OfSearch ts T → OfSearch ts' T := fun ⟨t, h1, h2⟩ => ⟨t, h t h1, h2⟩
  rcases hb with ⟨h1, h2⟩ | ⟨T, h1, h2⟩
  · exact Or.inl ⟨hos h1, h2⟩
  · exact Or.inr ⟨T, hos h1, h2⟩

theorem chainEmitsAll_belongs {o : PatternOpts} (hpre : o.preMatch = none) (hpost : o.postMatch = none) {i : Nat} {ts l : List MTree}
    (h : ChainEmitsAll o i ts l) : (∀ t ∈ ts, Searched t) → ∀ e ∈ l, Belongs ts e := by
  induction h with
  | nil => simp
  | cons h1 _ ih =>
    intro ht e he
    rcases List.mem_append.1 he with he | he
    · exact belongs_mono (by simp) (chainEmits_belongs hpre hpost h1 (ht _ (by simp)) e he)
    · exact belongs_mono (by intro t h; exact List.mem_cons_of_mem _ h) (ih (fun t h => ht t (List.mem_cons_of_mem _ h)) e he)

/-- **C129, more precisely.** A chain of plain parts (whose matches have no children: strings, regular expressions without groups), with a validator that looks at
whole matches only and without processors: every match it returns is one of its search or belongs to one. -/
theorem C129_within {c : Chain} (id : Nat) (o : PatternOpts) (hpat : c.pattern = Pattern.init id o) (input : Str)
    (hp : ∀ p ∈ c.parts, PlainPart p) (ha : ∀ p ∈ c.parts, Answers p) (hg : Gentle o) (hpp : o.postProcessor = none) :
    ∃ ts out raws, c.run input = .ok (out, raws) ∧ Scans c input input 0 ts ∧ ∀ e ∈ out, Belongs ts e := by
  obtain ⟨ts, out, raws, h1, h2, h3, l, h4, h5⟩ := validated_raw id o hpat input hp ha hg
  rw [hpp] at h5
  simp only at h5
  subst h5
  have hleaf := rawMatches_leafy hp h1
  obtain ⟨hord, _⟩ := rawMatches_order (fun p h => (hp p h).tidy) h1
  refine ⟨ts, out, raws, h2, h3, chainEmitsAll_belongs hg.pre hg.post h4 (fun t ht => ?_)⟩
  obtain ⟨k1, k2⟩ := hord t ht
  have kn := nested_iff.1 k1
  refine ⟨(hleaf t ht).linked, k2, kn.1.nonempty, fun c hc => ?_, (hleaf t ht).ordered⟩
  obtain ⟨w, hn⟩ := kn.2 c hc
  exact ⟨w.1, (nested_iff.1 hn).1.nonempty, w.2⟩

/-- Hence the default conflict solver decides nothing between two children of one match: it compares the lengths of the initiators. -/
theorem C129_no_conflict {T a b : MTree} (ha : a.root.initiator = T.root.core) (hb : b.root.initiator = T.root.core) (hT : T.root.start ≤ T.root.stop) :
    defaultConflict a.root b.root = .ok .keepBoth := by
  have h : ∀ x : MTree, x.root.initiator = T.root.core → x.root.initLen = T.root.stop - T.root.start := by
    intro x hx; unfold Match.initLen; rw [hx]; rfl
  unfold defaultConflict
  rw [h a ha, h b hb]
  have : ¬ T.root.stop - T.root.start < 0 := by omega
  simp [this]

/-- The chain `a b+` with a validator that wants at most three characters of the whole, returning the matches inside as private ones too. -/
def everyChain : Chain :=
  { shortChain with pattern := Pattern.init 0 { validator := .one (some (fun t => decide (t.root.len ≤ 3))), privateChildren := true } }

/-- It meets the hypotheses… -/
theorem everyChain_belongs (input : Str) : ∃ ts out raws, everyChain.run input = .ok (out, raws) ∧ Scans everyChain input input 0 ts ∧ ∀ e ∈ out, Belongs ts e := by
  refine C129_within 0 _ rfl input ?_ ?_ ?_ rfl
  · intro p hp
    simp only [everyChain, shortChain, List.mem_cons, List.not_mem_nil, or_false] at hp
    rcases hp with rfl | rfl
    · exact plain_string 1 {} rfl rfl rfl _ {} rfl _ (by simp) _ _ _
    · exact plain_string 2 {} rfl rfl rfl _ {} rfl _ (by simp) _ _ _
  · intro p hp
    simp only [everyChain, shortChain, List.mem_cons, List.not_mem_nil, or_false] at hp
    rcases hp with rfl | rfl
    · exact answers_string 1 {} rfl ⟨rfl, rfl, rfl⟩ (by intro a h; cases h) (by intro a h; cases h) _ _ _ (by simp) _ _ _
    · exact answers_string 2 {} rfl ⟨rfl, rfl, rfl⟩ (by intro a h; cases h) (by intro a h; cases h) _ _ _ (by simp) _ _ _
  · refine ⟨(by intro a h; cases h), (by intro a h; cases h; simp), rfl, rfl, ?_⟩
    intro t hi
    rcases hi with h | h
    · simp [Included, ChildrenIncluded] at h
    · cases h

/-- … and shortens `abbb` to `abb`, to which its three children belong. -/
example : (match everyChain.run ['a', 'b', 'b', 'b'] with
    | .ok (out, _) => out.map (fun e => (e.root.span, e.root.initiator.start, e.root.initiator.stop)) | .error _ => []) =
    [((0, 3), 0, 3), ((0, 1), 0, 3), ((1, 2), 0, 3), ((2, 3), 0, 3)] := by decide +kernel

end Rebulk
