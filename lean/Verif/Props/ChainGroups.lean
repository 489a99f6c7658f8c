import Verif.Lemmas.ChainLinks
import Verif.Props.ChainLinks
/-!
# C129: parents, with groups and nested chains
-/
namespace Rebulk
open Spec

/-! ## Parts -/

/-- Parts made of strings. -/
theorem families_string (id : Nat) (o : PatternOpts) (hn : NoProcessors (Pattern.init id o)) (lower : Str → Str) (so : StringOpts) (subs : List Str)
    (start : Int) (stop : Option Int) (hidden : Bool) :
    FindsFamilies { search := (Pattern.init id o).partOfString lower so subs, start := start, stop := stop, hidden := hidden } := by
  intro s em raws h
  have h : (Pattern.init id o).partOfString lower so subs s = .ok (em, raws) := h
  unfold Pattern.partOfString at h
  split at h
  · cases h
  · rename_i L hL
    refine matchesWithRaws_together hn (collected_each (fun sub _ l hl t ht => ?_) hL) h
    have := matchString_leafed hl t ht
    exact raw_leaf this.1 this.2

/-- Parts made of regular expressions, with groups or without. -/
theorem families_regex (id : Nat) (o : PatternOpts) (hn : NoProcessors (Pattern.init id o)) (rc : Bool) (res : List Regex) (hre : ∀ re ∈ res, GroupsForward re)
    (start : Int) (stop : Option Int) (hidden : Bool) :
    FindsFamilies { search := (Pattern.init id o).partOfRegex rc res, start := start, stop := stop, hidden := hidden } := by
  intro s em raws h
  have h : (Pattern.init id o).partOfRegex rc res s = .ok (em, raws) := h
  unfold Pattern.partOfRegex at h
  split at h
  · cases h
  · rename_i L hL
    exact matchesWithRaws_together hn (collected_each (fun re hr l hl t ht => matchRegex_hung (fun o ho g hg => hre re hr s o ho g hg rc) hl t ht) hL) h

/-- Parts made of functions. -/
theorem families_functional (id : Nat) (o : PatternOpts) (hn : NoProcessors (Pattern.init id o)) (functions : List (Str → FRet))
    (start : Int) (stop : Option Int) (hidden : Bool) :
    FindsFamilies { search := (Pattern.init id o).partOfFunctional functions, start := start, stop := stop, hidden := hidden } := by
  intro s em raws h
  have h : (Pattern.init id o).partOfFunctional functions s = .ok (em, raws) := h
  unfold Pattern.partOfFunctional at h
  split at h
  · cases h
  · rename_i L hL
    refine matchesWithRaws_together hn (collected_each (fun f _ l hl t ht => ?_) hL) h
    have := functionalLoop_family hl t ht
    exact raw_leaf this.1 this.2

/-- Chains that return their own matches only. -/
theorem families_chain (c : Chain) (hn : NoProcessors c.pattern) (hp : ∀ p ∈ c.parts, FindsFamilies p)
    (hc : c.pattern.children = false) (he : c.pattern.every = false) (hpc : c.pattern.privateChildren = false)
    (start : Int) (stop : Option Int) (hidden : Bool) : FindsFamilies (c.part start stop hidden) := by
  intro s em raws h
  have h : c.run s = .ok (em, raws) := h
  unfold Chain.run at h
  split at h
  · cases h
  · rename_i ts hts
    intro e hem
    obtain ⟨l, h1, t, h2, T, h3, _, _, _, hw, h4, _, h6, h7, _⟩ := matchesWithRaws_hung hn (same_chainMatch c.pattern) (L := [ts])
      (fun l hl t ht => by rw [List.mem_singleton] at hl; subst hl; exact (rawMatches_family hp hts t ht).hung) h e hem
    rw [List.mem_singleton] at h1
    subst h1
    obtain ⟨x1, x2⟩ := (rawMatches_family hp hts t h2).text
    rcases h4 with rfl | ⟨h4, _⟩
    · refine ⟨h3, ⟨by rw [h6]; exact x1, fun c hc => ?_⟩, hw⟩
      obtain ⟨x, hx, e⟩ := h7 c hc
      rw [e]; exact x2 x hx
    · simp [Pattern.shouldIncludeChildren, hc, he, hpc] at h4

/-! ## The property -/

/-- **C129.** A chain without processors, of parts that find families (strings, regular expressions, functions, chains; one or several each), with any validators, formatters
and breakers: every match it returns is a match of the chain, without parent, or was found inside one, to which its parents lead and which is its initiator. -/
theorem C129_parents {c : Chain} {input : Str} {ts out raws : List MTree} (hn : NoProcessors c.pattern) (hp : ∀ p ∈ c.parts, FindsFamilies p)
    (hts : c.rawMatches input = .ok ts) (h : c.run input = .ok (out, raws)) : ∀ e ∈ out, LeadsTo ts e := by
  unfold Chain.run at h
  rw [hts] at h
  intro e he
  obtain ⟨l, h1, t, h2, T, h3, h4, h5, h6, h7, h8, _⟩ := matchesWithRaws_hung hn (same_chainMatch c.pattern) (L := [ts])
    (fun l hl t ht => by rw [List.mem_singleton] at hl; subst hl; exact (rawMatches_family hp hts t ht).hung) h e he
  rw [List.mem_singleton] at h1
  subst h1
  have htop : T.root.ancestors = [] := by rw [h4, (rawMatches_family hp hts t h2).top]
  refine ⟨t, h2, T, htop, h5, h6, h7, ?_⟩
  rcases h8 with rfl | ⟨_, h8⟩
  · exact Or.inl rfl
  · refine Or.inr ⟨h8, ?_⟩
    obtain ⟨q, hq, hw⟩ := h3 e h8
    rw [htop] at hq
    refine ⟨by rw [hq]; simp, ?_⟩
    unfold Match.initiator
    rw [hq]
    clear hq
    have key : ∀ (q : List Core) (x : Core), (∀ a ∈ q, a.start < a.stop) → Match.initiatorFrom x (q ++ [T.root.core]) = T.root.core := by
      intro q
      induction q with
      | nil =>
        intro x _
        have : (T.root.core.stop - T.root.core.start == 0) = false := by
          have h7 : T.root.core.start < T.root.core.stop := h7
          have : T.root.core.stop - T.root.core.start ≠ 0 := by omega
          simpa using this
        simp only [List.nil_append, Match.initiatorFrom, this, Bool.false_eq_true, if_false]
      | cons a q ih =>
        intro x hw
        have ha := hw a (by simp)
        have : (a.stop - a.start == 0) = false := by
          have : a.stop - a.start ≠ 0 := by omega
          simpa using this
        simp only [List.cons_append, Match.initiatorFrom, this, Bool.false_eq_true, if_false]
        exact ih a (fun b hb => hw b (List.mem_cons_of_mem _ hb))
    exact key q _ hw

/-- The expression `\A(.)(.)`. -/
def twoGroups : Regex where
  names := [none, none]
  finditer := fun s => match s with | _ :: _ :: _ => [⟨0, 2, [⟨(0, 1), [(0, 1)]⟩, ⟨(1, 2), [(1, 2)]⟩]⟩] | _ => []

/-- The chain `\A(.)(.)` then `c*`, returning the matches inside too; its validator rejects a whole of four characters and more. -/
def groupChain : Chain :=
  { pattern := Pattern.init 0 { validator := .one (some (fun t => decide (t.root.len ≤ 3))), privateChildren := true }
    parts := [{ search := (Pattern.init 1 {}).partOfRegex false [twoGroups] }, stringPart 2 [['c']] 0 none] }

theorem twoGroups_scans : ScansText twoGroups := by
  have h : ∀ s, ∀ o ∈ twoGroups.finditer s, 2 ≤ s.length ∧ o = ⟨0, 2, [⟨(0, 1), [(0, 1)]⟩, ⟨(1, 2), [(1, 2)]⟩]⟩ := by
    intro s o ho
    unfold twoGroups at ho
    simp only at ho
    split at ho
    · rw [List.mem_singleton] at ho
      exact ⟨by simp, ho⟩
    · cases ho
  refine ⟨?_, ?_, ?_⟩
  · intro s o ho
    obtain ⟨h1, rfl⟩ := h s o ho
    exact ⟨by decide, by decide, by show (2 : Int) ≤ s.length; omega⟩
  · intro s
    unfold twoGroups
    simp only
    split
    · exact List.pairwise_singleton ..
    · exact List.Pairwise.nil
  · intro s o ho g hg rc sp hsp
    obtain ⟨h1, rfl⟩ := h s o ho
    simp only [List.mem_cons, List.not_mem_nil, or_false] at hg
    rcases hg with rfl | rfl <;> (cases rc <;> (simp [ReGroup.used] at hsp; subst hsp; simp only; omega))

/-- It meets the hypotheses… -/
theorem groupChain_leads : (∀ p ∈ groupChain.parts, FindsFamilies p) ∧ NoProcessors groupChain.pattern := by
  refine ⟨?_, rfl, rfl, rfl⟩
  · intro p hp
    simp only [groupChain, List.mem_cons, List.not_mem_nil, or_false] at hp
    rcases hp with rfl | rfl
    · refine families_regex 1 {} ⟨rfl, rfl, rfl⟩ _ _ ?_ _ _ _
      intro re hr s o ho g hg rc sp hsp
      rw [List.mem_singleton] at hr
      subst hr
      exact (twoGroups_scans.groups s o ho g hg rc sp hsp).2.1
    · exact families_string 2 {} ⟨rfl, rfl, rfl⟩ _ _ _ _ _ _

/-- … and in `abcc` shortened to `abc`, returns it, the characters `a` and `b`, whose parent is `ab`, `ab` itself and `c`. -/
example : (match groupChain.run ['a', 'b', 'c', 'c'] with
    | .ok (out, _) => out.map (fun e => (e.root.span, e.root.ancestors.map (fun a => (a.start, a.stop)), e.root.initiator.start, e.root.initiator.stop))
    | .error _ => []) =
    [((0, 3), [], 0, 3), ((0, 1), [(0, 2), (0, 3)], 0, 3), ((1, 2), [(0, 2), (0, 3)], 0, 3), ((0, 2), [(0, 3)], 0, 3), ((2, 3), [(0, 3)], 0, 3)] := by
  decide +kernel

end Rebulk
