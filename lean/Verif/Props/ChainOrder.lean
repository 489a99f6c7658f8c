import Verif.Props.Chain
import Verif.Lemmas.ChainNested
/-!
# Order of chain matches (`C90`)
-/
namespace Rebulk
open Spec

/-- **C90.** The matches of a chain are found from left to right; they do not overlap, lie in the input, and each of them contains its
children, theirs and so on. Missing: parts with several sub-patterns (`C90_refuted`), and groups captured in a look-around
(`C90_children_refuted`). -/
theorem C90_in_order_partial {c : Chain} {input : Str} {ts : List MTree} (hp : ∀ p ∈ c.parts, TidyPart p) (h : c.rawMatches input = .ok ts) :
    LeftToRight ts ∧ ∀ t ∈ ts, Nested input t :=
  ⟨(rawMatches_order hp h).2, fun t ht => ((rawMatches_order hp h).1 t ht).1⟩

/-- A chain part that is itself a chain, like one that is a string or a regular expression, meets the hypothesis of `C90_in_order_partial`
and of the theorems on regular parts (`C51`, `C52`, `C53`, `C56`, `C81`). -/
theorem C90_nested_chain (c : Chain) (hp : ∀ p ∈ c.parts, TidyPart p) (hn : NoProcessors c.pattern) (hv : NoValidators c.pattern)
    (start : Int) (stop : Option Int) (hidden : Bool) : TidyPart (c.part start stop hidden) ∧ RegularPart (c.part start stop hidden) :=
  ⟨tidy_chain c hp hn hv start stop hidden, (tidy_chain c hp hn hv start stop hidden).regular⟩

/-! ## What the chain returns -/

theorem endOf_le {start b : Int} {cs : List MTree} (hs : start ≤ b) (h : ∀ c ∈ cs, c.root.stop ≤ b) : Chain.endOf start cs ≤ b := by
  unfold Chain.endOf
  cases hl : cs.getLast? with
  | none => exact hs
  | some c => exact h c (List.mem_of_getLast? hl)

theorem backtrack_within (p : Pattern) (idx : Nat) (child : Bool) (pat : Option Nat) (a b : Int) (hab : a ≤ b) :
    ∀ (is : List Nat) (t : MTree) (fs : List Bool), t.root.start = a → (∀ k ∈ t.children, k.root.stop ≤ b) →
      ∀ seen, (Chain.backtrack p idx child pat is t fs).2 = some seen → seen.root.start = a ∧ seen.root.stop ≤ b
  | [], t, fs, _, _ => by simp [Chain.backtrack]
  | i :: is, t, fs, h1, h2 => by
    let fs' := Chain.dropAll t.children (Chain.positions t.children pat i) fs
    let t1 := t.setRoot { t.root with stop := Chain.endOf t.root.start (Chain.alive t.children fs') }
    let t2 := t1.setRoot (p.configure idx child t1.root)
    have e : Chain.backtrack p idx child pat (i :: is) t fs =
        if p.processValidator child (MTree.node t2.root (Chain.alive t2.children fs')) then
          (t2, some (MTree.node t2.root (Chain.alive t2.children fs')))
        else Chain.backtrack p idx child pat is t2 fs' := by
      conv => lhs; unfold Chain.backtrack
    have k1 : t2.root.start = a := (configure_kept p idx child t1.root).2.1.trans h1
    have k3 : t2.root.stop ≤ b := by
      obtain ⟨_, _, _, hf⟩ := configure_form p idx child t1.root
      show (p.configure idx child t1.root).stop ≤ b
      rw [hf t1.root rfl]
      exact endOf_le (by omega) (fun k hk => h2 k (alive_mem hk))
    have k2 : ∀ k ∈ t2.children, k.root.stop ≤ b := by
      intro k hk
      obtain ⟨k0, hk0, hs⟩ := setRoot_sub (l := t.children) (t := t1) _ (setRoot_sub _ (fun k hk => ⟨k, hk, rfl⟩)) k hk
      have hsp : k0.root.stop = k.root.stop := congrArg Prod.snd hs.span
      rw [← hsp]
      exact h2 k0 hk0
    rw [e]
    split
    · intro seen hs
      cases hs
      exact ⟨k1, k3⟩
    · exact backtrack_within p idx child pat a b hab is t2 fs' k1 k2

theorem chain_processMatch_within {p : Pattern} {idx : Nat} {child : Bool} {t t' : MTree} (hab : t.root.start ≤ t.root.stop)
    (hc : ∀ k ∈ t.children, k.root.stop ≤ t.root.stop) (h : Chain.processMatch p idx child t = (t', true)) :
    t'.root.start = t.root.start ∧ t'.root.stop ≤ t.root.stop := by
  have hcf : (p.configure idx child t.root).start = t.root.start ∧ (p.configure idx child t.root).stop = t.root.stop := by
    obtain ⟨_, _, _, hf⟩ := configure_form p idx child t.root
    rw [hf t.root rfl]; exact ⟨rfl, rfl⟩
  have hpm : p.processMatch idx child t = (t.setRoot (p.configure idx child t.root),
    p.processValidator child (t.setRoot (p.configure idx child t.root))) := rfl
  unfold Chain.processMatch at h
  rw [hpm] at h
  cases hv : p.processValidator child (t.setRoot (p.configure idx child t.root)) with
  | true =>
    rw [hv] at h
    cases h
    exact ⟨hcf.1, by show (p.configure idx child t.root).stop ≤ _; omega⟩
  | false =>
    rw [hv] at h
    simp only at h
    split at h
    · cases h
    · rename_i last hl
      split at h
      · rename_i seen hb
        cases h
        refine backtrack_within p idx child last.root.pattern t.root.start t.root.stop hab _
          (t.setRoot (p.configure idx child t.root)) _ hcf.1 ?_ t' (congrArg Prod.snd hb)
        intro k hk
        obtain ⟨k0, hk0, hs⟩ := setRoot_sub (l := t.children) (t := t) _ (fun k hk => ⟨k, hk, rfl⟩) k hk
        have hsp : k0.root.stop = k.root.stop := congrArg Prod.snd hs.span
        rw [← hsp]
        exact hc k0 hk0
      · cases h

theorem processRaws_order {f : Nat → MTree → Except PyErr (List MTree)} (hf : ∀ i t r, Nested input t → f i t = .ok r →
      r.length ≤ 1 ∧ ∀ x ∈ r, Within t.root.start t.root.stop x) : ∀ {l out : List MTree} {i : Nat}, (∀ t ∈ l, Nested input t) → LeftToRight l →
      Pattern.processRaws f i l = .ok out → LeftToRight out ∧ ∀ x ∈ out, ∃ t ∈ l, Within t.root.start t.root.stop x
  | [], out, i, _, _, h => by cases h; exact ⟨List.Pairwise.nil, by simp⟩
  | t :: l, out, i, hn, ho, h => by
    unfold Pattern.processRaws at h
    split at h
    · cases h
    · rename_i r hr
      split at h
      · cases h
      · rename_i r2 hr2
        cases h
        obtain ⟨o1, o2⟩ := List.pairwise_cons.1 ho
        obtain ⟨a1, a2⟩ := hf i t r (hn t (by simp)) hr
        obtain ⟨b1, b2⟩ := processRaws_order hf (fun t ht => hn t (List.mem_cons_of_mem _ ht)) o2 hr2
        refine ⟨List.pairwise_append.2 ⟨?_, b1, ?_⟩, ?_⟩
        · cases r with
          | nil => exact List.Pairwise.nil
          | cons x xs =>
            cases xs with
            | nil => exact List.pairwise_singleton ..
            | cons => simp at a1
        · intro x hx y hy
          obtain ⟨t', ht', w⟩ := b2 y hy
          have := (a2 x hx).2
          have := o1 t' ht'
          have := w.1
          omega
        · intro x hx
          rcases List.mem_append.1 hx with hx | hx
          · exact ⟨t, by simp, a2 x hx⟩
          · obtain ⟨t', ht', w⟩ := b2 x hx
            exact ⟨t', List.mem_cons_of_mem _ ht', w⟩

/-- **C90**, for what the chain returns: when it returns its matches without their children, whatever its validators, these matches are in
order from left to right, do not overlap and lie in the input. -/
theorem C90_returned_partial {c : Chain} (hp : ∀ p ∈ c.parts, TidyPart p) (hn : NoProcessors c.pattern) (hc : c.pattern.children = false)
    (he : c.pattern.every = false) (hpc : c.pattern.privateChildren = false) {input : Str} {em raws : List MTree}
    (h : c.run input = .ok (em, raws)) : LeftToRight em ∧ ∀ x ∈ em, 0 ≤ x.root.start ∧ x.root.stop ≤ input.length := by
  have hinc : c.pattern.shouldIncludeChildren = false := by simp [Pattern.shouldIncludeChildren, hc, he]
  unfold Chain.run at h
  split at h
  · cases h
  · rename_i ts hts
    obtain ⟨n1, n2⟩ := rawMatches_order hp hts
    unfold Pattern.matchesWithRaws Pattern.processAll Pattern.processAll at h
    split at h
    · cases h
    · rename_i l hl
      split at hl
      · cases hl
      · rename_i l' hl'
        simp only [Except.ok.injEq] at hl
        simp only [Pattern.postProcess, hn.2.2, Except.ok.injEq, Prod.mk.injEq] at h
        obtain ⟨rfl, _⟩ := h
        rw [← hl, List.append_nil]
        have kg : ∀ t r, Pattern.keepGoing (Pattern.processProcessor none t) = .ok (some r) → r = t := by
          intro t r h
          simp only [Pattern.processProcessor, Pattern.keepGoing] at h
          split at h
          · cases h
          · cases h
          · cases h; rfl
        have key : ∀ i t r, Nested input t → c.pattern.processMatchesWith (Chain.processMatch c.pattern) i t = .ok r →
            r.length ≤ 1 ∧ ∀ x ∈ r, Within t.root.start t.root.stop x := by
          intro j t r ht hr
          unfold Pattern.processMatchesWith at hr
          rw [hn.1, hn.2.1] at hr
          split at hr
          · cases hr
          · cases hr; exact ⟨by simp, by simp⟩
          · rename_i t0 ht0
            have := kg _ _ ht0
            subst this
            split at hr
            · cases hr; exact ⟨by simp, by simp⟩
            · rename_i t1 ht1
              have ht' := nested_iff.1 ht
              obtain ⟨w1, w2⟩ := chain_processMatch_within (by have := ht'.1.nonempty; omega) (fun k hk => (ht'.2 k hk).1.2) ht1
              split at hr
              · cases hr; exact ⟨by simp, by simp⟩
              · rename_i cs hcs
                split at hr
                · cases hr
                · cases hr; exact ⟨by simp, by simp⟩
                · rename_i t2 ht2
                  have := kg _ _ ht2
                  subst this
                  cases hr
                  unfold Pattern.emitted
                  rw [hinc, hpc]
                  simp only [Bool.or_false, Bool.false_eq_true, if_false, List.append_nil]
                  split
                  · refine ⟨by simp, ?_⟩
                    intro x hx
                    rw [List.mem_singleton] at hx
                    subst hx
                    exact ⟨by show _ ≤ t1.root.start; omega, by show t1.root.stop ≤ _; exact w2⟩
                  · exact ⟨by simp, by simp⟩
        obtain ⟨r1, r2⟩ := processRaws_order key (fun t ht => (n1 t ht).1) n2 hl'
        refine ⟨r1, ?_⟩
        intro x hx
        obtain ⟨t, ht, w⟩ := r2 x hx
        have hin := (nested_iff.1 (n1 t ht).1).1
        have := hin.lo
        have := hin.hi
        exact ⟨by have := w.1; omega, by have := w.2; omega⟩

/-- A pattern without validator rejects nothing. -/
theorem noValidators_init (id : Nat) (o : PatternOpts) (h : o.validator = .absent) : NoValidators (Pattern.init id o) := by
  intro child t
  have h1 : (Pattern.init id o).validators = [(none, some (fun _ => true))] := by simp [Pattern.init, h, ensureDict]
  have h2 : (Pattern.init id o).defaultValidator = some (fun _ => true) := by simp [Pattern.init, h, ensureDict]
  have h3 : ∀ keys : List (Option String), getFirstDefined [((none : Option String), (some (fun _ => true) : Validator))] keys
      (some (fun _ => true)) = some (fun _ => true) := by
    intro keys
    induction keys with
    | nil => rfl
    | cons k ks ih =>
      unfold getFirstDefined
      split
      · rename_i v hv
        cases k with
        | none => cases hv; rfl
        | some => cases hv
      · exact ih
  unfold Pattern.processValidator
  rw [h1, h2, h3]
  simp only
  split <;> split <;> rfl

/-- Chains of strings are made of tidy parts. -/
theorem stringChain_tidy (ws : List Str) (h : ∀ w ∈ ws, w ≠ []) : ∀ p ∈ (stringChain ws).parts, TidyPart p := by
  intro p hp
  obtain ⟨i, hi, rfl⟩ := List.mem_mapIdx.1 hp
  exact tidy_string _ _ rfl rfl rfl _ _ rfl _ (h _ (List.getElem_mem hi)) _ _ _

/-- The chain `(ab)* c`, the first part being a chain. -/
def nestedChain : Chain := { pattern := Pattern.init 10 {}, parts := [(stringChain [['a'], ['b']]).part 0 none, stringPart 11 [['c']]] }

/-- It meets the hypotheses of `C90_in_order_partial` and `C90_returned_partial`… -/
example : (∀ p ∈ nestedChain.parts, TidyPart p) ∧ NoProcessors nestedChain.pattern ∧ nestedChain.pattern.children = false ∧
    nestedChain.pattern.every = false ∧ nestedChain.pattern.privateChildren = false := by
  refine ⟨?_, ⟨rfl, rfl, rfl⟩, rfl, rfl, rfl⟩
  intro p hp
  rcases List.mem_cons.1 hp with rfl | hp
  · refine (C90_nested_chain _ (stringChain_tidy _ ?_) ⟨rfl, rfl, rfl⟩ ?_ _ _ _).1
    · intro w hw; rcases List.mem_cons.1 hw with rfl | hw
      · simp
      · rw [List.mem_singleton] at hw; subst hw; simp
    · exact noValidators_init 0 {} rfl
  · rw [List.mem_singleton] at hp
    subst hp
    exact tidy_string _ _ rfl rfl rfl _ _ rfl _ (by simp) _ _ _

/-- … and on `-ababc-abc` finds `ababc` and `abc`, whose children are those of the inner chain, its matches, and `c`. -/
example : spansOf (nestedChain.rawMatches ['-', 'a', 'b', 'a', 'b', 'c', '-', 'a', 'b', 'c']) =
    some [((1, 6), [(1, 2), (2, 3), (1, 3), (3, 4), (4, 5), (3, 5), (5, 6)]), ((7, 10), [(7, 8), (8, 9), (7, 9), (9, 10)])] := by decide +kernel

/-- **C90** does not hold when a part has several sub-patterns: `chain().string('a', 'b')` on `ba` finds `ba` and then `a`, which overlap. -/
theorem C90_refuted : ¬ ∀ (c : Chain) (input : Str) (ts : List MTree), c.rawMatches input = .ok ts → LeftToRight ts := by
  intro h
  let c : Chain := { pattern := Pattern.init 0 {}, parts := [stringPart 1 [['a'], ['b']]] }
  have h1 : spansOf (c.rawMatches ['b', 'a']) = some [((0, 2), [(1, 2), (0, 1)]), ((1, 2), [(1, 2)])] := by decide +kernel
  obtain ⟨ts, h2, h3⟩ := spansOf_some h1
  have h4 := h c _ ts h2
  have h5 : (ts.map (fun t => (t.root.span, t.children.map (fun k => k.root.span)))).Pairwise (fun a b => a.1.2 ≤ b.1.1) :=
    List.pairwise_map.2 h4
  rw [h3] at h5
  exact absurd h5 (by decide)

/-- The expression `a(?=(b))`: an `a` followed by `b`, which is captured. -/
def lookahead : Regex where
  names := [none]
  finditer := fun s => if s = ['a', 'b'] then [⟨0, 1, [⟨(1, 2), [(1, 2)]⟩]⟩] else []

/-- **C90** does not hold when a group is captured in a look-ahead: the children of the match may lie outside of it. -/
theorem C90_children_refuted : ¬ ∀ (c : Chain) (input : Str) (ts : List MTree), (∀ p ∈ c.parts, RegularPart p) →
    c.rawMatches input = .ok ts → ∀ t ∈ ts, Nested input t := by
  intro h
  let c : Chain := { pattern := Pattern.init 0 {}, parts := [{ search := (Pattern.init 1 {}).partOfRegex false [lookahead] }] }
  have hre : ScansText lookahead := by
    refine ⟨?_, ?_, ?_⟩
    · intro s o ho
      unfold lookahead at ho
      simp only at ho
      split at ho
      · rename_i hs
        rw [List.mem_singleton] at ho
        subst ho; subst hs; decide
      · cases ho
    · intro s
      unfold lookahead
      simp only
      split
      · exact List.pairwise_singleton ..
      · exact List.Pairwise.nil
    · intro s o ho g hg rc sp hsp
      unfold lookahead at ho
      simp only at ho
      split at ho
      · rename_i hs
        rw [List.mem_singleton] at ho
        subst ho
        rw [List.mem_singleton] at hg
        subst hg; subst hs
        cases rc <;> (simp [ReGroup.used] at hsp; subst hsp; decide)
      · cases ho
  have hreg : ∀ p ∈ c.parts, RegularPart p := by
    intro p hp
    rw [List.mem_singleton] at hp
    subst hp
    exact (regular_regex 1 {} rfl rfl rfl rfl false _ hre 1 (some 1) false).1
  have h1 : spansOf (c.rawMatches ['a', 'b']) = some [((0, 1), [(1, 2), (0, 1)])] := by decide +kernel
  obtain ⟨ts, h2, h3⟩ := spansOf_some h1
  have h4 := h c _ ts hreg h2
  cases ts with
  | nil => cases h3
  | cons t rest =>
    have hn := nested_iff.1 (h4 t (by simp))
    simp only [List.map_cons, List.cons.injEq, Prod.mk.injEq] at h3
    obtain ⟨⟨a1, a2⟩, _⟩ := h3
    cases hcs : t.children with
    | nil => rw [hcs] at a2; cases a2
    | cons k ks =>
      rw [hcs] at a2
      simp only [List.map_cons, List.cons.injEq] at a2
      have w := (hn.2 k (by rw [hcs]; simp)).1.2
      have e1 : k.root.stop = 2 := congrArg Prod.snd a2.1
      have e2 : t.root.stop = 1 := congrArg Prod.snd a1
      omega

end Rebulk
