import Verif.Spec.ChainLinks
import Verif.Lemmas.ChainValid
import Verif.Lemmas.ChainNested
/-!
# Parents inside a chain match
-/
namespace Rebulk
open Spec

/-! ## Parents that lead to others -/

theorem Spec.Hangs.refl (l : List Core) : Hangs l l := ⟨[], rfl, by simp⟩

theorem Spec.Hangs.trans {a b c : List Core} (h : Hangs a b) (g : Hangs b c) : Hangs a c := by
  obtain ⟨q, rfl, hq⟩ := h
  obtain ⟨r, rfl, hr⟩ := g
  refine ⟨r ++ q, by simp, ?_⟩
  intro x hx
  rcases List.mem_append.1 hx with hx | hx
  · exact hr x hx
  · exact hq x hx

theorem hangs_cons {x : Core} (l : List Core) (h : x.start < x.stop) : Hangs l (x :: l) :=
  ⟨[x], rfl, by intro a ha; rw [List.mem_singleton] at ha; subst ha; exact h⟩

theorem rebase_append (p old new : List Core) : rebase old new (p ++ old) = p ++ new := by
  unfold rebase
  rw [if_pos (by rw [List.isSuffixOf_iff_suffix]; exact List.suffix_append _ _)]
  simp

theorem rebase_not {old new l : List Core} (h : ¬ old <:+ l) : rebase old new l = l := by
  unfold rebase
  rw [if_neg (by rw [List.isSuffixOf_iff_suffix]; exact h)]

theorem hangs_rebase {old new l : List Core} (h : Hangs old l) : Hangs new (rebase old new l) := by
  obtain ⟨q, rfl, hq⟩ := h
  rw [rebase_append]
  exact ⟨q, rfl, hq⟩

/-- Parents that lead to `x :: b`: replacing some of them, but not in `b`, leaves those before the replaced ones. -/
theorem hangs_over {old new b l : List Core} {x c : Core} (hn : Hangs [c] new) (h : Hangs (x :: b) l) (ho : old <:+ l) (hb : ¬ old <:+ b) : Hangs [c] (rebase old new l) := by
  obtain ⟨p, rfl⟩ := ho
  obtain ⟨q, hq, hw⟩ := h
  rw [rebase_append]
  refine hn.trans ⟨p, rfl, ?_⟩
  have hp : p <+: q := by
    have h1 : p <+: q ++ x :: b := hq ▸ List.prefix_append p old
    refine List.prefix_of_prefix_length_le h1 (List.prefix_append q _) ?_
    have hl := congrArg List.length hq
    simp only [List.length_append, List.length_cons] at hl
    by_cases hlt : p.length ≤ q.length
    · exact hlt
    · exfalso
      refine hb (List.suffix_of_suffix_length_le (l₃ := p ++ old) (List.suffix_append _ _) ?_ (by omega))
      rw [hq]
      exact (List.suffix_cons x b).trans (List.suffix_append q _)
  intro a ha
  exact hw a (hp.subset ha)

/-! ## One match -/

theorem Spec.SameButLinks.text {a b : Match} (h : SameButLinks a b) : a.inputString = b.inputString := by
  unfold Spec.SameButLinks at h
  have := congrArg Match.inputString h
  exact this

theorem hung_setRoot {t : MTree} (m : Match) (h : Hung t) : Hung (t.setRoot m) := by
  intro c hc
  rw [setRoot_children] at hc
  obtain ⟨x, hx, rfl⟩ := List.mem_map.1 hc
  rw [relink_root]
  exact hangs_rebase (h x hx)

theorem hung_sub {m : Match} {cs cs' : List MTree} (h : Hung (.node m cs)) (hs : ∀ c ∈ cs', c ∈ cs) : Hung (.node m cs') :=
  fun c hc => h c (hs c hc)

theorem alive_within {all : List MTree} {fs : List Bool} : ∀ c ∈ Chain.alive all fs, c ∈ all := by
  intro c hc
  unfold Chain.alive at hc
  obtain ⟨x, hx, rfl⟩ := List.mem_map.1 hc
  exact (List.of_mem_zip (List.mem_filter.1 hx).1).1

/-- What processing a match leaves as it is. -/
structure Same (t t' : MTree) : Prop where
  hung : Hung t → Hung t'
  ancestors : t'.root.ancestors = t.root.ancestors
  start : t'.root.start = t.root.start
  pattern : t'.root.pattern = t.root.pattern
  leaf : t.children = [] → t'.children = []
  leaves : (∀ c ∈ t.children, c.children = []) → ∀ c ∈ t'.children, c.children = []
  text : t'.root.inputString = t.root.inputString
  kept : ∀ c ∈ t'.children, ∃ x ∈ t.children, SameButLinks x.root c.root

theorem Same.refl (t : MTree) : Same t t := ⟨id, rfl, rfl, rfl, id, id, rfl, fun c hc => ⟨c, hc, .refl _⟩⟩

theorem Same.trans {a b c : MTree} (h : Same a b) (g : Same b c) : Same a c :=
  ⟨fun x => g.hung (h.hung x), g.ancestors.trans h.ancestors, g.start.trans h.start, g.pattern.trans h.pattern, fun x => g.leaf (h.leaf x), fun x => g.leaves (h.leaves x),
    g.text.trans h.text, fun c hc => by
      obtain ⟨x, hx, e1⟩ := g.kept c hc
      obtain ⟨y, hy, e2⟩ := h.kept x hx
      exact ⟨y, hy, e2.trans e1⟩⟩

theorem same_setRoot (t : MTree) {m : Match} (h1 : m.ancestors = t.root.ancestors) (h2 : m.start = t.root.start) (h3 : m.pattern = t.root.pattern)
    (h4 : m.inputString = t.root.inputString) : Same t (t.setRoot m) :=
  ⟨hung_setRoot m, h1, h2, h3, fun h => by rw [setRoot_children, h]; rfl, fun h c hc => by
    rw [setRoot_children] at hc
    obtain ⟨x, hx, rfl⟩ := List.mem_map.1 hc
    rw [relink_children, h x hx]; rfl, h4, fun c hc => by
    rw [setRoot_children] at hc
    obtain ⟨x, hx, rfl⟩ := List.mem_map.1 hc
    exact ⟨x, hx, relink_same _ _ _⟩⟩

theorem same_configure (p : Pattern) (idx : Nat) (child : Bool) (t : MTree) : Same t (t.setRoot (p.configure idx child t.root)) := by
  obtain ⟨b, v, f, h⟩ := configure_form p idx child t.root
  exact same_setRoot t (by rw [h _ rfl]) (by rw [h _ rfl]) (by rw [h _ rfl]) (by rw [h _ rfl])

theorem same_processMatch (p : Pattern) (idx : Nat) (child : Bool) (t : MTree) : Same t (p.processMatch idx child t).1 := same_configure p idx child t

theorem same_backtrack (p : Pattern) (idx : Nat) (child : Bool) (pat : Option Nat) : ∀ (is : List Nat) (t : MTree) (fs : List Bool),
    Same t (Chain.backtrack p idx child pat is t fs).1 ∧ ∀ seen, (Chain.backtrack p idx child pat is t fs).2 = some seen → Same t seen
  | [], t, fs => ⟨Same.refl t, by intro seen h; cases h⟩
  | i :: is, t, fs => by
    unfold Chain.backtrack
    simp only
    generalize hfs : Chain.dropAll t.children (Chain.positions t.children pat i) fs = fs'
    generalize ht1 : t.setRoot { t.root with stop := Chain.endOf t.root.start (Chain.alive t.children fs') } = t1
    have h1 : Same t t1 := by rw [← ht1]; exact same_setRoot t rfl rfl rfl rfl
    have h2 := h1.trans (same_configure p idx child t1)
    generalize ht2 : t1.setRoot (p.configure idx child t1.root) = t2 at h2
    have h3 : Same t (.node t2.root (Chain.alive t2.children fs')) := by
      refine ⟨fun h => ?_, h2.ancestors, h2.start, h2.pattern, fun h => ?_, fun h c hc => h2.leaves h c (alive_within c hc), h2.text,
        fun c hc => h2.kept c (alive_within c hc)⟩
      · refine hung_sub (cs := t2.children) ?_ alive_within
        have := h2.hung h
        cases t2
        exact this
      · have := h2.leaf h
        show Chain.alive t2.children fs' = []
        rw [this]; rfl
    split
    · exact ⟨h2, by intro seen h; cases h; exact h3⟩
    · obtain ⟨g1, g2⟩ := same_backtrack p idx child pat is t2 fs'
      exact ⟨h2.trans g1, fun seen h => h2.trans (g2 seen h)⟩

theorem same_chainMatch (p : Pattern) (idx : Nat) (child : Bool) (t : MTree) : Same t (Chain.processMatch p idx child t).1 := by
  have h := same_processMatch p idx child t
  unfold Chain.processMatch
  cases hp : p.processMatch idx child t with
  | mk t1 ok =>
    rw [hp] at h
    cases ok with
    | true => exact h
    | false =>
      simp only
      split
      · exact h
      · rename_i last _
        obtain ⟨g1, g2⟩ := same_backtrack p idx child last.root.pattern
          (groupByIndex (t1.children.filter (fun c => decide (c.root.pattern = last.root.pattern)))).keys.reverse t1 (t1.children.map (fun _ => true))
        split
        · rename_i seen hs
          rw [hs] at g2
          exact h.trans (g2 _ rfl)
        · rename_i t' hs
          rw [hs] at g1
          exact (h.trans g1).trans (same_setRoot t' rfl rfl rfl rfl)

theorem processChildren_same {proc : Nat → Bool → MTree → MTree × Bool} (hproc : ∀ i b t, Same t (proc i b t).1) (idx : Nat) : ∀ {l cs : List MTree},
    Pattern.processChildren proc idx l = some cs → ∀ c ∈ cs, ∃ x ∈ l, Same x c ∧ c = (proc idx true x).1
  | [], cs, h => by cases h; simp
  | x :: l, cs, h => by
    unfold Pattern.processChildren at h
    have hx := hproc idx true x
    cases hp : proc idx true x with
    | mk x' ok =>
      rw [hp] at h hx
      cases ok with
      | false => cases h
      | true =>
        simp only [Option.map_eq_some_iff] at h
        obtain ⟨cs', h1, rfl⟩ := h
        intro c hc
        rcases List.mem_cons.1 hc with rfl | hc
        · exact ⟨x, by simp, hx, by rw [hp]⟩
        · obtain ⟨y, hy, g⟩ := processChildren_same hproc idx h1 c hc
          exact ⟨y, List.mem_cons_of_mem _ hy, g⟩

theorem keepGoing_same {t t' : MTree} (h : Pattern.keepGoing (some t) = .ok (some t')) : t' = t ∧ t.root.start < t.root.stop := by
  unfold Pattern.keepGoing at h
  simp only at h
  split at h
  · cases h
  · cases h
  · rename_i ht
    cases h
    refine ⟨rfl, ?_⟩
    unfold Match.truthy? at ht
    split at ht
    · cases ht
    · simp only [Except.ok.injEq, bne_iff_ne, ne_eq] at ht
      omega

theorem emitted_links {p : Pattern} {T x : MTree} (h : x ∈ p.emitted T) :
    x = T ∨ (p.shouldIncludeChildren || p.privateChildren) = true ∧ x ∈ T.children := by
  unfold Pattern.emitted at h
  rcases List.mem_append.1 h with h | h
  · split at h
    · rw [List.mem_singleton] at h; exact Or.inl h
    · cases h
  · split at h
    · rename_i hc
      exact Or.inr ⟨hc, (List.mem_filter.1 h).1⟩
    · cases h

/-- What a pattern emits for a match. -/
theorem emits_hung {p : Pattern} {proc : Nat → Bool → MTree → MTree × Bool} (hproc : ∀ i b t, Same t (proc i b t).1) (hpre : p.preMatch = none)
    (hpost : p.postMatch = none) {idx : Nat} {t : MTree} (ht : Hung t) {l : List MTree} (h : p.processMatchesWith proc idx t = .ok l) :
    ∀ e ∈ l, ∃ T, Hung T ∧ T.root.ancestors = t.root.ancestors ∧ T.root.start = t.root.start ∧ T.root.pattern = t.root.pattern ∧ T.root.start < T.root.stop ∧ (e = T ∨ (p.shouldIncludeChildren || p.privateChildren) = true ∧ e ∈ T.children) ∧
      ((∀ c ∈ t.children, c.children = []) → ∀ c ∈ T.children, c.children = []) ∧ T.root.inputString = t.root.inputString ∧
      (∀ c ∈ T.children, ∃ x ∈ t.children, c.root.inputString = x.root.inputString) ∧
      ((∀ i b t, (proc i b t).1.root.span = t.root.span) → ∀ c ∈ T.children, ∃ x ∈ t.children, c.root.span = x.root.span) := by
  unfold Pattern.processMatchesWith at h
  rw [hpre, hpost] at h
  split at h
  · cases h
  · cases h; simp
  · rename_i t0 h0
    obtain ⟨e0, _⟩ := keepGoing_same h0
    subst e0
    have hp := hproc idx false t0
    split at h
    · cases h; simp
    · rename_i t1 h1
      rw [h1] at hp
      split at h
      · cases h; simp
      · rename_i cs hcs
        split at h
        · cases h
        · cases h; simp
        · rename_i t2 h2
          obtain ⟨e2, hwide⟩ := keepGoing_same h2
          subst e2
          cases h
          intro e he
          have hs := processChildren_same hproc idx hcs
          refine ⟨.node t1.root cs, ?_, hp.ancestors, hp.start, hp.pattern, hwide, emitted_links he, ?_, hp.text, ?_, ?_⟩
          · intro c hc
            obtain ⟨x, hx, g⟩ := hs c hc
            rw [g.1.ancestors]
            exact hp.hung ht x hx
          · intro hl c hc
            obtain ⟨x, hx, g⟩ := hs c hc
            exact g.1.leaf (hp.leaves hl x hx)
          · intro c hc
            obtain ⟨x, hx, g, _⟩ := hs c hc
            obtain ⟨y, hy, e⟩ := hp.kept x hx
            exact ⟨y, hy, g.text.trans e.text.symm⟩
          · intro hsp c hc
            obtain ⟨x, hx, _, g⟩ := hs c hc
            obtain ⟨y, hy, e⟩ := hp.kept x hx
            refine ⟨y, hy, ?_⟩
            rw [g, hsp, e.span]

/-! ## Building the match of a chain -/

theorem rebase_keeps {old new l : List Core} {c : Core} (hne : old ≠ []) (hn : Hangs [c] new) (h : Hangs [c] l) : Hangs [c] (rebase old new l) := by
  by_cases ho : old <:+ l
  · exact hangs_over hn h ho (by rw [List.suffix_nil]; exact hne)
  · rw [rebase_not ho]; exact h

/-- What is kept while the match is built: the children of a match to come have its parents, or the built match as first parent. -/
def HangsFrom (m : Match) (x : MTree) : Prop :=
  x.root.start < x.root.stop ∧ ∀ c ∈ x.children, Hangs (x.root.core :: x.root.ancestors) c.root.ancestors ∨ Hangs [m.core] c.root.ancestors

theorem hangsFrom_relink {m : Match} {old new : List Core} (hne : old ≠ []) (hn : Hangs [m.core] new) {y : MTree} (h : HangsFrom m y) :
    HangsFrom m (y.relink old new) := by
  refine ⟨by rw [relink_root]; exact h.1, ?_⟩
  intro c hc
  rw [relink_children] at hc
  obtain ⟨d, hd, rfl⟩ := List.mem_map.1 hc
  rw [relink_root, relink_root]
  show Hangs (y.root.core :: rebase old new y.root.ancestors) (rebase old new d.root.ancestors) ∨ Hangs [m.core] (rebase old new d.root.ancestors)
  rcases h.2 d hd with g | g
  · by_cases hy : old <:+ y.root.ancestors
    · left
      obtain ⟨q, hq, hw⟩ := g
      obtain ⟨a, ha⟩ := hy
      rw [hq, ← ha, show q ++ y.root.core :: (a ++ old) = (q ++ y.root.core :: a) ++ old by simp, rebase_append, rebase_append]
      exact ⟨q, by simp, hw⟩
    · by_cases ho : old <:+ d.root.ancestors
      · exact Or.inr (hangs_over hn g ho hy)
      · left
        rw [rebase_not ho, rebase_not hy]
        exact g
  · exact Or.inr (rebase_keeps hne hn g)

theorem contains_parents {cs : List MTree} {x : MTree} (h : Chain.contains cs x = true) : ∃ t ∈ cs, t.root.ancestors = x.root.ancestors := by
  unfold Chain.contains at h
  obtain ⟨t, ht, he⟩ := List.any_eq_true.1 h
  exact ⟨t, ht, congrArg Match.EqKey.parents ((Match.eqv_iff _ _).1 he)⟩

theorem go_hung (m : Match) : ∀ (n : Nat) (cs xs : List MTree), (∀ y ∈ cs, Hangs [m.core] y.root.ancestors) → (∀ x ∈ xs, HangsFrom m x) →
    ∀ y ∈ Chain.buildChildren.go m n cs xs, Hangs [m.core] y.root.ancestors
  | 0, cs, xs, h, _ => by
    have : Chain.buildChildren.go m 0 cs xs = cs := by unfold Chain.buildChildren.go; cases xs <;> rfl
    rw [this]; exact h
  | n + 1, cs, [], h, _ => by
    have : Chain.buildChildren.go m (n + 1) cs [] = cs := by unfold Chain.buildChildren.go; rfl
    rw [this]; exact h
  | n + 1, cs, x :: xs, h, hx => by
    unfold Chain.buildChildren.go
    simp only
    obtain ⟨hw, hx0⟩ := hx x List.mem_cons_self
    split
    · rename_i hc
      refine go_hung m n _ xs ?_ (fun y hy => hx y (List.mem_cons_of_mem _ hy))
      -- an equal match has the same parents
      have htop : Hangs [m.core] x.root.ancestors := by
        obtain ⟨t, ht, he⟩ := contains_parents hc
        rw [← he]
        rcases List.mem_append.1 ht with ht | ht
        · exact h t ht
        · rcases hx0 t ht with ⟨q, g, _⟩ | g
          · rw [he] at g
            have := congrArg List.length g
            simp only [List.length_append, List.length_cons] at this
            omega
          · exact g
      intro y hy
      rcases List.mem_append.1 hy with hy | hy
      · exact h y hy
      · rcases hx0 y hy with g | g
        · exact (htop.trans (hangs_cons _ hw)).trans g
        · exact g
    · have hnew : Hangs [m.core] ((x.setRoot { x.root with ancestors := [m.core] }).root.core :: (x.setRoot { x.root with ancestors := [m.core] }).root.ancestors) :=
        hangs_cons _ hw
      have hne : (x.root.core :: x.root.ancestors) ≠ [] := by simp
      refine go_hung m n _ _ ?_ ?_
      · intro y hy
        rcases List.mem_append.1 hy with hy | hy
        · rw [relinkList_eq] at hy
          obtain ⟨z, hz, rfl⟩ := List.mem_map.1 hy
          rw [relink_root]
          rcases List.mem_append.1 hz with hz | hz
          · exact rebase_keeps hne hnew (h z hz)
          · rcases hx0 z hz with g | g
            · exact hnew.trans (hangs_rebase g)
            · exact rebase_keeps hne hnew g
        · rw [List.mem_singleton] at hy
          subst hy
          exact .refl _
      · intro y hy
        obtain ⟨z, hz, rfl⟩ := List.mem_map.1 hy
        exact hangsFrom_relink hne hnew (hx z (List.mem_cons_of_mem _ hz))

theorem build_hung {c : Chain} {input : Str} {cur : List MTree} {t : MTree} (hcur : ∀ x ∈ cur, Hung x ∧ x.root.start < x.root.stop) (h : c.build input cur = .ok t) :
    Hung t ∧ t.root.ancestors = [] := by
  unfold Chain.build at h
  split at h
  · cases h
  · simp only at h
    split at h
    · cases h
    · cases h
      refine ⟨fun y hy => ?_, rfl⟩
      exact go_hung _ _ [] cur (by simp) (fun x hx => ⟨(hcur x hx).2, fun k hk => Or.inl ((hcur x hx).1 k hk)⟩) y hy

/-! ## Moving matches to their place -/

theorem fix_hung {input s : Str} (pos : Int) {t : MTree} (h : Hung t) (ht : t.root.inputString = some s) (hc : ∀ k ∈ t.children, k.root.inputString = some s) :
    Hung (t.fix input pos) := by
  cases t with
  | node m cs =>
    have ht : m.inputString = some s := ht
    rw [MTree.fix]
    by_cases he : s = input
    · rw [if_neg (by rw [ht, he]; simp)]
      intro c hcm
      have hcm : c ∈ MTree.fixList input pos cs := hcm
      rw [fixList_eq] at hcm
      obtain ⟨k, hk, rfl⟩ := List.mem_map.1 hcm
      rw [fix_root, if_neg (by rw [hc k hk, he]; simp)]
      exact h k hk
    · rw [if_pos (by rw [ht]; simpa using he)]
      intro c hcm
      have hcm : c ∈ MTree.relinkList (m.core.shift pos :: (m.moved input pos).ancestors) ((m.moved input pos).core :: (m.moved input pos).ancestors)
        (MTree.fixList input pos cs) := hcm
      rw [relinkList_eq, fixList_eq] at hcm
      obtain ⟨c', hc', rfl⟩ := List.mem_map.1 hcm
      obtain ⟨k, hk, rfl⟩ := List.mem_map.1 hc'
      rw [relink_root]
      refine hangs_rebase (old := m.core.shift pos :: (m.moved input pos).ancestors) ?_
      rw [fix_root, if_pos (by rw [hc k hk]; simpa using he)]
      obtain ⟨a, ha, hw⟩ := h k hk
      have ha : k.root.ancestors = a ++ (m.core :: m.ancestors) := ha
      refine ⟨a.map (Core.shift pos), ?_, ?_⟩
      · show k.root.ancestors.map (Core.shift pos) = _
        rw [ha, List.map_append]
        rfl
      · intro x hx
        obtain ⟨y, hy, rfl⟩ := List.mem_map.1 hx
        have := hw y hy
        show y.start + pos < y.stop + pos
        omega

/-! ## The search of a chain -/

theorem fix_text (input : Str) (pos : Int) (t : MTree) : (t.fix input pos).root.inputString = some input := by
  rw [fix_root]
  split
  · rfl
  · rename_i h
    simpa using h

theorem fix_family {input s : Str} (pos : Int) {t : MTree} (h : FamilyIn s t) : FamilyIn input (t.fix input pos) := by
  refine ⟨fix_hung pos h.hung h.text.1 h.text.2, ⟨fix_text _ _ _, ?_⟩, ?_⟩
  · intro c hc
    obtain ⟨g, hg, he⟩ := fix_children input pos t
    rw [he] at hc
    obtain ⟨k, _, rfl⟩ := List.mem_map.1 hc
    rcases hg with rfl | ⟨old, new, rfl⟩
    · exact fix_text _ _ _
    · rw [relink_root]
      exact fix_text _ _ _
  · have hne := h.wide
    rw [fix_root]
    split
    · show _ + _ < _ + _
      omega
    · exact hne

theorem nextGroups_mem (c : Chain) (input : Str) (hidden : Bool) (groups : Dict Nat (List MTree)) : ∀ (l : Dict Nat (List MTree)) (st st' : ChainSt),
    c.nextGroups input hidden groups l st = .ok st' → ∀ x ∈ st'.current, x ∈ st.current ∨ ∃ i, x ∈ (groups.get? i).getD []
  | [], st, st', h, x, hx => by
    simp only [Chain.nextGroups, Except.ok.injEq] at h
    subst h
    exact Or.inl hx
  | (i, raws) :: rest, st, st', h, x, hx => by
    unfold Chain.nextGroups at h
    split at h
    · cases h
    · simp only at h
      split at h
      · exact nextGroups_mem c input hidden groups rest _ st' h x hx
      · split at h
        · cases h
        · rcases nextGroups_mem c input hidden groups rest _ st' h x hx with g | g
          · rcases List.mem_append.1 g with g | g
            · exact Or.inl g
            · exact Or.inr ⟨i, g⟩
          · exact Or.inr g
        · exact nextGroups_mem c input hidden groups rest _ st' h x hx

theorem toNext_mem {c : Chain} {input : Str} {part : Part} {ms raws : List MTree} {st st' : ChainSt} (h : c.toNext input part ms raws st = .ok st') :
    ∀ x ∈ st'.current, x ∈ st.current ∨ ∃ t ∈ ms, x = t.fix input st.offset := by
  unfold Chain.toNext at h
  simp only at h
  intro x hx
  split at h
  · cases h
    exact Or.inl hx
  · rcases nextGroups_mem c input _ _ _ _ _ h x hx with g | ⟨i, g⟩
    · exact Or.inl g
    · rw [groupByIndex_get, fixList_eq] at g
      obtain ⟨t, ht, rfl⟩ := List.mem_map.1 (List.mem_filter.1 g).1
      exact Or.inr ⟨t, ht, rfl⟩

theorem runParts_family (c : Chain) (input : Str) : ∀ (parts : List Part) (first : Bool) (st st' : ChainSt) (v : Bool),
    (∀ p ∈ parts, FindsFamilies p) → (∀ x ∈ st.current, FamilyIn input x) → c.runParts input first parts st = .ok (st', v) → ∀ x ∈ st'.current, FamilyIn input x
  | [], first, st, st', v, _, hc, h => by
    simp only [Chain.runParts, Except.ok.injEq, Prod.mk.injEq] at h
    rw [← h.1]; exact hc
  | part :: rest, first, st, st', v, hp, hc, h => by
    unfold Chain.runParts at h
    split at h
    · simp only [Except.ok.injEq, Prod.mk.injEq] at h
      rw [← h.1]
      cases hcur : st.current with
      | nil => simp [hcur]
      | cons y ys => rw [hcur] at hc; simpa using hc
    · cases h
    · rename_i kept raws hm
      split at h
      · cases h
      · rename_i s1 hn
        refine runParts_family c input rest false s1 st' v (fun p h => hp p (List.mem_cons_of_mem _ h)) ?_ h
        intro x hx
        rcases toNext_mem hn x hx with g | ⟨t, ht, rfl⟩
        · exact hc x g
        · obtain ⟨em0, raws0, hs, hk, _, _⟩ := matchesOf_ok hm
          exact fix_family st.offset (hp part (by simp) _ _ _ hs t (truncate_sub.subset (by rw [← hk]; exact ht)))

/-- What is made of the children while the match is built keeps their text. -/
theorem go_text (m : Match) (s : Str) : ∀ (n : Nat) (cs xs : List MTree), (∀ y ∈ cs, y.root.inputString = some s) →
    (∀ x ∈ xs, x.root.inputString = some s ∧ ∀ k ∈ x.children, k.root.inputString = some s) →
    ∀ y ∈ Chain.buildChildren.go m n cs xs, y.root.inputString = some s
  | 0, cs, xs, h, _ => by
    have : Chain.buildChildren.go m 0 cs xs = cs := by unfold Chain.buildChildren.go; cases xs <;> rfl
    rw [this]; exact h
  | n + 1, cs, [], h, _ => by
    have : Chain.buildChildren.go m (n + 1) cs [] = cs := by unfold Chain.buildChildren.go; rfl
    rw [this]; exact h
  | n + 1, cs, x :: xs, h, hx => by
    unfold Chain.buildChildren.go
    simp only
    obtain ⟨h0, h1⟩ := hx x List.mem_cons_self
    have hboth : ∀ y ∈ cs ++ x.children, y.root.inputString = some s := by
      intro y hy
      rcases List.mem_append.1 hy with hy | hy
      · exact h y hy
      · exact h1 y hy
    split
    · exact go_text m s n _ xs hboth (fun y hy => hx y (List.mem_cons_of_mem _ hy))
    · refine go_text m s n _ _ ?_ ?_
      · intro y hy
        rcases List.mem_append.1 hy with hy | hy
        · rw [relinkList_eq] at hy
          obtain ⟨z, hz, rfl⟩ := List.mem_map.1 hy
          rw [relink_root]
          exact hboth z hz
        · rw [List.mem_singleton] at hy
          subst hy
          exact h0
      · intro y hy
        obtain ⟨z, hz, rfl⟩ := List.mem_map.1 hy
        obtain ⟨k0, k1⟩ := hx z (List.mem_cons_of_mem _ hz)
        refine ⟨by rw [relink_root]; exact k0, fun k hk => ?_⟩
        rw [relink_children] at hk
        obtain ⟨w, hw, rfl⟩ := List.mem_map.1 hk
        rw [relink_root]
        exact k1 w hw

theorem build_text {c : Chain} {input : Str} {cur : List MTree} {t : MTree} (hcur : ∀ x ∈ cur, FamilyIn input x) (h : c.build input cur = .ok t) :
    t.root.inputString = some input ∧ ∀ k ∈ t.children, k.root.inputString = some input := by
  unfold Chain.build at h
  split at h
  · cases h
  · simp only at h
    split at h
    · cases h
    · cases h
      exact ⟨rfl, fun y hy => go_text _ input _ [] cur (by simp) (fun x hx => (hcur x hx).text) y hy⟩

/-- A match of a chain: without parent, found in the text. -/
structure ChainFamily (input : Str) (t : MTree) : Prop where
  hung : Hung t
  top : t.root.ancestors = []
  text : t.root.inputString = some input ∧ ∀ k ∈ t.children, k.root.inputString = some input

theorem loop_family (c : Chain) (input : Str) (hp : ∀ p ∈ c.parts, FindsFamilies p) :
    ∀ (fuel : Nat) (ci : Str) (o : Int) (acc ts : List MTree),
      c.loop input fuel ci o acc = .ok ts → (∀ t ∈ acc, ChainFamily input t) → ∀ t ∈ ts, ChainFamily input t
  | 0, ci, o, acc, ts, h, ha => by
    unfold Chain.loop at h
    split at h
    · cases h
    · cases h; exact ha
  | fuel + 1, ci, o, acc, ts, h, ha => by
    unfold Chain.loop at h
    split at h
    · split at h
      · cases h
      · rename_i st v he
        have hcur := runParts_family c input c.parts true _ _ v hp (by simp) he
        split at h
        · cases h; exact ha
        · split at h
          · split at h
            · cases h
            · rename_i m hm
              refine loop_family c input hp fuel _ _ _ ts h ?_
              intro t ht
              rcases List.mem_append.1 ht with ht | ht
              · exact ha t ht
              · rw [List.mem_singleton] at ht
                subst ht
                obtain ⟨b1, b2⟩ := build_hung (fun x hx => ⟨(hcur x hx).hung, (hcur x hx).wide⟩) hm
                exact ⟨b1, b2, build_text hcur hm⟩
          · exact loop_family c input hp fuel _ _ _ ts h ha
    · cases h; exact ha

theorem rawMatches_family {c : Chain} {input : Str} {ts : List MTree} (hp : ∀ p ∈ c.parts, FindsFamilies p)
    (h : c.rawMatches input = .ok ts) : ∀ t ∈ ts, ChainFamily input t :=
  loop_family c input hp _ _ _ _ ts h (by simp)

/-! ## Parts -/

/-- What a pattern without processors emits for raw matches whose children have them as parent. -/
theorem matchesWithRaws_hung {p : Pattern} (hn : NoProcessors p) {proc : Nat → Bool → MTree → MTree × Bool} (hproc : ∀ i b t, Same t (proc i b t).1)
    {L : List (List MTree)} (hL : ∀ l ∈ L, ∀ t ∈ l, Hung t) {em raws : List MTree} (h : p.matchesWithRaws proc L = .ok (em, raws)) :
    ∀ e ∈ em, ∃ l ∈ L, ∃ t ∈ l, ∃ T, Hung T ∧ T.root.ancestors = t.root.ancestors ∧ T.root.start = t.root.start ∧ T.root.pattern = t.root.pattern ∧
      T.root.start < T.root.stop ∧ (e = T ∨ (p.shouldIncludeChildren || p.privateChildren) = true ∧ e ∈ T.children) ∧
      ((∀ c ∈ t.children, c.children = []) → ∀ c ∈ T.children, c.children = []) ∧ T.root.inputString = t.root.inputString ∧
      (∀ c ∈ T.children, ∃ x ∈ t.children, c.root.inputString = x.root.inputString) ∧
      ((∀ i b t, (proc i b t).1.root.span = t.root.span) → ∀ c ∈ T.children, ∃ x ∈ t.children, c.root.span = x.root.span) := by
  unfold Pattern.matchesWithRaws at h
  cases hl : Pattern.processAll (p.processMatchesWith proc) L with
  | error e => rw [hl] at h; cases h
  | ok out =>
    rw [hl] at h
    simp only [Pattern.postProcess, hn.2.2, Except.ok.injEq, Prod.mk.injEq] at h
    obtain ⟨rfl, _⟩ := h
    intro e he
    obtain ⟨l, k, t, r, h1, h2, h3, h4⟩ := processAll_mem hl e he
    have ht := List.mem_of_getElem? h2
    exact ⟨l, h1, t, ht, emits_hung hproc hn.1 hn.2.1 (hL l h1 t ht) h3 e h4⟩

theorem leaf_hung {t : MTree} (h : t.children = []) : Hung t := by intro c hc; rw [h] at hc; cases hc

/-- A match of a search in the text `s`, whose children, found there too, are not empty and have no children. -/
structure RawFamily (s : Str) (t : MTree) : Prop where
  hung : Hung t
  leaves : ∀ c ∈ t.children, c.children = []
  text : t.root.inputString = some s
  texts : ∀ c ∈ t.children, c.root.inputString = some s
  wides : ∀ c ∈ t.children, c.root.start < c.root.stop

theorem processMatch_place (p : Pattern) (i : Nat) (b : Bool) (t : MTree) : (p.processMatch i b t).1.root.span = t.root.span := by
  show (t.setRoot (p.configure i b t.root)).root.span = t.root.span
  obtain ⟨b', v, f, h⟩ := configure_form p i b t.root
  show (p.configure i b t.root).span = t.root.span
  rw [h _ rfl]
  rfl

/-- What is emitted for such matches: families again. -/
theorem matchesWithRaws_together {p : Pattern} (hn : NoProcessors p) {s : Str} {L : List (List MTree)} (hL : ∀ l ∈ L, ∀ t ∈ l, RawFamily s t)
    {em raws : List MTree} (h : p.matchesWithRaws p.processMatch L = .ok (em, raws)) : ∀ e ∈ em, FamilyIn s e := by
  intro e he
  obtain ⟨l, h1, t, h2, T, h3, _, _, _, hw, h4, h5, h6, h7, h8⟩ := matchesWithRaws_hung hn (same_processMatch p) (fun l hl t ht => (hL l hl t ht).hung) h e he
  have ht := hL l h1 t h2
  have htx : ∀ c ∈ T.children, c.root.inputString = some s := by
    intro c hc
    obtain ⟨x, hx, e⟩ := h7 c hc
    rw [e]; exact ht.texts x hx
  rcases h4 with rfl | ⟨_, h4⟩
  · exact ⟨h3, ⟨by rw [h6]; exact ht.text, htx⟩, hw⟩
  · have hl := h5 ht.leaves e h4
    refine ⟨leaf_hung hl, ⟨htx e h4, by rw [hl]; simp⟩, ?_⟩
    obtain ⟨x, hx, e1⟩ := h8 (processMatch_place p) e h4
    have a1 : e.root.start = x.root.start := congrArg Prod.fst e1
    have a2 : e.root.stop = x.root.stop := congrArg Prod.snd e1
    have := ht.wides x hx
    omega

theorem raw_leaf {s : Str} {t : MTree} (h : t.children = []) (hs : t.root.inputString = some s) : RawFamily s t :=
  ⟨leaf_hung h, by simp [h], hs, by simp [h], by simp [h]⟩

theorem matchWithArgs_text {p : Pattern} {input : Str} {a : MatchArgs} {m : Match} (h : p.matchWithArgs input a = .ok m) : m.inputString = some input := by
  unfold Pattern.matchWithArgs at h
  split at h
  · cases h; rfl
  · cases h

theorem functionalLoop_family {p : Pattern} {input : Str} : ∀ {rs : List FRet} {l : List MTree}, p.functionalLoop input rs = .ok l →
    ∀ t ∈ l, t.children = [] ∧ t.root.inputString = some input
  | [], l, h => by cases h; simp
  | r :: rs, l, h => by
    unfold Pattern.functionalLoop at h
    split at h
    · cases h
    · split at h
      · cases h
      · rename_i m hm
        split at h
        · cases h
        · split at h
          · cases h
          · rename_i l' hl
            cases h
            intro t ht
            have key : t = .node m [] ∨ t ∈ l' := by
              split at ht
              · exact List.mem_cons.1 ht
              · exact Or.inr ht
            rcases key with rfl | key
            · exact ⟨rfl, matchWithArgs_text hm⟩
            · exact functionalLoop_family hl t key

theorem matchString_leafed {p : Pattern} {lower : Str → Str} {o : StringOpts} {input sub : Str} {l : List MTree} (h : p.matchString lower o input sub = .ok l) :
    ∀ t ∈ l, t.children = [] ∧ t.root.inputString = some input := by
  unfold Pattern.matchString at h
  split at h
  · cases h
  · cases h
    intro t ht
    obtain ⟨ht1, _⟩ := List.mem_filter.1 ht
    obtain ⟨_, _, rfl⟩ := List.mem_map.1 ht1
    exact ⟨rfl, rfl⟩

theorem reChildren_parents {p : Pattern} {rc : Bool} {s : Str} {main : Match} : ∀ {names : List (Option String)} {gs : List ReGroup},
    (∀ g ∈ gs, ∀ sp ∈ g.used rc, sp.1 ≤ sp.2) →
    ∀ k ∈ p.reChildren rc s main names gs, k.ancestors = main.core :: main.ancestors ∧ k.inputString = some s ∧ k.start < k.stop
  | [], _, _, k, hk => by simp [Pattern.reChildren] at hk
  | _ :: _, [], _, k, hk => by simp [Pattern.reChildren] at hk
  | n :: ns, g :: gs, hf, k, hk => by
    unfold Pattern.reChildren at hk
    rcases List.mem_append.1 hk with hk | hk
    · obtain ⟨hk, hl⟩ := List.mem_filter.1 hk
      obtain ⟨sp, hsp, rfl⟩ := List.mem_map.1 hk
      refine ⟨rfl, rfl, ?_⟩
      have h1 := hf g (by simp) sp hsp
      have h2 : sp.2 - sp.1 ≠ 0 := by
        intro hz
        simp [Match.len, Pattern.newChild, Pattern.newMatch, hz] at hl
      show sp.1 < sp.2
      omega
    · exact reChildren_parents (fun g hg => hf g (List.mem_cons_of_mem _ hg)) k hk

theorem reMatch_hung {p : Pattern} {rc : Bool} {names : List (Option String)} {s : Str} {o : ReObj} {l : List MTree}
    (hf : ∀ g ∈ o.groups, ∀ sp ∈ g.used rc, sp.1 ≤ sp.2) (h : p.reMatch rc names s o = .ok l) :
    ∀ t ∈ l, RawFamily s t := by
  unfold Pattern.reMatch at h
  simp only at h
  split at h
  · cases h
  · cases h
    intro t ht
    split at ht
    · rw [List.mem_singleton] at ht
      subst ht
      refine ⟨?_, ?_, rfl, ?_, ?_⟩
      · intro c hc
        obtain ⟨k, hk, rfl⟩ := List.mem_map.1 hc
        show Hangs _ k.ancestors
        rw [(reChildren_parents hf k hk).1]
        exact .refl _
      · intro c hc
        obtain ⟨k, _, rfl⟩ := List.mem_map.1 hc
        rfl
      · intro c hc
        obtain ⟨k, hk, rfl⟩ := List.mem_map.1 hc
        exact (reChildren_parents hf k hk).2.1
      · intro c hc
        obtain ⟨k, hk, rfl⟩ := List.mem_map.1 hc
        exact (reChildren_parents hf k hk).2.2
    · cases ht

theorem matchRegex_hung {p : Pattern} {rc : Bool} {re : Regex} {s : Str} : ∀ {os : List ReObj} {l : List MTree},
    (∀ o ∈ os, ∀ g ∈ o.groups, ∀ sp ∈ g.used rc, sp.1 ≤ sp.2) → Pattern.matchRegex.go p rc re s os = .ok l → ∀ t ∈ l, RawFamily s t
  | [], l, _, h => by cases h; simp
  | o :: os, l, hf, h => by
    simp only [Pattern.matchRegex.go] at h
    split at h
    · cases h
    · rename_i l1 h1
      split at h
      · cases h
      · rename_i l2 h2
        cases h
        intro t ht
        rcases List.mem_append.1 ht with ht | ht
        · exact reMatch_hung (hf o (by simp)) h1 t ht
        · exact matchRegex_hung (fun o ho => hf o (List.mem_cons_of_mem _ ho)) h2 t ht

theorem collected_each {α : Type} {f : α → Except PyErr (List MTree)} {P : MTree → Prop} {xs : List α} (hf : ∀ x ∈ xs, ∀ l, f x = .ok l → ∀ t ∈ l, P t) {L : List (List MTree)}
    (h : collectRaws (xs.map f) = .ok L) : ∀ l ∈ L, ∀ t ∈ l, P t := by
  have := collectRaws_inv h
  intro l hl
  have hm : (Except.ok l : Except PyErr (List MTree)) ∈ xs.map f := by rw [this]; exact List.mem_map_of_mem hl
  obtain ⟨x, hx, he⟩ := List.mem_map.1 hm
  exact hf x hx l he

end Rebulk
