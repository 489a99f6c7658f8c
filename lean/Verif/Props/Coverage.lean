import Verif.Props.Origin
import Verif.Props.RebulkSimple
/-!
# Nested rebulks, what introspection covers, loading modules (`C85`, `C86`, `C88`)
-/
namespace Rebulk
open Spec
variable {Ctx : Type}

/-! ## `C85` -/

/-- **C85** is false: the pattern of a grandchild is not run. -/
theorem C85_refuted : ∃ (r c g : RebulkObj Unit) (p : PatternObj Unit), c ∈ r.children ∧ g ∈ c.children ∧ p ∈ g.patterns ∧
    (∃ m l, p.matches_ exEnv.lower "ab".toList = .ok (m :: l) ∧ m.root.priv = false) ∧ r.disabled () = false ∧ c.disabled () = false ∧ g.disabled () = false ∧
    p.info.disabled () = false ∧ (∃ f, r.matches_ exEnv "ab".toList () = .ok f ∧ f.found.delegate.map Match.span = []) := by
  let p : PatternObj Unit := exPattern 1 { name := some "a" } ["ab"]
  let g : RebulkObj Unit := { patterns := [p] }
  let c : RebulkObj Unit := { children := [g] }
  let r : RebulkObj Unit := { children := [c] }
  exact ⟨r, c, g, p, List.mem_cons_self, List.mem_cons_self, List.mem_cons_self, ⟨_, _, rfl, rfl⟩, rfl, rfl, rfl, rfl, _, rfl, by decide⟩

/-- **C85** for the rebulk itself and its direct children: their patterns, the own ones being different objects or not, are all run. -/
theorem C85_partial (r : RebulkObj Ctx) (ctx : Ctx) (x : RebulkObj Ctx) (hx : x = r ∨ (x ∈ r.children ∧ x.disabled ctx = false)) (p : PatternObj Ctx)
    (hp : p ∈ x.patterns) : ∃ q ∈ r.effectivePatterns ctx, q.id = p.id := by
  obtain ⟨news, h1, h2⟩ := C71_patterns r ctx
  rw [h1]
  rcases hx with rfl | ⟨hx, hd⟩
  · exact ⟨p, List.mem_append_left _ hp, rfl⟩
  · rcases h2.complete p (List.mem_flatMap.2 ⟨x, List.mem_filter.2 ⟨hx, by simp [hd]⟩, hp⟩) with ⟨q, hq, he⟩ | ⟨q, hq, he⟩
    · exact ⟨q, List.mem_append_left _ hq, he⟩
    · exact ⟨q, List.mem_append_right _ hq, he⟩

/-! ## `C86` -/

/-- What is known of a match given by a pattern that is not a chain. -/
structure FromRaw (p : Pattern) (t : MTree) (m : Match) : Prop where
  from_ : m.name = t.root.name ∨ (∃ c ∈ t.children, m.name = c.root.name ∧ (m.priv = false → p.privateChildren = false))
  public_ : m.priv = false → ∀ n, m.name = some n → n ≠ "" → n ∉ p.privateNames

theorem configure_private (p : Pattern) (idx : Nat) (child : Bool) (m : Match) :
    (p.configure idx child m).name = m.name ∧ ((p.configure idx child m).priv = false →
      (child = true → p.privateChildren = false) ∧ ∀ n, m.name = some n → n ≠ "" → n ∉ p.privateNames) := by
  have hf : ∀ x : Match, (p.processFormatter child x).name = x.name ∧ (p.processFormatter child x).priv = x.priv := by
    intro x
    unfold Pattern.processFormatter
    simp only
    generalize ((if child = true then p.shouldIncludeChildren else p.shouldIncludeParent) || p.formatAll) = b
    cases b <;> exact ⟨rfl, rfl⟩
  have hv : ∀ x : Match, (p.processValue child x).name = x.name ∧ (p.processValue child x).priv = x.priv := by
    intro x
    unfold Pattern.processValue
    simp only
    split <;> exact ⟨rfl, rfl⟩
  unfold Pattern.configure
  rw [(hf _).1, (hv _).1, (hf _).2, (hv _).2]
  unfold Pattern.processPrivate
  split
  · exact ⟨rfl, fun h => by cases h⟩
  · next hc =>
    refine ⟨rfl, fun _ => ?_⟩
    simp only [Bool.or_eq_true, Bool.and_eq_true, not_or, not_and] at hc
    obtain ⟨⟨h1, _⟩, h3⟩ := hc
    refine ⟨fun h => by cases hp : p.privateChildren with | false => rfl | true => exact absurd hp (h3 h), ?_⟩
    intro n hn hne hmem
    apply h1
    unfold Pattern.nameIn Match.nameKey Pattern.processIndex
    simp only [hn]
    rw [if_neg (by simpa using hne)]
    simpa using hmem

theorem processChildren_from (p : Pattern) (idx : Nat) : ∀ (cs cs' : List MTree), Pattern.processChildren p.processMatch idx cs = some cs' →
    ∀ x ∈ cs', ∃ c ∈ cs, x.root = p.configure idx true c.root
  | [], cs', h => by injection h with h; subst h; simp
  | c :: cs, cs', h => by
    unfold Pattern.processChildren at h
    split at h
    · cases h
    · next c1 hc =>
      cases hr : Pattern.processChildren p.processMatch idx cs with
      | none => rw [hr] at h; cases h
      | some r =>
        rw [hr] at h
        injection h with h; subst h
        intro x hx
        rcases List.mem_cons.1 hx with rfl | hx
        · refine ⟨c, List.mem_cons_self, ?_⟩
          unfold Pattern.processMatch at hc
          simp only at hc
          injection hc with hc _
          rw [← hc]; rfl
        · obtain ⟨c', hc', he⟩ := processChildren_from p idx cs r hr x hx
          exact ⟨c', List.mem_cons_of_mem _ hc', he⟩

theorem processMatches_from {p : Pattern} (hn : NoProcessor p) (idx : Nat) (t : MTree) {out : List MTree} (h : p.processMatches idx t = .ok out) :
    ∀ x ∈ out, FromRaw p t x.root := by
  unfold Pattern.processMatches Pattern.processMatchesWith at h
  cases hk : Pattern.keepGoing (Pattern.processProcessor p.preMatch t) with
  | error e => rw [hk] at h; cases h
  | ok o =>
    rw [hk] at h
    cases o with
    | none => injection h with h; subst h; simp
    | some t1 =>
      have := keepGoing_some hn.1 hk; subst this
      simp only at h
      cases hm : p.processMatch idx false t1 with
      | mk t2 b =>
        rw [hm] at h
        have ht2 : t2 = t1.setRoot (p.configure idx false t1.root) := by
          unfold Pattern.processMatch at hm
          injection hm with hm _
          exact hm.symm
        cases b with
        | false => injection h with h; subst h; simp
        | true =>
          simp only at h
          cases hc : Pattern.processChildren p.processMatch idx t2.children with
          | none => rw [hc] at h; injection h with h; subst h; simp
          | some cs =>
            rw [hc] at h
            simp only at h
            cases hk2 : Pattern.keepGoing (Pattern.processProcessor p.postMatch (.node t2.root cs)) with
            | error e => rw [hk2] at h; cases h
            | ok o =>
              rw [hk2] at h
              cases o with
              | none => injection h with h; subst h; simp
              | some t3 =>
                have := keepGoing_some hn.2.1 hk2; subst this
                injection h with h; subst h
                intro x hx
                unfold Pattern.emitted at hx
                rcases List.mem_append.1 hx with hx | hx
                · split at hx
                  · rw [List.mem_singleton] at hx; subst hx
                    have hr : (MTree.node t2.root cs).root = p.configure idx false t1.root := by rw [ht2]; rfl
                    rw [hr]
                    obtain ⟨h1, h2⟩ := configure_private p idx false t1.root
                    exact ⟨.inl h1, fun hp n hn' => (h2 hp).2 n (h1 ▸ hn')⟩
                  · cases hx
                · split at hx
                  · obtain ⟨c, hcm, he⟩ := processChildren_from p idx _ _ hc x (List.mem_filter.1 hx).1
                    rw [ht2, setRoot_children] at hcm
                    obtain ⟨c0, hc0, rfl⟩ := List.mem_map.1 hcm
                    obtain ⟨h1, h2⟩ := configure_private p idx true (c0.relink (t1.root.core :: t1.root.ancestors)
                      ((p.configure idx false t1.root).core :: (p.configure idx false t1.root).ancestors)).root
                    rw [he]
                    refine ⟨.inr ⟨c0, hc0, ?_, fun hp => (h2 hp).1 rfl⟩, fun hp n hn' => (h2 hp).2 n (h1 ▸ hn')⟩
                    rw [h1, relink_root]
                  · cases hx

theorem processRaws_trace {process : Nat → MTree → Except PyErr (List MTree)} {R : MTree → MTree → Prop}
    (hp : ∀ i t out, process i t = .ok out → ∀ x ∈ out, R t x) : ∀ (raws : List MTree) (i : Nat) (out : List MTree),
    Pattern.processRaws process i raws = .ok out → ∀ x ∈ out, ∃ t ∈ raws, R t x
  | [], i, out, he => by injection he with he; subst he; simp
  | t :: ts, i, out, he => by
    unfold Pattern.processRaws at he
    split at he
    · cases he
    · next l h1 =>
      split at he
      · cases he
      · next r h2 =>
        injection he with he; subst he
        intro x hx
        rcases List.mem_append.1 hx with hx | hx
        · exact ⟨t, List.mem_cons_self, hp i t l h1 x hx⟩
        · obtain ⟨t', ht, hR⟩ := processRaws_trace hp ts (i + 1) r h2 x hx
          exact ⟨t', List.mem_cons_of_mem _ ht, hR⟩

theorem processAll_trace {process : Nat → MTree → Except PyErr (List MTree)} {R : MTree → MTree → Prop}
    (hp : ∀ i t out, process i t = .ok out → ∀ x ∈ out, R t x) : ∀ (L : List (List MTree)) (out : List MTree),
    Pattern.processAll process L = .ok out → ∀ x ∈ out, ∃ raws ∈ L, ∃ t ∈ raws, R t x
  | [], out, he => by injection he with he; subst he; simp
  | l :: L, out, he => by
    unfold Pattern.processAll at he
    split at he
    · cases he
    · next a h1 =>
      split at he
      · cases he
      · next r h2 =>
        injection he with he; subst he
        intro x hx
        rcases List.mem_append.1 hx with hx | hx
        · obtain ⟨t, ht, hR⟩ := processRaws_trace hp l 0 a h1 x hx
          exact ⟨l, List.mem_cons_self, t, ht, hR⟩
        · obtain ⟨raws, hr, t, ht, hR⟩ := processAll_trace hp L r h2 x hx
          exact ⟨raws, List.mem_cons_of_mem _ hr, t, ht, hR⟩

/-- The matches of a pattern that is not a chain come from raw matches. -/
theorem withRaws_from {p : Pattern} (hn : NoProcessor p) {Q : MTree → Prop} {L : List (List MTree)} (hL : ∀ raws ∈ L, ∀ t ∈ raws, Q t) {out raws : List MTree}
    (h : p.matchesWithRaws p.processMatch L = .ok (out, raws)) : ∀ x ∈ out, ∃ t, Q t ∧ FromRaw p t x.root := by
  unfold Pattern.matchesWithRaws Pattern.postProcess at h
  rw [hn.2.2] at h
  split at h
  · cases h
  · next l hl =>
    injection h with h; injection h with h _; subst h
    intro x hx
    obtain ⟨raws, hr, t, ht, hR⟩ := processAll_trace (R := fun t x => FromRaw p t x.root) (fun i t o ho => processMatches_from hn i t ho) L l hl x hx
    exact ⟨t, hL raws hr t ht, hR⟩

theorem functionalLoop_leaf {p : Pattern} {input : Str} : ∀ {rs : List FRet} {l : List MTree}, p.functionalLoop input rs = .ok l → ∀ t ∈ l, t.children = []
  | [], l, h => by injection h with h; subst h; simp
  | r :: rs, l, h => by
    unfold Pattern.functionalLoop at h
    split at h
    · cases h
    · split at h
      · cases h
      · split at h
        · cases h
        · split at h
          · cases h
          · next l' hl =>
            injection h with h; subst h
            intro t ht
            split at ht
            · rcases List.mem_cons.1 ht with rfl | ht
              · rfl
              · exact functionalLoop_leaf hl t ht
            · exact functionalLoop_leaf hl t ht

theorem matchRegex_root {p : Pattern} {rc : Bool} {re : Regex} {input : Str} {l : List MTree} (h : p.matchRegex rc re input = .ok l) :
    ∀ t ∈ l, t.root.name = p.opts.name := by
  have hgo : ∀ (os : List ReObj) (l : List MTree), Pattern.matchRegex.go p rc re input os = .ok l → ∀ t ∈ l, t.root.name = p.opts.name := by
    intro os
    induction os with
    | nil => intro l h; injection h with h; subst h; simp
    | cons o os ih =>
      intro l h
      unfold Pattern.matchRegex.go at h
      split at h
      · cases h
      · next a ha =>
        split at h
        · cases h
        · next r hr =>
          injection h with h; subst h
          intro t ht
          rcases List.mem_append.1 ht with ht | ht
          · unfold Pattern.reMatch at ha
            simp only at ha
            split at ha
            · cases ha
            · injection ha with ha; subst ha
              split at ht
              · rw [List.mem_singleton] at ht; subst ht; rfl
              · cases ht
          · exact ih r hr t ht
  exact hgo _ _ h

/-- A public match of a pattern that is not a chain, with neither properties nor values, has a name the pattern declares. -/
theorem public_declared (lower : Str → Str) (p : PatternObj Ctx) (hq : LeavesMatchesAlone p) (hc : ∀ i b br parts, p ≠ .chain i b br parts)
    (input : Str) {out : List MTree} (h : p.matches_ lower input = .ok out) :
    ∀ x ∈ out, x.root.priv = false → ∀ n, x.root.name = some n → n ≠ "" → some n ∈ (ownDeclarations p).map Prod.fst := by
  have hown : ∀ (b : Pattern) (n : String), b.opts.name = some n → n ≠ "" → n ∉ b.privateNames →
      some n ∈ (match b.opts.name with | some n => if n = "" then [] else unknownValue b n | none => [] : Declarations).map Prod.fst := by
    intro b n hn hne hp
    rw [hn]
    simp only
    rw [if_neg hne]
    unfold unknownValue
    rw [if_neg hp]
    exact List.mem_singleton.2 rfl
  unfold PatternObj.matches_ at h
  split at h
  · cases h
  · next ms raws hr =>
    injection h with h; subst h
    intro x hx hpub n hname hne
    cases p with
    | chain i b br parts => exact absurd rfl (hc i b br parts)
    | string i b o ss =>
      rw [PatternObj.run] at hr
      unfold Pattern.partOfString at hr
      split at hr
      · cases hr
      · next L hL =>
        obtain ⟨t, ⟨s, e, rfl⟩, hF⟩ := withRaws_from hq.noProcessor (Q := fun t => ∃ s e, t = .node (b.newMatch input s e) [])
          (collectRaws_each _ ss L hL (fun s _ l hl t ht => matchString_from hl t ht)) hr x hx
        rcases hF.from_ with h1 | ⟨c, hc', _⟩
        · rw [hname] at h1
          exact List.mem_singleton.2 h1
        · cases hc'
    | functional i b fs =>
      rw [PatternObj.run] at hr
      split at hr
      · cases hr
      · next L hL =>
        obtain ⟨t, hQ, hF⟩ := withRaws_from hq.noProcessor (Q := fun t => t.children = [] ∧ t.root.name = b.opts.name)
          (collectRaws_each _ fs L hL (fun f hf l hl t ht => by
            have := functionalLoop_from (P := fun m => m.name = b.opts.name) hl (by
              intro r hr a ha m hm
              obtain ⟨h1, _⟩ := hq.functions i b fs rfl f hf input r hr _ a ha
              unfold Pattern.matchWithArgs at hm
              split at hm
              · injection hm with hm; subst hm; rw [h1]; rfl
              · cases hm) t ht
            refine ⟨?_, (allNodes_iff.1 this).1⟩
            exact functionalLoop_leaf hl t ht)) hr x hx
        rcases hF.from_ with h1 | ⟨c, hc', _⟩
        · rw [hname, hQ.2] at h1
          exact hown b n h1.symm hne (hF.public_ hpub n hname hne)
        · rw [hQ.1] at hc'; cases hc'
    | regex i b rc res =>
      rw [PatternObj.run] at hr
      unfold Pattern.partOfRegex at hr
      split at hr
      · cases hr
      · next L hL =>
        obtain ⟨t, hQ, hF⟩ := withRaws_from hq.noProcessor (Q := fun t => t.root.name = b.opts.name ∧ ∀ c ∈ t.children,
            c.root.name = b.opts.name ∨ ∃ re ∈ res, ∃ k, some k ∈ re.names ∧ c.root.name = some k)
          (collectRaws_each _ res L hL (fun re hre l hl t ht => by
            have := matchRegex_from (P := fun m => m.name = b.opts.name ∨ ∃ re ∈ res, ∃ k, some k ∈ re.names ∧ m.name = some k) hl (fun s e => .inl rfl) (by
              intro main hmain k hk sp
              cases k with
              | none => exact .inl hmain
              | some k => exact .inr ⟨re, hre, k, hk, rfl⟩) t ht
            exact ⟨matchRegex_root hl t ht, fun c hc' => (allNodes_iff.1 ((allNodes_iff.1 this).2 c hc')).1⟩)) hr x hx
        simp only [ownDeclarations]
        rw [List.map_append, List.mem_append]
        have hnp : n ∉ b.privateNames := hF.public_ hpub n hname hne
        rcases hF.from_ with h1 | ⟨c, hc', h1, hpc⟩
        · rw [hname, hQ.1] at h1
          exact .inl (hown b n h1.symm hne hnp)
        · rcases hQ.2 c hc' with h2 | ⟨re, hre, k, hk, h2⟩
          · rw [hname, h2] at h1
            exact .inl (hown b n h1.symm hne hnp)
          · rw [hname, h2] at h1
            injection h1 with h1; subst h1
            refine .inr ?_
            have hpc : b.privateChildren = false := hpc hpub
            rw [if_neg (by rw [hpc]; simp)]
            refine List.mem_map.2 ⟨(some n, [.none]), ?_, rfl⟩
            refine List.mem_flatMap.2 ⟨re, hre, List.mem_flatMap.2 ⟨n, List.mem_filterMap.2 ⟨some n, hk, rfl⟩, ?_⟩⟩
            unfold unknownValue
            rw [if_neg hnp]; exact List.mem_singleton.2 rfl

/-- **C86**, for patterns that are not chains and have neither declared properties nor values: the name of every public match that an effective public pattern
finds is a name of the introspection. -/
theorem C86_partial (r : RebulkObj Ctx) (ctx : Ctx) (lower : Str → Str) (input : Str) (p : PatternObj Ctx) (hp : p ∈ r.effectivePatterns ctx)
    (hpub : p.base.opts.priv = false ∧ p.base.opts.marker = false) (hq : LeavesMatchesAlone p) (hc : ∀ i b br parts, p ≠ .chain i b br parts)
    (hprops : p.info.properties = []) (hvals : valueNames p.base = []) {out : List MTree} (h : p.matches_ lower input = .ok out) :
    ∀ x ∈ out, x.root.priv = false → ∀ n, x.root.name = some n → n ≠ "" → some n ∈ (introspectProperties r ctx).map Prod.fst := by
  intro x hx h1 n hn hne
  have hd := public_declared lower p hq hc input h x hx h1 n hn hne
  rw [(C76 r ctx).names]
  unfold distinct
  rw [mem_distinctFrom]
  refine ⟨?_, by simp⟩
  unfold declarationsIn
  rw [List.map_append, List.mem_append]
  left
  obtain ⟨kv, hkv, he⟩ := List.mem_map.1 hd
  refine List.mem_map.2 ⟨kv, List.mem_flatMap.2 ⟨p, List.mem_filter.2 ⟨hp, by simpa using hpub⟩, ?_⟩, he⟩
  unfold declarationsOf
  rw [if_neg (by simp [hprops]), if_neg (by simp [hvals])]
  exact hkv

/-- A pattern for the examples: a named regular expression with a named group. -/
def exRegex : PatternObj Unit :=
  .regex {} (Pattern.init 1 { opts := { name := some "main" }, every := true }) false
    [{ names := [some "part"], finditer := fun s => if s.isEmpty then [] else [⟨0, 2, [⟨(1, 2), []⟩]⟩] }]

/-- The hypotheses are met, and both names are found. -/
example : LeavesMatchesAlone exRegex ∧ valueNames exRegex.base = [] ∧
    (∃ out, exRegex.matches_ (fun s => s) "abc".toList = .ok out ∧ out.map (fun t => t.root.name) = [some "main", some "part"]) ∧
    (introspectProperties { patterns := [exRegex] } ()).map Prod.fst = [some "main", some "part"] := by
  refine ⟨⟨⟨rfl, rfl, rfl⟩, fun _ _ _ h => by cases h⟩, by decide, ⟨_, rfl, by decide⟩, by decide⟩

/-- Names and privacy of the matches of a pattern. -/
def namesFound (r : Except PyErr (List MTree)) : List (Option String × Bool) :=
  match r with
  | .ok out => out.map (fun (t : MTree) => (t.root.name, t.root.priv))
  | .error _ => []

/-- **C86** is false for a chain: its match is public and named, and introspection has no name at all. -/
theorem C86_refuted_chain : ∃ (r : RebulkObj Unit) (p : PatternObj Unit) (input : Str), p ∈ r.effectivePatterns () ∧
    p.base.opts.priv = false ∧ p.base.opts.marker = false ∧ namesFound (p.matches_ exEnv.lower input) = [(some "pair", false)] ∧ introspectProperties r () = [] := by
  let p : PatternObj Unit := .chain {} (Pattern.init 3 { opts := { name := some "pair" } }) none (.cons (exPattern 1 { name := some "x" } ["a"]) 1 (some 1) false .nil)
  exact ⟨{ patterns := [p] }, p, "a".toList, List.mem_cons_self, rfl, rfl, by decide +kernel, by decide⟩

/-- **C86** is false for a pattern with a value for one of its groups: its own name is not listed. -/
theorem C86_refuted_values : ∃ (r : RebulkObj Unit) (p : PatternObj Unit) (input : Str) (out : List MTree), p ∈ r.effectivePatterns () ∧
    p.base.opts.priv = false ∧ p.base.opts.marker = false ∧ p.matches_ exEnv.lower input = .ok out ∧
    (∃ x ∈ out, x.root.priv = false ∧ x.root.name = some "main") ∧ (introspectProperties r ()).map Prod.fst = [some "part"] := by
  let p : PatternObj Unit := .regex {} (Pattern.init 1 { opts := { name := some "main" }, value := .dict [(some "part", .int 1)] }) false
    [{ names := [some "part"], finditer := fun s => if s.isEmpty then [] else [⟨0, 2, [⟨(1, 2), []⟩]⟩] }]
  exact ⟨{ patterns := [p] }, p, "ab".toList, _, List.mem_cons_self, rfl, rfl, rfl, ⟨_, List.mem_cons_self, rfl, rfl⟩, by decide⟩

/-! ## `C88` -/

/-- The rule classes defined in the module are those that can be instantiated without argument, and nothing else is defined in it. -/
def Spec.OnlyRuleClasses (ms : List Member) : Prop := ∀ m ∈ ms, m.own = true → m.isRuleClass = true ∧ ∃ r, m.call = .ok r

/-- What the arguments of `rules()` stand for: the objects, one instance of each class, one instance of each class defined in a module (by name). -/
inductive Spec.LoadedFrom : List RuleArg → List RuleObj → Prop where
  | nil : LoadedFrom [] []
  | object {r : RuleObj} {args : List RuleArg} {rs : List RuleObj} : LoadedFrom args rs → LoadedFrom (.object r :: args) (r :: rs)
  | class_ {r : RuleObj} {args : List RuleArg} {rs : List RuleObj} : LoadedFrom args rs → LoadedFrom (.class_ (.ok r) :: args) (r :: rs)
  | done {args : List RuleArg} {rs : List RuleObj} : LoadedFrom args rs → LoadedFrom (.module_ [] :: args) rs
  | member {m : Member} {ms : List Member} {r : RuleObj} {args : List RuleArg} {rs : List RuleObj} : m.own = true → m.isRuleClass = true → m.call = .ok r →
      LoadedFrom (.module_ ms :: args) rs → LoadedFrom (.module_ (m :: ms) :: args) (r :: rs)
  | other {m : Member} {ms : List Member} {args : List RuleArg} {rs : List RuleObj} : ¬ (m.own = true ∧ m.isRuleClass = true) →
      LoadedFrom (.module_ ms :: args) rs → LoadedFrom (.module_ (m :: ms) :: args) rs

theorem loadModule_then {ms : List Member} (hm : OnlyRuleClasses ms) (rest : List RuleArg) : ∀ (acc : List RuleObj),
    ∃ rs, loadModule ms acc = (acc ++ rs, none) ∧ ∀ out, LoadedFrom rest out → LoadedFrom (.module_ ms :: rest) (rs ++ out) := by
  induction ms with
  | nil => exact fun acc => ⟨[], by simp [loadModule], fun out h => .done h⟩
  | cons m ms ih =>
    intro acc
    have ih := ih (fun x hx => hm x (List.mem_cons_of_mem _ hx))
    unfold loadModule
    cases ho : m.own with
    | false =>
      obtain ⟨rs, h1, h2⟩ := ih acc
      exact ⟨rs, by simp only [Bool.false_eq_true, if_false, h1], fun out h => .other (by simp [ho]) (h2 out h)⟩
    | true =>
      obtain ⟨hc, r, hr⟩ := hm m List.mem_cons_self ho
      obtain ⟨rs, h1, h2⟩ := ih (acc ++ [r])
      exact ⟨r :: rs, by simp only [if_true, hr, h1, List.append_assoc, List.singleton_append], fun out h => .member ho hc hr (h2 out h)⟩

/-- **C88**, when the only things defined in the modules are rule classes that can be instantiated: `rules()` registers the rule objects given, one rule per class
given and one rule per class defined in a module given (in the order of their names), after those already there and in the order given; nothing for what modules
import. -/
theorem C88_partial (args : List RuleArg) (hm : ∀ ms, .module_ ms ∈ args → OnlyRuleClasses ms) (hc : ∀ e, .class_ (.error e) ∉ args) (acc : List RuleObj) :
    ∃ rs, loadRules args acc = (acc ++ rs, none) ∧ LoadedFrom args rs := by
  induction args generalizing acc with
  | nil => exact ⟨[], by simp [loadRules], .nil⟩
  | cons x args ih =>
    have ih := ih (fun ms h => hm ms (List.mem_cons_of_mem _ h)) (fun e h => hc e (List.mem_cons_of_mem _ h))
    cases x with
    | object r =>
      obtain ⟨rs, h1, h2⟩ := ih (acc ++ [r])
      exact ⟨r :: rs, by simp only [loadRules, h1, List.append_assoc, List.singleton_append], .object h2⟩
    | class_ make =>
      cases make with
      | error e => exact absurd List.mem_cons_self (hc e)
      | ok r =>
        obtain ⟨rs, h1, h2⟩ := ih (acc ++ [r])
        exact ⟨r :: rs, by simp only [loadRules, h1, List.append_assoc, List.singleton_append], .class_ h2⟩
    | module_ ms =>
      obtain ⟨r1, h1, h2⟩ := loadModule_then (hm ms List.mem_cons_self) args acc
      obtain ⟨r2, h3, h4⟩ := ih (acc ++ r1)
      exact ⟨r1 ++ r2, by simp only [loadRules, h1, h3, List.append_assoc], h2 _ h4⟩

theorem loadedFrom_unique {args : List RuleArg} {rs rs' : List RuleObj} (h : LoadedFrom args rs) (h' : LoadedFrom args rs') : rs = rs' := by
  induction h generalizing rs' with
  | nil => cases h'; rfl
  | object _ ih => cases h' with | object h => rw [ih h]
  | class_ _ ih => cases h' with | class_ h => rw [ih h]
  | done _ ih => cases h' with | done h => exact ih h
  | member h1 h2 h3 _ ih =>
    cases h' with
    | member _ _ h6 h7 => rw [h3] at h6; cases h6; rw [ih h7]
    | other h4 => exact absurd ⟨h1, h2⟩ h4
  | other h1 _ ih =>
    cases h' with
    | member h2 h3 => exact absurd ⟨h2, h3⟩ h1
    | other _ h => exact ih h

/-- What `rules()` registers in `C88_partial` is determined by its arguments. -/
theorem C88_determined {args : List RuleArg} {rs rs' : List RuleObj} (h : LoadedFrom args rs) (h' : LoadedFrom args rs') : rs = rs' := loadedFrom_unique h h'

/-- **C88** is false when the module also defines a function: the function is called, and what it returns is registered as a rule; if it cannot be called without
argument, loading fails. -/
theorem C88_refuted :
    (∃ (ms : List Member) (l : List RuleObj), LoadedFrom [.module_ ms] [] ∧ loadRules [.module_ ms] [] = (l, none) ∧ l.length = 1) ∧
    (∃ ms : List Member, LoadedFrom [.module_ ms] [] ∧ loadRules [.module_ ms] [] = ([], some .typeError)) := by
  exact ⟨⟨[{ name := "helper", own := true, isRuleClass := false, call := .ok { info := { id := 1, cls := 1 } } }], _, .other (by simp) (.done .nil), rfl, rfl⟩,
    ⟨[{ name := "helper", own := true, isRuleClass := false, call := .error .typeError }], .other (by simp) (.done .nil), rfl⟩⟩

/-- **C88**: when loading an argument raises, what comes before it is registered, and nothing else. -/
theorem C88_raises (a b : List RuleArg) (acc l : List RuleObj) (h : loadRules a acc = (l, none)) :
    (∀ e, loadRules (a ++ .class_ (.error e) :: b) acc = (l, some e)) ∧
    (loadRules (a ++ b) acc = loadRules b l) := by
  have key : ∀ b, loadRules (a ++ b) acc = loadRules b l := by
    intro b
    induction a generalizing acc with
    | nil => cases h; rfl
    | cons x a ih =>
      cases x with
      | module_ ms =>
        simp only [List.cons_append, loadRules] at h ⊢
        cases hl : loadModule ms acc with
        | mk acc' e =>
          rw [hl] at h
          cases e with
          | some e => cases h
          | none => exact ih _ h
      | class_ mk =>
        simp only [List.cons_append, loadRules] at h ⊢
        cases mk with
        | error e => cases h
        | ok r => exact ih _ h
      | object r => simp only [List.cons_append, loadRules] at h ⊢; exact ih _ h
  exact ⟨fun e => by rw [key]; rfl, key b⟩

/-- A module with two rule classes and an imported one, and a rule object. -/
example :
    let cls (name : String) (own : Bool) (k : Nat) : Member := { name := name, own := own, isRuleClass := true, call := .ok { info := { id := k, cls := k } } }
    let ms := [cls "A" true 1, cls "B" false 2, cls "C" true 3]
    OnlyRuleClasses ms ∧ ((loadRules [.module_ ms, .object { info := { id := 9, cls := 9 } }] []).1.map (fun r => r.info.id)) = [1, 3, 9] := by
  refine ⟨?_, by decide⟩
  intro m hm _
  rcases List.mem_cons.1 hm with rfl | hm
  · exact ⟨rfl, _, rfl⟩
  · rcases List.mem_cons.1 hm with rfl | hm
    · exact ⟨rfl, _, rfl⟩
    · rw [List.mem_singleton] at hm; subst hm; exact ⟨rfl, _, rfl⟩

end Rebulk
