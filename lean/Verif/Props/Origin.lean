import Verif.Lemmas.Origin
import Verif.Props.Introspect
/-!
# Every match comes from a pattern; reported keys are never given (`C87`, `C89`)
-/
namespace Rebulk
open Spec
variable {Ctx : Type}

theorem lasting_madeBy (p : PatternObj Ctx) : Lasting (fun m => ∃ q, VisibleSub p q ∧ MadeByPattern q m) := by
  intro m m' h1 h2 h3 h4 h5 ⟨q, hq, h⟩
  exact ⟨q, hq, h5.trans h.pattern, h2.trans h.tags, h3.trans h.marker, h4.trans h.solver, by rw [h1]; exact h.name⟩

theorem allNodes_leaf {P : Match → Prop} {m : Match} (h : P m) : AllNodes P (.node m []) := allNodes_node.2 ⟨h, by simp⟩

theorem madeBy_new (p : PatternObj Ctx) (input : Str) (s e : Int) : MadeByPattern p (p.base.newMatch input s e) := ⟨rfl, rfl, rfl, rfl, .inl rfl⟩

theorem matchString_from {p : Pattern} {lower : Str → Str} {o : StringOpts} {input sub : Str} {l : List MTree} (h : p.matchString lower o input sub = .ok l) :
    ∀ t ∈ l, ∃ s e, t = .node (p.newMatch input s e) [] := by
  unfold Pattern.matchString at h
  split at h
  · cases h
  · injection h with h; subst h
    intro t ht
    obtain ⟨i, _, rfl⟩ := List.mem_map.1 (List.mem_filter.1 ht).1
    exact ⟨_, _, rfl⟩

theorem reChildren_from {p : Pattern} {rc : Bool} {input : Str} {main : Match} : ∀ {ns : List (Option String)} {gs : List ReGroup} {c : Match},
    c ∈ p.reChildren rc input main ns gs → ∃ n ∈ ns, ∃ sp, c = p.newChild input main (n.or main.name) sp
  | n :: ns, g :: gs, c, h => by
    unfold Pattern.reChildren at h
    rcases List.mem_append.1 h with h | h
    · obtain ⟨sp, _, rfl⟩ := List.mem_map.1 (List.mem_filter.1 h).1
      exact ⟨n, List.mem_cons_self, sp, rfl⟩
    · obtain ⟨n', hn, sp, he⟩ := reChildren_from h
      exact ⟨n', List.mem_cons_of_mem _ hn, sp, he⟩
  | [], gs, c, h => by unfold Pattern.reChildren at h; cases h
  | n :: ns, [], c, h => by unfold Pattern.reChildren at h; cases h

theorem matchRegex_from {P : Match → Prop} {p : Pattern} {rc : Bool} {re : Regex} {input : Str} {l : List MTree} (h : p.matchRegex rc re input = .ok l)
    (h1 : ∀ s e, P (p.newMatch input s e)) (h2 : ∀ main : Match, main.name = p.opts.name → ∀ n ∈ re.names, ∀ sp, P (p.newChild input main (n.or main.name) sp)) :
    ∀ t ∈ l, AllNodes P t := by
  have hgo : ∀ (os : List ReObj) (l : List MTree), Pattern.matchRegex.go p rc re input os = .ok l → ∀ t ∈ l, AllNodes P t := by
    intro os
    induction os with
    | nil => intro l h; injection h with h; subst h; simp
    | cons o os ih =>
      intro l h
      unfold Pattern.matchRegex.go at h
      split at h
      · cases h
      · next a ha =>
        split at h
        · cases h
        · next r hr =>
          injection h with h; subst h
          intro t ht
          rcases List.mem_append.1 ht with ht | ht
          · unfold Pattern.reMatch at ha
            simp only at ha
            split at ha
            · cases ha
            · injection ha with ha; subst ha
              split at ht
              · rw [List.mem_singleton] at ht; subst ht
                rw [allNodes_node]
                refine ⟨h1 _ _, ?_⟩
                intro c hc
                obtain ⟨m, hm, rfl⟩ := List.mem_map.1 hc
                obtain ⟨n, hn, sp, rfl⟩ := reChildren_from hm
                exact allNodes_leaf (h2 _ rfl n hn sp)
              · cases ht
          · exact ih r hr t ht
  exact hgo _ _ h

theorem functionalLoop_from {P : Match → Prop} {p : Pattern} {input : Str} : ∀ {rs : List FRet} {l : List MTree}, p.functionalLoop input rs = .ok l →
    (∀ r ∈ rs, ∀ a, r.matchArgs p.opts.name.isSome = .ok a → ∀ m, p.matchWithArgs input a = .ok m → P m) → ∀ t ∈ l, AllNodes P t
  | [], l, h, _ => by injection h with h; subst h; simp
  | r :: rs, l, h, hP => by
    unfold Pattern.functionalLoop at h
    split at h
    · cases h
    · next a ha =>
      split at h
      · cases h
      · next m hm =>
        split at h
        · cases h
        · next b hb =>
          split at h
          · cases h
          · next l' hl =>
            injection h with h; subst h
            have ih := functionalLoop_from hl (fun x hx => hP x (List.mem_cons_of_mem _ hx))
            intro t ht
            split at ht
            · rcases List.mem_cons.1 ht with rfl | ht
              · exact allNodes_leaf (hP r List.mem_cons_self a ha m hm)
              · exact ih t ht
            · exact ih t ht

theorem Spec.VisiblePart.part {p : PatternObj Ctx} {parts : PartObjs Ctx} (h : VisiblePart p parts) : IsPart p parts := by
  induction h with
  | head => exact .head
  | tail _ ih => exact .tail ih

theorem Spec.VisibleSub.sub {p q : PatternObj Ctx} (h : VisibleSub p q) : SubPattern p q := by
  induction h with
  | self => exact .self
  | part hp _ ih => exact .part hp.part ih

mutual
theorem run_madeBy (lower : Str → Str) : ∀ (p : PatternObj Ctx), (∀ q, VisibleSub p q → LeavesMatchesAlone q) → ∀ (input : Str) (out raws : List MTree),
    p.run lower input = .ok (out, raws) → ∀ t ∈ out, AllNodes (fun m => ∃ q, VisibleSub p q ∧ MadeByPattern q m) t
  | .string i p o ss, hq, input, out, raws, h => by
    have hn := (hq _ .self).noProcessor
    rw [PatternObj.run] at h
    unfold Pattern.partOfString at h
    split at h
    · cases h
    · next L hL =>
      refine allNodes_withRaws hn (fun i b t ht => allNodes_processMatch (lasting_madeBy _) p i b ht) ?_ h
      refine collectRaws_each _ ss L hL ?_
      intro s _ l hl t ht
      obtain ⟨a, b, rfl⟩ := matchString_from hl t ht
      exact allNodes_leaf ⟨_, .self, madeBy_new _ _ _ _⟩
  | .regex i p rc res, hq, input, out, raws, h => by
    have hn := (hq _ .self).noProcessor
    rw [PatternObj.run] at h
    unfold Pattern.partOfRegex at h
    split at h
    · cases h
    · next L hL =>
      refine allNodes_withRaws hn (fun i b t ht => allNodes_processMatch (lasting_madeBy _) p i b ht) ?_ h
      refine collectRaws_each _ res L hL ?_
      intro re hre l hl
      refine matchRegex_from hl (fun s e => ⟨_, .self, madeBy_new (.regex i p rc res) _ _ _⟩) ?_
      intro main hmain n hn sp
      refine ⟨_, .self, rfl, rfl, rfl, rfl, ?_⟩
      cases n with
      | none => exact .inl hmain
      | some n => exact .inr ⟨n, rfl, i, p, rc, res, rfl, re, hre, hn⟩
  | .functional i p fs, hq, input, out, raws, h => by
    have hn := (hq _ .self).noProcessor
    rw [PatternObj.run] at h
    split at h
    · cases h
    · next L hL =>
      refine allNodes_withRaws hn (fun i b t ht => allNodes_processMatch (lasting_madeBy _) p i b ht) ?_ h
      refine collectRaws_each _ fs L hL ?_
      intro f hf l hl
      refine functionalLoop_from hl ?_
      intro r hr a ha m hm
      obtain ⟨h1, h2, h3, h4⟩ := (hq _ .self).functions i p fs rfl f hf input r hr _ a ha
      unfold Pattern.matchWithArgs at hm
      split at hm
      · injection hm with hm; subst hm
        rw [h1, h2, h3, h4]
        exact ⟨_, .self, rfl, rfl, rfl, rfl, .inl rfl⟩
      · cases hm
  | .chain i p b parts, hq, input, out, raws, h => by
    have hn := (hq _ .self).noProcessor
    rw [PatternObj.run] at h
    refine allNodes_chainRun (lasting_madeBy _) { pattern := p, parts := PatternObj.runParts lower parts, breaker := b } hn (fun s a e => ⟨_, .self, madeBy_new (.chain i p b parts) _ _ _⟩) ?_ input h
    intro part hpart hvis s out raws hs t ht
    obtain ⟨q, hqp, hall⟩ := runParts_madeBy lower parts (fun q hp x hx => hq x (.part hp hx)) part hpart hvis s out raws hs t ht
    intro m hm
    obtain ⟨x, hx, hmx⟩ := hall m hm
    exact ⟨x, .part hqp hx, hmx⟩
theorem runParts_madeBy (lower : Str → Str) : ∀ (parts : PartObjs Ctx), (∀ q, VisiblePart q parts → ∀ x, VisibleSub q x → LeavesMatchesAlone x) →
    ∀ part ∈ PatternObj.runParts lower parts, part.hidden = false → ∀ s out raws, part.search s = .ok (out, raws) → ∀ t ∈ out,
    ∃ q, VisiblePart q parts ∧ AllNodes (fun m => ∃ x, VisibleSub q x ∧ MadeByPattern x m) t
  | .nil, _, part, hpart, _, _, _, _, _, _, _ => by rw [PatternObj.runParts] at hpart; cases hpart
  | .cons p a e hid rest, hq, part, hpart, hvis, s, out, raws, hs, t, ht => by
    rw [PatternObj.runParts] at hpart
    rcases List.mem_cons.1 hpart with rfl | hpart
    · have hvis : hid = false := hvis
      subst hvis
      exact ⟨p, .head, run_madeBy lower p (fun x hx => hq p .head x hx) s out raws hs t ht⟩
    · obtain ⟨q, h1, h2⟩ := runParts_madeBy lower rest (fun q hp => hq q (.tail hp)) part hpart hvis s out raws hs t ht
      exact ⟨q, .tail h1, h2⟩
end

/-- **C89**: every match a pattern gives, and every match below it, is made by the pattern or by a part of it (chains may be nested): it has the tags, marker flag,
conflict solver and `pattern` of that one, and its name or the name of one of its groups. -/
theorem C89 (lower : Str → Str) (p : PatternObj Ctx) (hq : ∀ q, SubPattern p q → LeavesMatchesAlone q) (input : Str) (out : List MTree)
    (h : p.matches_ lower input = .ok out) : ∀ t ∈ out, ∀ m, NodeOf m t → ∃ q, SubPattern p q ∧ MadeByPattern q m := by
  unfold PatternObj.matches_ at h
  split at h
  · cases h
  · next ms raws hr =>
    injection h with h; subst h
    intro t ht m hm
    obtain ⟨q, h1, h2⟩ := run_madeBy lower p (fun q hv => hq q hv.sub) input _ raws hr t ht m hm
    exact ⟨q, h1.sub, h2⟩

/-- **C56**, hidden parts at any depth: every match a pattern gives, and every match below it, is made by the pattern or by a part that is not hidden, itself
under parts that are not hidden. (User code of the hidden parts may do anything.) -/
theorem C56_hidden_never_shown (lower : Str → Str) (p : PatternObj Ctx) (hq : ∀ q, VisibleSub p q → LeavesMatchesAlone q) (input : Str) (out : List MTree)
    (h : p.matches_ lower input = .ok out) : ∀ t ∈ out, ∀ m, NodeOf m t → ∃ q, VisibleSub p q ∧ MadeByPattern q m := by
  unfold PatternObj.matches_ at h
  split at h
  · cases h
  · next ms raws hr =>
    injection h with h; subst h
    exact run_madeBy lower p hq input _ raws hr

theorem canProduce_of_sub {p q : PatternObj Ctx} (h : SubPattern p q) {n : String} (hn : CanProduce q n) : CanProduce p n := by
  induction h with
  | self => exact hn
  | part hp _ ih => exact .part hp (ih hn)

/-- The names of the matches a pattern gives are names it can give. -/
theorem C87_names (lower : Str → Str) (p : PatternObj Ctx) (hq : ∀ q, SubPattern p q → LeavesMatchesAlone q) (input : Str) (out : List MTree)
    (h : p.matches_ lower input = .ok out) : ∀ t ∈ out, ∀ m, NodeOf m t → ∀ n, m.name = some n → n ≠ "" → CanProduce p n := by
  intro t ht m hm n hn hne
  obtain ⟨q, h1, h2⟩ := C89 lower p hq input out h t ht m hm
  refine canProduce_of_sub h1 ?_
  rcases h2.name with h3 | ⟨n', h3, i, b, rc, res, rfl, re, hre, hmem⟩
  · exact .name (h3.symm.trans hn) hne
  · rw [hn] at h3; injection h3 with h3; subst h3
    exact .group hre hmem

theorem collects_mem {lower : Str → Str} {ctx : Ctx} {input : Str} {ps : List (PatternObj Ctx)} {ts : List MTree} (h : Collects lower ctx input ps ts) :
    ∀ t ∈ ts, ∃ p ∈ ps, ∃ out, p.matches_ lower input = .ok out ∧ t ∈ out := by
  induction h with
  | nil => simp
  | disabled hd _ ih =>
    intro t ht
    obtain ⟨p, hp, o, h1, h2⟩ := ih t ht
    exact ⟨p, List.mem_cons_of_mem _ hp, o, h1, h2⟩
  | enabled hd ho _ ih =>
    intro t ht
    rcases List.mem_append.1 ht with ht | ht
    · exact ⟨_, List.mem_cons_self, _, ho, ht⟩
    · obtain ⟨p, hp, o, h1, h2⟩ := ih t ht
      exact ⟨p, List.mem_cons_of_mem _ hp, o, h1, h2⟩

theorem effective_mem {r : RebulkObj Ctx} {ctx : Ctx} {p : PatternObj Ctx} (h : p ∈ r.effectivePatterns ctx) : ∃ x, (x = r ∨ x ∈ r.children) ∧ p ∈ x.patterns := by
  unfold RebulkObj.effectivePatterns at h
  rw [addPatterns_spec] at h
  rcases List.mem_append.1 h with h | h
  · exact ⟨r, .inl rfl, h⟩
  · obtain ⟨c, hc, hp⟩ := List.mem_flatMap.1 (distinctFrom_subset _ _ _ _ h)
    exact ⟨c, .inr (List.mem_filter.1 hc).1, hp⟩

/-- **C87**: `check_keys` reports no false positive: a name it reports is borne by no match, nor by any match below, that the patterns find, on any input and in
any context. -/
theorem C87 (r : RebulkObj Ctx) (allowed : Allowed) (hk : (r.keys.map Prod.fst).Nodup) {n : String} (hr : n ∈ r.checkKeys allowed) (hne : n ≠ "")
    (hq : ∀ x, (x = r ∨ x ∈ r.children) → ∀ p ∈ x.patterns, ∀ q, SubPattern p q → LeavesMatchesAlone q)
    (lower : Str → Str) (input : Str) (ctx : Ctx) {ts : List MTree} (hc : Collects lower ctx input (r.effectivePatterns ctx) ts) :
    ∀ t ∈ ts, ∀ m, NodeOf m t → m.name ≠ some n := by
  intro t ht m hm hn
  obtain ⟨p, hp, out, h1, h2⟩ := collects_mem hc t ht
  obtain ⟨x, hx, hpx⟩ := effective_mem hp
  have := C87_names lower p (hq x hx p hpx) input out h1 t h2 m hm n hn hne
  exact (((C75 r allowed hk).2 n).1 hr).2.1 ⟨x, hx, p, hpx, this⟩

/-- For the example: name, pattern and tags of the children of each match. -/
def exShow (r : Except PyErr (List MTree)) : List (List (Option String × Option Nat × List String)) :=
  match r with
  | .ok out => out.map (fun (t : MTree) => t.children.map (fun (c : MTree) => (c.root.name, c.root.pattern, c.root.tags)))
  | .error _ => []

/-- A chain with a group: the matches below bear the names of the parts; the typo is reported and never met. -/
example :
    let g : PatternObj Unit := .regex {} (Pattern.init 2 { opts := { tags := ["t"] } }) false
      [{ names := [some "season"], finditer := fun s => if s.isEmpty then [] else [⟨0, 1, [⟨(0, 1), []⟩]⟩] }]
    let ch : PatternObj Unit := .chain {} (Pattern.init 3 {}) none (.cons (exPattern 1 { name := some "title" } ["a"]) 1 (some 1) false (.cons g 1 (some 1) false .nil))
    let r : RebulkObj Unit := { patterns := [ch], keys := [("sesaon", { name := "sesaon", valueType := 1 }), ("season", { name := "season", valueType := 1 })] }
    r.checkKeys = ["sesaon"] ∧ (∀ q, SubPattern ch q → LeavesMatchesAlone q) ∧
    exShow (ch.matches_ (fun s => s) "abab".toList) =
      [[(some "title", some 1, []), (some "season", some 2, ["t"]), (none, some 2, ["t"])],
       [(some "title", some 1, []), (some "season", some 2, ["t"]), (none, some 2, ["t"])]] := by
  refine ⟨by decide, ?_, by decide +kernel⟩
  intro q hq
  cases hq with
  | self => exact ⟨⟨rfl, rfl, rfl⟩, fun _ _ _ h => by cases h⟩
  | part h1 h2 =>
    cases h1 with
    | head => cases h2; exact ⟨⟨rfl, rfl, rfl⟩, fun _ _ _ h => by cases h⟩
    | tail h1 =>
      cases h1 with
      | head => cases h2; exact ⟨⟨rfl, rfl, rfl⟩, fun _ _ _ h => by cases h⟩
      | tail h1 => cases h1

/-- A chain whose second part is hidden: `a`, a hidden `-`, `b`. The match spans all three, and the hidden part leaves no child. -/
example :
    let ch : PatternObj Unit := .chain {} (Pattern.init 3 {}) none (.cons (exPattern 1 { name := some "x" } ["a"]) 1 (some 1) false
      (.cons (exPattern 2 { name := some "sep" } ["-"]) 1 (some 1) true (.cons (exPattern 4 { name := some "y" } ["b"]) 1 (some 1) false .nil)))
    (∀ q, VisibleSub ch q → LeavesMatchesAlone q) ∧
    (match ch.matches_ (fun s => s) "a-b".toList with
      | .ok out => out.map (fun (t : MTree) => t.root.span)
      | .error _ => []) = [(0, 3)] ∧
    exShow (ch.matches_ (fun s => s) "a-b".toList) = [[(some "x", some 1, []), (some "y", some 4, [])]] := by
  refine ⟨?_, by decide +kernel, by decide +kernel⟩
  intro q hq
  cases hq with
  | self => exact ⟨⟨rfl, rfl, rfl⟩, fun _ _ _ h => by cases h⟩
  | part h1 h2 =>
    cases h1 with
    | head => cases h2; exact ⟨⟨rfl, rfl, rfl⟩, fun _ _ _ h => by cases h⟩
    | tail h1 =>
      cases h1 with
      | tail h1 =>
        cases h1 with
        | head => cases h2; exact ⟨⟨rfl, rfl, rfl⟩, fun _ _ _ h => by cases h⟩
        | tail h1 => cases h1

end Rebulk
