import Verif.Props.Threads
import Verif.Props.Origin
import Verif.Props.Session
/-!
# C96: the tags found by a call are those its patterns held when it began
-/
namespace Rebulk
open Spec

section
variable {Ctx ρ : Type}

theorem withTags_base (tags : Nat → List String) (p : PatternObj Ctx) : (p.withTags tags).base = p.base.withTags tags := by
  cases p <;> simp only [PatternObj.withTags, PatternObj.base]

theorem isPart_withTags (tags : Nat → List String) {x : PatternObj Ctx} : ∀ (parts : PartObjs Ctx), IsPart x (parts.withTags tags) →
    ∃ y, IsPart y parts ∧ x = y.withTags tags
  | .nil, h => by rw [PartObjs.withTags] at h; cases h
  | .cons p start stop hidden rest, h => by
    rw [PartObjs.withTags] at h
    cases h with
    | head => exact ⟨p, .head, rfl⟩
    | tail h =>
      obtain ⟨y, h1, h2⟩ := isPart_withTags tags rest h
      exact ⟨y, .tail h1, h2⟩

theorem subPattern_withTags (tags : Nat → List String) {p' x : PatternObj Ctx} (h : SubPattern p' x) :
    ∀ p : PatternObj Ctx, p' = p.withTags tags → ∃ y, SubPattern p y ∧ x = y.withTags tags := by
  induction h with
  | self => intro p hp; exact ⟨p, .self, hp⟩
  | part h1 _ ih =>
    intro p hp
    cases p with
    | chain i p b parts =>
      rw [PatternObj.withTags] at hp
      cases hp
      obtain ⟨y, g1, g2⟩ := isPart_withTags tags parts h1
      obtain ⟨z, g3, g4⟩ := ih y g2
      exact ⟨z, .part g1 g3, g4⟩
    | _ => rw [PatternObj.withTags] at hp; cases hp

theorem leavesAlone_withTags (tags : Nat → List String) {p : PatternObj Ctx} (h : LeavesMatchesAlone p) : LeavesMatchesAlone (p.withTags tags) := by
  refine ⟨by rw [withTags_base]; exact h.noProcessor, ?_⟩
  intro info b fs he
  cases p with
  | functional i p fs' =>
    rw [PatternObj.withTags] at he
    cases he
    exact h.functions _ _ _ rfl
  | _ => rw [PatternObj.withTags] at he; cases he

/-- **C96**, the tags: what a call without rules finds has, for each match, the tags that the list given to its pattern — a registered one or a part of it, at
any depth — holds when the call begins, whatever earlier calls put there. -/
theorem C96_tags (env : SessionEnv ρ) (r : RebulkObj Ctx) (input : Str) (ctx : Ctx) (lists : TagLists) (hrules : r.effectiveRules ctx = [])
    (hd : r.disabled ctx = false)
    (hq : ∀ p ∈ r.effectivePatterns ctx, ∀ q, SubPattern p q → LeavesMatchesAlone q) {f : Found}
    (h : (r.matchesIn env input ctx lists).1 = .ok f) :
    ∀ m, m ∈ f.found.delegate ∨ m ∈ f.markers.delegate → ∃ p ∈ r.effectivePatterns ctx, ∃ q, SubPattern p q ∧
      m.pattern = some q.base.id ∧ m.tags = lists (env.listOf q.base.id) := by
  have hout : (r.matchesIn env input ctx lists).1 =
      (match (r.withTags (fun p => lists (env.listOf p))).matchesPatterns env.before input ctx { Found.empty input with keys := r.effectiveKeys ctx } with
      | .error e => .error e
      | .ok f => match RebulkObj.checkFound env.before f with
        | some e => .error e
        | none => .ok f) := by
    unfold RebulkObj.matchesIn RebulkObj.executeRulesIn
    simp only [hd, Bool.not_false, if_true, hrules]
    cases (r.withTags (fun p => lists (env.listOf p))).matchesPatterns env.before input ctx { Found.empty input with keys := r.effectiveKeys ctx } with
    | error e => rfl
    | ok f =>
      simp only
      cases RebulkObj.checkFound env.before f <;> rfl
  rw [hout] at h
  unfold RebulkObj.matchesPatterns at h
  have hd' : (r.withTags (fun p => lists (env.listOf p))).disabled ctx = false := hd
  simp only [hd', Bool.not_false, if_true, effectivePatterns_withTags] at h
  rcases collects_or_raises env.before.lower ctx input ((r.effectivePatterns ctx).map (PatternObj.withTags (fun p => lists (env.listOf p)))) with ⟨ts, hc⟩ | ⟨e, he⟩
  · obtain ⟨f', h1, _, _, h4, h5⟩ := searchPatterns_collects hc (gathering_empty input (r.effectiveKeys ctx))
    rw [h1] at h
    simp only at h
    have hf : f' = f := by
      cases hk : RebulkObj.checkFound env.before f' with
      | some e => rw [hk] at h; cases h
      | none => rw [hk] at h; cases h; rfl
    subst hf
    have key : ∀ m, (∃ x ∈ ts.map MTree.root, content x = content m) → ∃ p ∈ r.effectivePatterns ctx, ∃ q, SubPattern p q ∧
        m.pattern = some q.base.id ∧ m.tags = lists (env.listOf q.base.id) := by
      rintro m ⟨x, hx, he⟩
      obtain ⟨t, ht, rfl⟩ := List.mem_map.1 hx
      obtain ⟨p', hp', out, ho, hto⟩ := collects_mem hc t ht
      obtain ⟨p, hp, rfl⟩ := List.mem_map.1 hp'
      have hn : NodeOf t.root t := by cases t; exact .root
      obtain ⟨q', hq', hm⟩ := C89 env.before.lower (p.withTags (fun p => lists (env.listOf p))) (by
        intro q' hq'
        obtain ⟨q, g1, g2⟩ := subPattern_withTags _ hq' p rfl
        rw [g2]
        exact leavesAlone_withTags _ (hq p hp q g1)) input out ho t hto _ hn
      obtain ⟨q, g1, g2⟩ := subPattern_withTags _ hq' p rfl
      subst g2
      have e1 : m.pattern = t.root.pattern := (congrArg Match.pattern he).symm
      have e2 : m.tags = t.root.tags := (congrArg Match.tags he).symm
      refine ⟨p, hp, q, g1, ?_, ?_⟩
      · rw [e1, hm.pattern, withTags_base]; rfl
      · rw [e2, hm.tags, withTags_base]; rfl
    have back : ∀ (b : Bool) (l : List Match), l.map content = (rootsOf b ts).map content → ∀ m ∈ l, ∃ x ∈ ts.map MTree.root, content x = content m := by
      intro b l hl m hm
      have : content m ∈ (rootsOf b ts).map content := hl ▸ List.mem_map.2 ⟨m, hm, rfl⟩
      obtain ⟨x, hx, he⟩ := List.mem_map.1 this
      exact ⟨x, (List.mem_filter.1 hx).1, he⟩
    intro m hm
    rcases hm with hm | hm
    · exact key m (back false _ (by simpa [Found.empty, Matches.empty] using h4) m hm)
    · exact key m (back true _ (by simpa [Found.empty, Matches.empty] using h5) m hm)
  · rw [searchPatterns_raises he (gathering_empty input (r.effectiveKeys ctx))] at h
    cases h
end

/-- Without rules, both matches have the tags that the list of the pattern holds at the call, not those it was built with. -/
example : ({ sessionObj with rules := [] } : RebulkObj Unit).effectiveRules () = [] ∧
    ((({ sessionObj with rules := [] } : RebulkObj Unit).matchesIn sessionEnv ['a', 'b', 'a', 'b'] () (fun _ => ["v", "w"])).1 |> tagsOf) =
      [["v", "w"], ["v", "w"]] := ⟨by decide, by decide +kernel⟩

end Rebulk
