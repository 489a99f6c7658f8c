import Verif.Props.LocalityDefault
/-!
# The order of declaration of the patterns (`C126`)
-/
namespace Rebulk
open Spec Matches
variable {Ctx : Type}

theorem collects_perm {lower : Str → Str} {ctx : Ctx} {input : Str} {ps ps' : List (PatternObj Ctx)} (hp : ps.Perm ps') :
    ∀ {ts : List MTree}, Collects lower ctx input ps ts → ∃ ts', Collects lower ctx input ps' ts' ∧ ts.Perm ts' := by
  induction hp with
  | nil => intro ts h; exact ⟨ts, h, .refl _⟩
  | cons p _ ih =>
    intro ts h
    cases h with
    | disabled hd h => obtain ⟨ts', h1, h2⟩ := ih h; exact ⟨ts', .disabled hd h1, h2⟩
    | enabled hd hm h => obtain ⟨ts', h1, h2⟩ := ih h; exact ⟨_, .enabled hd hm h1, h2.append_left _⟩
  | swap p q l =>
    intro ts h
    cases h with
    | disabled hd h =>
      cases h with
      | disabled hd' h => exact ⟨_, .disabled hd' (.disabled hd h), .refl _⟩
      | enabled hd' hm' h => exact ⟨_, .enabled hd' hm' (.disabled hd h), .refl _⟩
    | enabled hd hm h =>
      cases h with
      | disabled hd' h => exact ⟨_, .disabled hd' (.enabled hd hm h), .refl _⟩
      | enabled hd' hm' h =>
        refine ⟨_, .enabled hd' hm' (.enabled hd hm h), ?_⟩
        rw [← List.append_assoc, ← List.append_assoc]
        exact List.perm_append_comm.append_right _
  | trans _ _ ih1 ih2 =>
    intro ts h
    obtain ⟨t1, h1, h2⟩ := ih1 h
    obtain ⟨t2, h3, h4⟩ := ih2 h1
    exact ⟨t2, h3, h2.trans h4⟩

theorem rootsOf_perm (b : Bool) {ts ts' : List MTree} (h : ts.Perm ts') : (rootsOf b ts).Perm (rootsOf b ts') := (h.map _).filter _

theorem ordinaryFound_perm {l l' : List Match} (h : l.Perm l') (ho : OrdinaryFound l) : OrdinaryFound l' :=
  ⟨fun m hm => ho.nonEmpty m (h.symm.subset hm), fun m hm => ho.noSolver m (h.symm.subset hm), fun m hm => ho.noParent m (h.symm.subset hm),
   fun a ha b hb => ho.equalAlike a (h.symm.subset ha) b (h.symm.subset hb)⟩

theorem losesToLonger_perm {l l' : List Match} (h : l.Perm l') (m : Match) : LosesToLonger l m ↔ LosesToLonger l' m :=
  ⟨fun ⟨h1, c, hc, h2⟩ => ⟨h1, c, h.subset hc, h2⟩, fun ⟨h1, c, hc, h2⟩ => ⟨h1, c, h.symm.subset hc, h2⟩⟩

open Classical in
/-- **C126**: two rebulks with the same patterns, in any order and whether declared in the object or in a child, and the default rules give the same matches and
markers, up to their order, when the matches found are ordinary ones. -/
theorem C126_partial {env : Env (List Match)} (henv : DefaultEnv env) {r r' : RebulkObj Ctx} (hr : DefaultRulesOnly r) (hr' : DefaultRulesOnly r') (input : Str) (ctx : Ctx)
    (hd : r.disabled ctx = false) (hd' : r'.disabled ctx = false) (hp : (r.effectivePatterns ctx).Perm (r'.effectivePatterns ctx)) {ts : List MTree}
    (hc : Collects env.lower ctx input (r.effectivePatterns ctx) ts) (ho : OrdinaryFound (rootsOf false ts)) :
    ∃ f f', r.matches_ env input ctx = .ok f ∧ r'.matches_ env input ctx = .ok f' ∧
      (f.found.delegate.map content).Perm (f'.found.delegate.map content) ∧ (f.markers.delegate.map content).Perm (f'.markers.delegate.map content) := by
  obtain ⟨ts', hc', hperm⟩ := collects_perm hp hc
  have p1 := rootsOf_perm false hperm
  have p2 := rootsOf_perm true hperm
  obtain ⟨f, h1, h2, h3, _⟩ := C74_ordinary henv hr input ctx hd hc ho
  obtain ⟨f', g1, g2, g3, _⟩ := C74_ordinary henv hr' input ctx hd' hc' (ordinaryFound_perm p1 ho)
  refine ⟨f, f', h1, g1, ?_, ?_⟩
  · rw [h2, g2]
    have e : (rootsOf false ts').filter (fun m => decide (m.priv = false ∧ ¬ LosesToLonger (rootsOf false ts') m)) =
        (rootsOf false ts').filter (fun m => decide (m.priv = false ∧ ¬ LosesToLonger (rootsOf false ts) m)) :=
      List.filter_congr (fun m _ => decide_eq_decide.2 (by rw [losesToLonger_perm p1]))
    rw [e]
    exact (p1.filter _).map _
  · rw [h3, g3]; exact p2.map _

/-- **C126**: whatever is found, the raw result (before the rules) does not depend on the order, and one order raises in the search if and only if the other does. -/
theorem C126_raw {lower : Str → Str} {ctx : Ctx} {input : Str} {ps ps' : List (PatternObj Ctx)} (hp : ps.Perm ps') :
    (∀ {ts}, Collects lower ctx input ps ts → ∃ ts', Collects lower ctx input ps' ts' ∧ ts.Perm ts') ∧
    ((∃ e, RaisesFirst lower ctx input e ps) ↔ ∃ e, RaisesFirst lower ctx input e ps') := by
  have ne : ∀ {e : PyErr} {qs : List (PatternObj Ctx)} {ts : List MTree}, RaisesFirst lower ctx input e qs → ¬ Collects lower ctx input qs ts := by
    intro e qs ts h
    induction h generalizing ts with
    | here hd hm => intro hc; cases hc with
      | disabled hd' _ => rw [hd] at hd'; cases hd'
      | enabled _ hm' _ => rw [hm] at hm'; cases hm'
    | disabled hd _ ih => intro hc; cases hc with
      | disabled _ h => exact ih h
      | enabled hd' _ _ => rw [hd] at hd'; cases hd'
    | fine hd hm _ ih => intro hc; cases hc with
      | disabled hd' _ => rw [hd] at hd'; cases hd'
      | enabled _ _ h => exact ih h
  have dir : ∀ {qs qs' : List (PatternObj Ctx)}, qs.Perm qs' → (∃ e, RaisesFirst lower ctx input e qs) → ∃ e, RaisesFirst lower ctx input e qs' := by
    intro qs qs' hq ⟨e, he⟩
    rcases collects_or_raises lower ctx input qs' with ⟨ts, h⟩ | h
    · obtain ⟨ts', h', _⟩ := collects_perm hq.symm h; exact absurd h' (ne he)
    · exact h
  exact ⟨fun h => collects_perm hp h, dir hp, dir hp.symm⟩

/-- The hypotheses are met, with patterns moved to a child and other ones out of it. -/
example : let r := exRebulk [exPattern 1 {} ["ab"], exPattern 2 {} ["ab"], exPattern 3 { priv := true } ["c"]] [exPattern 4 {} ["bcd", "f"], exPattern 5 { marker := true } ["e"]]
    let r' := exRebulk [exPattern 4 {} ["bcd", "f"], exPattern 2 {} ["ab"]] [exPattern 5 { marker := true } ["e"], exPattern 3 { priv := true } ["c"], exPattern 1 {} ["ab"]]
    (∃ ts, Collects exEnv.lower () "abcdef".toList (r.effectivePatterns ()) ts ∧ OrdinaryFound (rootsOf false ts)) ∧
    (r.effectivePatterns ()).map PatternObj.id = [1, 2, 3, 4, 5] ∧ (r'.effectivePatterns ()).map PatternObj.id = [4, 2, 5, 3, 1] ∧
    ∃ f, r'.matches_ exEnv "abcdef".toList () = .ok f ∧ f.found.delegate.map Match.span = [(1, 4), (5, 6)] ∧ f.markers.delegate.map Match.span = [(4, 5)] :=
  ⟨⟨_, .enabled rfl rfl (.enabled rfl rfl (.enabled rfl rfl (.enabled rfl rfl (.enabled rfl rfl .nil)))), ⟨by decide, by decide, by decide, by decide⟩⟩, rfl, rfl,
    _, rfl, by decide, by decide⟩

/-- A regular expression with one group, whose child is returned. -/
def exGroup (id : Nat) (a b c d : Int) : PatternObj Unit :=
  .regex {} (Pattern.init id { children := true }) false [{ names := [none], finditer := fun _ => [⟨a, b, [⟨(c, d), []⟩]⟩] }]

/-- A rebulk without children. -/
def exOrder (l : List (PatternObj Unit)) : RebulkObj Unit := { patterns := l, rules := [conflictSolverRule 0, privateRemoverRule 1] }

theorem exOrder_default (l : List (PatternObj Unit)) : DefaultRulesOnly (exOrder l) := ⟨⟨0, 1, rfl⟩, fun c hc => (by cases hc)⟩

/-- **C126** is false of children, which are judged by the length of their parents: the first order gives one match, the other one two. -/
theorem C126_refuted : ∃ (r r' : RebulkObj Unit) (input : Str) (f f' : Found), DefaultRulesOnly r ∧ DefaultRulesOnly r' ∧ r.patterns.Perm r'.patterns ∧
    r.children = [] ∧ r'.children = [] ∧ r.matches_ exEnv input () = .ok f ∧ r'.matches_ exEnv input () = .ok f' ∧
    f.found.delegate.map Match.span = [(2, 4)] ∧ f'.found.delegate.map Match.span = [(2, 4), (0, 2)] := by
  refine ⟨exOrder [exGroup 1 0 2 0 2, exGroup 2 0 3 1 3, exGroup 3 0 4 2 4], exOrder [exGroup 3 0 4 2 4, exGroup 2 0 3 1 3, exGroup 1 0 2 0 2], "abcd".toList, ?_⟩
  refine ⟨_, _, exOrder_default _, exOrder_default _, List.reverse_perm [exGroup 3 0 4 2 4, exGroup 2 0 3 1 3, exGroup 1 0 2 0 2], rfl, rfl, rfl, rfl, ?_, ?_⟩
  · decide
  · decide

end Rebulk
