import Verif.Props.Locality
/-!
# The default rules act locally: the whole of `matches()` (`C125`)
-/
namespace Rebulk
open Spec Matches
variable {Ctx : Type}

/-! ## The two rules -/

theorem View.sub {G : Match → Bool} {f : Nat → Nat} {l l' : List Match} (v : View G f l) (h : ∀ x ∈ l', x ∈ l) : View G f l' :=
  ⟨fun a ha b hb => v.objects a (h a ha) b (h b hb), fun a ha b hb => v.apart a (h a ha) b (h b hb), fun a ha b hb => v.inj a (h a ha) b (h b hb)⟩

/-- What the two default rules leave. -/
def ruled (set : List Match) (l : List Match) : List Match :=
  ((set.foldl cutFirst l).filter (fun m => m.priv)).foldl cutFirst (set.foldl cutFirst l)

theorem ruled_sub (set l : List Match) : ∀ x ∈ ruled set l, x ∈ l := fun x hx => cutAll_sub _ _ x (cutAll_sub _ _ x hx)

theorem filter_priv_pick (G : Match → Bool) (f : Nat → Nat) (l : List Match) : (pick G f l).filter (fun m => m.priv) = pick G f (l.filter (fun m => m.priv)) := by
  unfold pick
  rw [List.filter_map, List.filter_filter, List.filter_filter]
  congr 1
  exact List.filter_congr (fun x _ => Bool.and_comm _ _)

theorem ruled_pick {G : Match → Bool} {f : Nat → Nat} {l set : List Match} (v : View G f l) (h : ∀ x ∈ set, x ∈ l) :
    ruled (pick G f set) (pick G f l) = pick G f (ruled set l) := by
  have h1 := cutAll_pick v h (fun _ hx => hx)
  unfold ruled
  rw [← h1, filter_priv_pick]
  exact (cutAll_pick v (fun x hx => cutAll_sub set l x (List.mem_filter.1 hx).1) (fun x hx => cutAll_sub set l x hx)).symm

/-- What the default rules do with what is found. -/
theorem default_does {env : Env (List Match)} {custom : Nat → Match → Match → Except PyErr SolverRet} {order : List Match → List Match}
    (hr : env.rule = defaultRule (.withDefault custom) order) (ho : ∀ l, (order l).Perm l) (ht : env.truthy = listTruthy) {r : RebulkObj Ctx} {a b : Nat} {ctx : Ctx}
    (hab : r.effectiveRules ctx = [conflictSolverRule a, privateRemoverRule b]) (hd : r.disabled ctx = false) {f : Found} (h : Tidy f.found) :
    (∀ set, (conflictWhen (.withDefault custom) f.found).2 = .ok set → ∃ f', r.executeRules env ctx f = .ok f' ∧
      f'.found.delegate = ruled set f.found.delegate ∧ f'.markers = f.markers ∧ Tidy f'.found) ∧
    ∀ e, (conflictWhen (.withDefault custom) f.found).2 = .error e → r.executeRules env ctx f = .error e := by
  have q := executeRules_two (env := env) (b1 := conflictRule (.withDefault custom) order) (b2 := privateRule) hr (fun n => rfl) (fun n => rfl) ht hab hd f
  obtain ⟨c1, c2⟩ := conflict_exec (.withDefault custom) ho h ⟨a, 0⟩
  constructor
  · intro set hs
    obtain ⟨d1, d2, d3⟩ := c1 set hs
    obtain ⟨p1, p2, p3⟩ := private_exec d3 ⟨b, 1⟩
    rw [d1] at q
    simp only at q
    rw [p1] at q
    refine ⟨_, q, ?_, rfl, p3⟩
    simp only
    rw [p2]
    have : privateWhen (executeRule listTruthy (conflictRule (.withDefault custom) order) ⟨a, 0⟩ f.found).state =
      (executeRule listTruthy (conflictRule (.withDefault custom) order) ⟨a, 0⟩ f.found).state.delegate.filter (fun m => m.priv) := rfl
    rw [this, d2]
    rfl
  · intro e he
    rw [q, c2 e he]

/-! ## Groups -/

theorem exists_flags : ∀ {L : List (Bool × Match)} {d : List Match}, d.map content = (L.map (fun x => x.2)).map content → (d.map Match.id).Nodup →
    ∃ G : Match → Bool, (d.filter G).map content = ((L.filter (fun x => x.1)).map (fun x => x.2)).map content ∧
      (d.filter (fun m => !G m)).map content = ((L.filter (fun x => !x.1)).map (fun x => x.2)).map content
  | [], [], _, _ => ⟨fun _ => true, rfl, rfl⟩
  | [], y :: d, h, _ => by cases h
  | x :: L, [], h, _ => by cases h
  | (b, x) :: L, y :: d, h, hn => by
    simp only [List.map_cons, List.cons.injEq] at h
    rw [List.map_cons, List.nodup_cons] at hn
    obtain ⟨G', g1, g2⟩ := exists_flags h.2 hn.2
    refine ⟨fun m => if m.id = y.id then b else G' m, ?_⟩
    have hne : ∀ m ∈ d, m.id ≠ y.id := fun m hm e => hn.1 (e ▸ List.mem_map_of_mem hm)
    have e1 : d.filter (fun m => if m.id = y.id then b else G' m) = d.filter G' := List.filter_congr (fun m hm => by rw [if_neg (hne m hm)])
    have e2 : d.filter (fun m => !(if m.id = y.id then b else G' m)) = d.filter (fun m => !G' m) := List.filter_congr (fun m hm => by rw [if_neg (hne m hm)])
    have hy : (if y.id = y.id then b else G' y) = b := if_pos rfl
    rw [List.filter_cons, List.filter_cons, List.filter_cons, List.filter_cons, e1, e2, hy]
    simp only [if_true]
    cases b with
    | true => exact ⟨by rw [if_pos rfl, if_pos rfl, List.map_cons, List.map_cons, List.map_cons, g1, h.1], g2⟩
    | false => exact ⟨g1, by rw [if_pos (by rfl), if_pos (by rfl), List.map_cons, List.map_cons, List.map_cons, g2, h.1]⟩

theorem exists_other_ids : ∀ {d d1 : List Match}, d1.map content = d.map content → (d.map Match.id).Nodup → (d1.map Match.id).Nodup →
    ∃ f : Nat → Nat, d1 = d.map (reId f) ∧ ∀ a ∈ d, ∀ b ∈ d, f a.id = f b.id → a.id = b.id
  | [], [], _, _, _ => ⟨fun n => n, rfl, fun a ha => (by cases ha)⟩
  | [], y :: d, h, _, _ => by cases h
  | x :: d, [], h, _, _ => by cases h
  | x :: d, y :: d1, h, hn, hn1 => by
    simp only [List.map_cons, List.cons.injEq] at h
    rw [List.map_cons, List.nodup_cons] at hn hn1
    obtain ⟨f', g1, g2⟩ := exists_other_ids h.2 hn.2 hn1.2
    have hne : ∀ m ∈ d, m.id ≠ x.id := fun m hm e => hn.1 (e ▸ List.mem_map_of_mem hm)
    refine ⟨fun n => if n = x.id then y.id else f' n, ?_, ?_⟩
    · rw [List.map_cons]
      have e1 : reId (fun n => if n = x.id then y.id else f' n) x = y := by
        have hc := h.1
        cases x; cases y
        simp [reId, content] at *
        simp [hc]
      have e2 : d.map (reId (fun n => if n = x.id then y.id else f' n)) = d.map (reId f') :=
        List.map_congr_left (fun m hm => by unfold reId; simp only [if_neg (hne m hm)])
      rw [e1, e2, ← g1]
    · have hold : ∀ m ∈ d, f' m.id ≠ y.id := by
        intro m hm e
        refine hn1.1 ?_
        rw [← e, g1]
        exact List.mem_map.2 ⟨reId f' m, List.mem_map_of_mem hm, rfl⟩
      intro a ha b hb hab
      rcases List.mem_cons.1 ha with ea | ha <;> rcases List.mem_cons.1 hb with eb | hb
      · rw [ea, eb]
      · simp only [ea, if_true, if_neg (hne b hb)] at hab
        exact absurd hab.symm (hold b hb)
      · simp only [eb, if_true, if_neg (hne a ha)] at hab
        exact absurd hab (hold a ha)
      · simp only [if_neg (hne a ha), if_neg (hne b hb)] at hab
        exact g2 a ha b hb hab

theorem shuffle_flags {α β : Type} (h : α → β) (flag : α → Bool) : ∀ l : List α, Shuffle (l.map h) ((l.filter flag).map h) ((l.filter (fun x => !flag x)).map h)
  | [] => .nil
  | x :: l => by
    cases hx : flag x with
    | true => rw [List.filter_cons_of_pos hx, List.filter_cons_of_neg (by simp [hx])]; exact .left (shuffle_flags h flag l)
    | false => rw [List.filter_cons_of_neg (by simp [hx]), List.filter_cons_of_pos (by simp [hx])]; exact .right (shuffle_flags h flag l)

theorem pick_content (G : Match → Bool) (f : Nat → Nat) (l : List Match) : (pick G f l).map content = (l.filter G).map content := by
  unfold pick; rw [List.map_map]; rfl

/-! ## The search -/

theorem collects_split {lower : Str → Str} {ctx : Ctx} {input : Str} (keep : PatternObj Ctx → Bool) {ps : List (PatternObj Ctx)} {ts : List MTree}
    (h : Collects lower ctx input ps ts) : ∃ M : List (Bool × MTree), M.map (fun x => x.2) = ts ∧
      Collects lower ctx input (ps.filter keep) ((M.filter (fun x => x.1)).map (fun x => x.2)) ∧
      Collects lower ctx input (ps.filter (fun p => !keep p)) ((M.filter (fun x => !x.1)).map (fun x => x.2)) := by
  induction h with
  | nil => exact ⟨[], rfl, .nil, .nil⟩
  | @disabled p ps ts hd _ ih =>
    obtain ⟨M, h1, h2, h3⟩ := ih
    refine ⟨M, h1, ?_, ?_⟩
    · rw [List.filter_cons]; split
      · exact .disabled hd h2
      · exact h2
    · rw [List.filter_cons]; split
      · exact .disabled hd h3
      · exact h3
  | @enabled p ps ts ts' hd hm _ ih =>
    obtain ⟨M, h1, h2, h3⟩ := ih
    have a1 : ∀ (g : Bool → Bool), g (keep p) = true → (ts.map (fun t => (keep p, t))).filter (fun x => g x.1) = ts.map (fun t => (keep p, t)) := by
      intro g hg
      refine List.filter_eq_self.2 (fun x hx => ?_)
      obtain ⟨t, _, rfl⟩ := List.mem_map.1 hx; exact hg
    have a2 : ∀ (g : Bool → Bool), g (keep p) = false → (ts.map (fun t => (keep p, t))).filter (fun x => g x.1) = [] := by
      intro g hg
      refine List.filter_eq_nil_iff.2 (fun x hx => ?_)
      obtain ⟨t, _, rfl⟩ := List.mem_map.1 hx; simp [hg]
    have a3 : (ts.map (fun t => (keep p, t))).map (fun x => x.2) = ts := by rw [List.map_map]; exact List.map_id' ts
    refine ⟨ts.map (fun t => (keep p, t)) ++ M, by rw [List.map_append, a3, h1], ?_, ?_⟩
    · rw [List.filter_append, List.map_append]
      cases hk : keep p with
      | true => rw [List.filter_cons_of_pos hk, ← hk, a1 (fun b => b) hk, a3]; exact .enabled hd hm h2
      | false => rw [List.filter_cons_of_neg (by simp [hk]), ← hk, a2 (fun b => b) hk]; exact h2
    · rw [List.filter_append, List.map_append]
      cases hk : keep p with
      | false => rw [List.filter_cons_of_pos (by simp [hk]), ← hk, a1 (fun b => !b) (by simp [hk]), a3]; exact .enabled hd hm h3
      | true => rw [List.filter_cons_of_neg (by simp [hk]), ← hk, a2 (fun b => !b) (by simp [hk])]; exact h3

theorem raises_split {lower : Str → Str} {ctx : Ctx} {input : Str} (keep : PatternObj Ctx → Bool) {e : PyErr} {ps : List (PatternObj Ctx)}
    (h : RaisesFirst lower ctx input e ps) : RaisesFirst lower ctx input e (ps.filter keep) ∨ RaisesFirst lower ctx input e (ps.filter (fun p => !keep p)) := by
  induction h with
  | @here p ps hd hm =>
    cases hk : keep p with
    | true => left; rw [List.filter_cons_of_pos hk]; exact .here hd hm
    | false => right; rw [List.filter_cons_of_pos (by simp [hk])]; exact .here hd hm
  | @disabled p ps hd _ ih =>
    rcases ih with h | h
    · left; rw [List.filter_cons]; split
      · exact .disabled hd h
      · exact h
    · right; rw [List.filter_cons]; split
      · exact .disabled hd h
      · exact h
  | @fine p ps ts hd hm _ ih =>
    rcases ih with h | h
    · left; rw [List.filter_cons]; split
      · exact .fine hd hm h
      · exact h
    · right; rw [List.filter_cons]; split
      · exact .fine hd hm h
      · exact h

/-- The roots of the trees, flagged. -/
def flagRoots (b : Bool) (M : List (Bool × MTree)) : List (Bool × Match) := (M.map (fun x => (x.1, x.2.root))).filter (fun x => decide (x.2.marker = b))

theorem flagRoots_all (b : Bool) : ∀ M : List (Bool × MTree), (flagRoots b M).map (fun x => x.2) = rootsOf b (M.map (fun x => x.2))
  | [] => rfl
  | x :: M => by
    have ih := flagRoots_all b M
    unfold flagRoots rootsOf at *
    simp only [List.map_cons, List.filter_cons]
    split
    · rw [List.map_cons, ih]
    · exact ih

theorem flagRoots_some (b : Bool) (g : Bool → Bool) : ∀ M : List (Bool × MTree), ((flagRoots b M).filter (fun x => g x.1)).map (fun x => x.2) =
    rootsOf b ((M.filter (fun x => g x.1)).map (fun x => x.2))
  | [] => rfl
  | x :: M => by
    have ih := flagRoots_some b g M
    unfold flagRoots rootsOf at *
    simp only [List.map_cons, List.filter_cons]
    cases hg : g x.1 with
    | true =>
      simp only [if_true, List.map_cons, List.filter_cons]
      split
      · rw [List.filter_cons_of_pos (by exact hg), List.map_cons, ih]
      · exact ih
    | false =>
      simp only [Bool.false_eq_true, if_false]
      split
      · rw [List.filter_cons_of_neg (by simp [hg])]; exact ih
      · exact ih

theorem oneObject_of_nodup {l : List Match} (h : (l.map Match.id).Nodup) : OneObjectPerId l := by
  induction l with
  | nil => intro a ha; cases ha
  | cons x l ih =>
    rw [List.map_cons, List.nodup_cons] at h
    intro a ha b hb e
    rcases List.mem_cons.1 ha with ea | ha <;> rcases List.mem_cons.1 hb with eb | hb
    · rw [ea, eb]
    · exact absurd (List.mem_map.2 ⟨b, hb, by rw [← e, ea]⟩) h.1
    · exact absurd (List.mem_map.2 ⟨a, ha, by rw [e, eb]⟩) h.1
    · exact ih h.2 a ha b hb e

theorem only_runs (env : Env (List Match)) (keep : PatternObj Ctx → Bool) (r : RebulkObj Ctx) (ctx : Ctx) (f : Found) :
    (onlyPatterns keep r).executeRules env ctx f = r.executeRules env ctx f := by
  unfold RebulkObj.executeRules; rw [effectiveRules_only]; rfl

/-- **C125**: patterns whose matches neither share a character with the ones of the other patterns nor are equal to one of them can be searched apart: with the default
rules, the matches (and markers) are the ones found with each group alone, each in its own order; it raises when one of the groups alone raises, and what
it raises. -/
theorem C125_local {env : Env (List Match)} {custom : Nat → Match → Match → Except PyErr SolverRet} {order : List Match → List Match}
    (hrule : env.rule = defaultRule (.withDefault custom) order) (ho : ∀ l, (order l).Perm l) (hi : Impartial custom) (ht : env.truthy = listTruthy)
    (hk : env.checkKeys = false) {r : RebulkObj Ctx} (hr : DefaultRulesOnly r) (hobj : ∀ p ∈ allPatternsOf r, ∀ q ∈ allPatternsOf r, p.id = q.id → p = q)
    (input : Str) (ctx : Ctx) (keep : PatternObj Ctx → Bool)
    (hapart : ∀ ts1 ts2, Collects env.lower ctx input ((r.effectivePatterns ctx).filter keep) ts1 →
      Collects env.lower ctx input ((r.effectivePatterns ctx).filter (fun p => !keep p)) ts2 → Apart (rootsOf false ts1) (rootsOf false ts2)) :
    (∀ f, r.matches_ env input ctx = .ok f → ∃ f1 f2, (onlyPatterns keep r).matches_ env input ctx = .ok f1 ∧
      (onlyPatterns (fun p => !keep p) r).matches_ env input ctx = .ok f2 ∧
      Shuffle (f.found.delegate.map content) (f1.found.delegate.map content) (f2.found.delegate.map content) ∧
      Shuffle (f.markers.delegate.map content) (f1.markers.delegate.map content) (f2.markers.delegate.map content)) ∧
    ∀ e, r.matches_ env input ctx = .error e → (onlyPatterns keep r).matches_ env input ctx = .error e ∨
      (onlyPatterns (fun p => !keep p) r).matches_ env input ctx = .error e := by
  cases hd : r.disabled ctx with
  | true =>
    rw [C72_rebulk env r input ctx hd, C72_rebulk env (onlyPatterns keep r) input ctx hd, C72_rebulk env (onlyPatterns (fun p => !keep p) r) input ctx hd]
    refine ⟨fun f hf => ?_, fun e he => (by cases he)⟩
    cases hf
    exact ⟨_, _, rfl, rfl, .nil, .nil⟩
  | false =>
    have h1 := effectivePatterns_only keep r ctx (fun p hp q hq he => by rw [hobj p hp q hq he])
    have h2 := effectivePatterns_only (fun p => !keep p) r ctx (fun p hp q hq he => by rw [hobj p hp q hq he])
    rcases collects_or_raises env.lower ctx input (r.effectivePatterns ctx) with ⟨ts, hc⟩ | ⟨e, hc⟩
    · obtain ⟨M, m1, m2, m3⟩ := collects_split keep hc
      have hap := hapart _ _ m2 m3
      rw [← h1] at m2
      rw [← h2] at m3
      obtain ⟨F, s1, s2, _, s4, s5⟩ := searchPatterns_collects hc (gathering_empty input (r.effectiveKeys ctx))
      obtain ⟨F1, a1, a2, _, a4, a5⟩ := searchPatterns_collects m2 (gathering_empty input ((onlyPatterns keep r).effectiveKeys ctx))
      obtain ⟨F2, b1, b2, _, b4, b5⟩ := searchPatterns_collects m3 (gathering_empty input ((onlyPatterns (fun p => !keep p) r).effectiveKeys ctx))
      rw [matches_found hk hd s1, matches_found hk (r := onlyPatterns keep r) hd a1, matches_found hk (r := onlyPatterns (fun p => !keep p) r) hd b1,
        only_runs, only_runs]
      have nil1 : ∀ (keys : Dict String Key), ({ Found.empty input with keys := keys } : Found).found.delegate.map content = [] := fun _ => rfl
      have nil2 : ∀ (keys : Dict String Key), ({ Found.empty input with keys := keys } : Found).markers.delegate.map content = [] := fun _ => rfl
      rw [nil1, List.nil_append] at s4 a4 b4
      rw [nil2, List.nil_append] at s5 a5 b5
      have n0 := (List.nodup_append.1 s2.nodup).1
      have n1 := (List.nodup_append.1 a2.nodup).1
      have n2 := (List.nodup_append.1 b2.nodup).1
      rw [← m1, ← flagRoots_all] at s4 s5
      rw [← flagRoots_some _ (fun b => b)] at a4 a5
      rw [← flagRoots_some _ (fun b => !b)] at b4 b5
      obtain ⟨G, g1, g2⟩ := exists_flags s4 n0
      have hsub : ∀ (H : Match → Bool), ((F.found.delegate.filter H).map Match.id).Nodup := fun H => n0.sublist ((List.filter_sublist).map _)
      obtain ⟨f, f1, f2⟩ := exists_other_ids (a4.trans g1.symm) (hsub _) n1
      obtain ⟨g, e1, e2⟩ := exists_other_ids (b4.trans g2.symm) (hsub _) n2
      have hap' : ∀ a ∈ F.found.delegate, ∀ b ∈ F.found.delegate, G a = true → G b = false → ¬ Overlap a b ∧ a.eqv b = false := by
        intro a ha b hb hga hgb
        obtain ⟨a', q1, q2⟩ := content_mem g1 (List.mem_filter.2 ⟨ha, hga⟩)
        obtain ⟨b', q3, q4⟩ := content_mem g2 (List.mem_filter.2 ⟨hb, by simp [hgb]⟩)
        rw [flagRoots_some _ (fun b => b)] at q1
        rw [flagRoots_some _ (fun b => !b)] at q3
        obtain ⟨z1, z2⟩ := hap a' q1 b' q3
        exact ⟨fun h => z1 (content_overlap q2.symm q4.symm h), by rw [content_eqv_congr q2.symm q4.symm]; exact z2⟩
      have hap2 : ∀ a ∈ F.found.delegate, ∀ b ∈ F.found.delegate, G a ≠ G b → ¬ Overlap a b ∧ a.eqv b = false := by
        intro a ha b hb hne
        cases hga : G a with
        | true => exact hap' a ha b hb hga (by cases hgb : G b with | true => exact absurd (hga.trans hgb.symm) hne | false => rfl)
        | false =>
          have hgb : G b = true := by cases hgb : G b with | true => rfl | false => exact absurd (hga.trans hgb.symm) hne
          obtain ⟨z1, z2⟩ := hap' b hb a ha hgb hga
          refine ⟨fun ⟨i, h, h'⟩ => z1 ⟨i, h', h⟩, ?_⟩
          cases he : a.eqv b with
          | false => rfl
          | true => rw [Match.eqv_symm he] at z2; cases z2
      have v1 : View G f F.found.delegate := ⟨oneObject_of_nodup n0, hap2, fun a ha b hb hga hgb => f2 a (List.mem_filter.2 ⟨ha, hga⟩) b (List.mem_filter.2 ⟨hb, hgb⟩)⟩
      have v2 : View (fun m => !G m) g F.found.delegate := ⟨oneObject_of_nodup n0, fun a ha b hb hne => hap2 a ha b hb (fun e => hne (by rw [e])),
        fun a ha b hb hga hgb => e2 a (List.mem_filter.2 ⟨ha, hga⟩) b (List.mem_filter.2 ⟨hb, hgb⟩)⟩
      have k1 : Held G f F.found F1.found := ⟨s2.foundTidy, a2.foundTidy, f1⟩
      have k2 : Held (fun m => !G m) g F.found F2.found := ⟨s2.foundTidy, b2.foundTidy, e1⟩
      obtain ⟨⟨w1, w2⟩, w3⟩ := conflictWhen_agree hi v1 v2 k1 k2
      obtain ⟨x, y, hxy⟩ := defaultRules_effective hr ctx
      obtain ⟨d1, d2⟩ := default_does hrule ho ht hxy hd s2.foundTidy
      obtain ⟨d3, d4⟩ := default_does hrule ho ht hxy hd a2.foundTidy
      obtain ⟨d5, d6⟩ := default_does hrule ho ht hxy hd b2.foundTidy
      cases hw : (conflictWhen (.withDefault custom) F.found).2 with
      | error e =>
        rw [d2 e hw]
        refine ⟨fun f hf => (by cases hf), fun e' he => ?_⟩
        cases he
        rcases w2 e hw with h | h
        · left; exact d4 e h
        · right; exact d6 e h
      | ok set =>
        obtain ⟨z1, z2⟩ := w1 set hw
        obtain ⟨R, r1, r2, r3, _⟩ := d1 set hw
        obtain ⟨R1, p1, p2, p3, _⟩ := d3 _ z1
        obtain ⟨R2, p4, p5, p6, _⟩ := d5 _ z2
        rw [r1]
        refine ⟨fun f' hf => ?_, fun e he => (by cases he)⟩
        cases hf
        refine ⟨R1, R2, p1, p4, ?_, ?_⟩
        · rw [r2, p2, p5, k1.same, k2.same, ruled_pick v1 (w3 set hw), ruled_pick v2 (w3 set hw), pick_content, pick_content]
          exact shuffle_flags content G _
        · rw [r3, p3, p6, s5, a5, b5, List.map_map, List.map_map, List.map_map]
          exact shuffle_flags _ (fun x : Bool × Match => x.1) _
    · rw [C73_raises env r input ctx hd hc]
      refine ⟨fun f hf => (by cases hf), fun e' he => ?_⟩
      cases he
      rcases raises_split keep hc with h | h
      · left; exact C73_raises env (onlyPatterns keep r) input ctx hd (h1 ▸ h)
      · right; exact C73_raises env (onlyPatterns (fun p => !keep p) r) input ctx hd (h2 ▸ h)

theorem collects_same {lower : Str → Str} {ctx : Ctx} {input : Str} {ps : List (PatternObj Ctx)} {ts : List MTree} (h : Collects lower ctx input ps ts) :
    ∀ {ts' : List MTree}, Collects lower ctx input ps ts' → ts = ts' := by
  induction h with
  | nil => intro ts' h'; cases h'; rfl
  | disabled hd _ ih =>
    intro ts' h'
    cases h' with
    | disabled _ h => exact ih h
    | enabled hd' _ _ => rw [hd] at hd'; cases hd'
  | enabled hd hm _ ih =>
    intro ts' h'
    cases h' with
    | disabled hd' _ => rw [hd] at hd'; cases hd'
    | enabled _ hm' h => rw [hm] at hm'; cases hm'; rw [ih h]

theorem apart_of {l l' : List Match} (h : ∀ a ∈ l, ∀ b ∈ l', a.stop ≤ b.start ∧ a.eqv b = false) : Apart l l' := fun a ha b hb =>
  ⟨fun ⟨i, h1, h2⟩ => (by have := (h a ha b hb).1; unfold Covers at h1 h2; omega), (h a ha b hb).2⟩

/-- The two conflict solvers of the examples are judges of contents. -/
theorem default_impartial : Impartial (fun _ _ _ => .ok .default) := ⟨fun _ _ _ => .ok .default, fun _ _ _ => rfl, fun _ _ _ _ _ _ _ => rfl⟩

/-- Patterns of both groups, with a conflict in each of them, a private match and a marker. -/
example : let r := exRebulk [exPattern 1 {} ["ab", "ef"], exPattern 2 {} ["abc"], exPattern 3 { priv := true } ["d"]] [exPattern 4 {} ["efg"], exPattern 5 { marker := true } ["a"]]
    let keep : PatternObj Unit → Bool := fun p => p.id != 4 && p.id != 1
    let r' := exRebulk [exPattern 1 {} ["ab"], exPattern 2 {} ["abc"], exPattern 3 { priv := true } ["d"]] [exPattern 4 {} ["efg"], exPattern 6 {} ["fg"], exPattern 5 { marker := true } ["a"]]
    let keep' : PatternObj Unit → Bool := fun p => p.id != 4 && p.id != 6
    DefaultRulesOnly r' ∧
    (∀ ts1 ts2, Collects exEnv.lower () "abcdefg".toList ((r'.effectivePatterns ()).filter keep') ts1 →
      Collects exEnv.lower () "abcdefg".toList ((r'.effectivePatterns ()).filter (fun p => !keep' p)) ts2 → Apart (rootsOf false ts1) (rootsOf false ts2)) ∧
    (∃ ts1 ts2, Collects exEnv.lower () "abcdefg".toList ((r'.effectivePatterns ()).filter keep') ts1 ∧
      Collects exEnv.lower () "abcdefg".toList ((r'.effectivePatterns ()).filter (fun p => !keep' p)) ts2 ∧
      rootsOf false ts1 ≠ [] ∧ rootsOf false ts2 ≠ [] ∧ (rootsOf false ts1).map Match.span = [(0, 2), (0, 3), (3, 4)] ∧
      (rootsOf false ts2).map Match.span = [(4, 7), (5, 7)]) ∧
    (∃ f, r'.matches_ exEnv "abcdefg".toList () = .ok f ∧ f.found.delegate.map Match.span = [(0, 3), (4, 7)]) ∧
    (∃ f, (onlyPatterns keep' r').matches_ exEnv "abcdefg".toList () = .ok f ∧ f.found.delegate.map Match.span = [(0, 3)]) ∧
    (∃ f, (onlyPatterns (fun p => !keep' p) r').matches_ exEnv "abcdefg".toList () = .ok f ∧ f.found.delegate.map Match.span = [(4, 7)]) ∧
    -- without `Apart`, the conclusion is false: alone, the pattern of `ab` and `ef` gives both
    (∃ f, r.matches_ exEnv "abcdefg".toList () = .ok f ∧ f.found.delegate.map Match.span = [(0, 3), (4, 7)]) ∧
    (∃ f, (onlyPatterns (fun p => !keep p) r).matches_ exEnv "abcdefg".toList () = .ok f ∧ f.found.delegate.map Match.span = [(0, 2), (4, 7)]) :=
  ⟨exRebulk_default _ _, (by
      intro ts1 ts2 h1 h2
      have e1 := collects_same (.enabled rfl rfl (.enabled rfl rfl (.enabled rfl rfl (.enabled rfl rfl .nil)))) h1
      have e2 := collects_same (.enabled rfl rfl (.enabled rfl rfl .nil)) h2
      subst e1; subst e2
      exact apart_of (by decide)),
    ⟨_, _, .enabled rfl rfl (.enabled rfl rfl (.enabled rfl rfl (.enabled rfl rfl .nil))), .enabled rfl rfl (.enabled rfl rfl .nil), by decide, by decide,
    by decide, by decide⟩, ⟨_, rfl, by decide⟩, ⟨_, rfl, by decide⟩, ⟨_, rfl, by decide⟩, ⟨_, rfl, by decide⟩, ⟨_, rfl, by decide⟩⟩

end Rebulk
