import Verif.Spec.Raising
import Verif.Spec.Registry
import Verif.Lemmas.ChainNested
/-!
# Patterns whose user functions raise: lemmas
-/
namespace Rebulk
open Spec

/-- `r` (with exceptions of users) follows `q` (without them). -/
def Follows {α : Type} (U : PyErr → Prop) (r q : Except PyErr α) : Prop :=
  (∀ x, r = .ok x → q = .ok x) ∧ ∀ e, r = .error e → e ≠ .invalidChain ∧ (U e ∨ ∃ e', q = .error e')

/-- Same, when `q` cannot fail. -/
def FollowsT {α : Type} (U : PyErr → Prop) (r : Except PyErr α) (q : α) : Prop :=
  (∀ x, r = .ok x → q = x) ∧ ∀ e, r = .error e → U e

theorem filled_follows {α : Type} {U : PyErr → Prop} {r : Except PyErr α} (d : α) (h : ∀ e, r = .error e → U e) : FollowsT U r (filled d r) := by
  refine ⟨?_, h⟩
  rintro x rfl; rfl

theorem getD_map {κ α β : Type} [BEq κ] (g : α → β) (d : Dict κ α) : ∀ (keys : List κ) (dft : α),
    getFirstDefined (List.map (fun kv => (kv.1, g kv.2)) d) keys (g dft) = g (getFirstDefined d keys dft) := by
  have hget : ∀ k, Dict.get? (List.map (fun kv => (kv.1, g kv.2)) d) k = (Dict.get? d k).map g := by
    intro k
    induction d with
    | nil => rfl
    | cons a d ih =>
      obtain ⟨k', v⟩ := a
      simp only [List.map_cons, Dict.get?]
      split
      · rfl
      · exact ih
  intro keys dft
  induction keys with
  | nil => rfl
  | cons k ks ih =>
    unfold getFirstDefined
    rw [hget k]
    cases Dict.get? d k with
    | none => exact ih
    | some v => rfl

theorem getD_mem {κ α : Type} [BEq κ] (d : Dict κ α) : ∀ (keys : List κ) (dft : α),
    getFirstDefined d keys dft = dft ∨ ∃ k, (k, getFirstDefined d keys dft) ∈ d := by
  have hget : ∀ (d : Dict κ α) k v, Dict.get? d k = some v → ∃ k', (k', v) ∈ d := by
    intro d k v h
    induction d with
    | nil => cases h
    | cons a d ih =>
      obtain ⟨k', v'⟩ := a
      simp only [Dict.get?] at h
      split at h
      · injection h with h; subst h; exact ⟨k', by simp⟩
      · obtain ⟨k2, h2⟩ := ih h; exact ⟨k2, List.mem_cons_of_mem _ h2⟩
  intro keys dft
  induction keys with
  | nil => exact Or.inl rfl
  | cons k ks ih =>
    unfold getFirstDefined
    cases hk : Dict.get? d k with
    | none => exact ih
    | some v => exact Or.inr (hget d k v hk)

section
variable {U : PyErr → Prop} {p : RPattern} {f : Fill}

theorem processValidator_follows (hp : ∀ e, ConfigRaises p e → U e) (child : Bool) (t : MTree) :
    FollowsT U (p.processValidator child t) ((p.total f).processValidator child t) := by
  unfold RPattern.processValidator Pattern.processValidator
  have h1 : (p.total f).shouldIncludeChildren = p.base.shouldIncludeChildren := rfl
  have h2 : (p.total f).shouldIncludeParent = p.base.shouldIncludeParent := rfl
  have h3 : (p.total f).validateAll = p.base.validateAll := rfl
  rw [h1, h2, h3]
  simp only
  generalize hb : ((if child = true then p.base.shouldIncludeChildren else p.base.shouldIncludeParent) || p.base.validateAll) = b
  cases b with
  | true =>
    have hg : getFirstDefined (p.total f).validators (Pattern.configKeys t.root child) (p.total f).defaultValidator =
        (getFirstDefined p.validators (Pattern.configKeys t.root child) p.defaultValidator).map (fun v t => filled (f.validator t) (v t)) :=
      getD_map (fun o : Option (MTree → Except PyErr Bool) => o.map (fun (v : MTree → Except PyErr Bool) t => filled (f.validator t) (v t)))
        p.validators _ p.defaultValidator
    rw [hg, if_pos rfl, if_pos rfl]
    cases hv : getFirstDefined p.validators (Pattern.configKeys t.root child) p.defaultValidator with
    | none => exact ⟨fun x h => by injection h, by intro e h; cases h⟩
    | some v =>
      refine filled_follows _ ?_
      intro e he
      apply hp
      rcases getD_mem p.validators (Pattern.configKeys t.root child) p.defaultValidator with h | ⟨k, h⟩
      · exact Or.inr (Or.inl ⟨v, t, by rw [← h, hv], he⟩)
      · rw [hv] at h; exact Or.inl ⟨k, v, t, h, he⟩
  | false => exact ⟨fun x h => by injection h, by intro e h; cases h⟩

theorem processMatch_follows (hp : ∀ e, ConfigRaises p e → U e) (idx : Nat) (child : Bool) (t : MTree) :
    FollowsT U (p.processMatch idx child t) ((p.total f).processMatch idx child t) := by
  unfold RPattern.processMatch Pattern.processMatch
  have hc : (p.total f).configure idx child t.root = p.base.configure idx child t.root := rfl
  rw [hc]
  simp only
  obtain ⟨h1, h2⟩ := processValidator_follows (f := f) hp child (t.setRoot (p.base.configure idx child t.root))
  cases hv : p.processValidator child (t.setRoot (p.base.configure idx child t.root)) with
  | error e =>
    refine ⟨by intro x h; simp at h, ?_⟩
    intro e' h
    simp only [Except.error.injEq] at h; subst h; exact h2 e hv
  | ok b =>
    refine ⟨?_, by intro e h; simp at h⟩
    intro x h
    simp only [Except.ok.injEq] at h; subst h
    rw [h1 b hv]

theorem backtrack_follows (hp : ∀ e, ConfigRaises p e → U e) (idx : Nat) (child : Bool) (pat : Option Nat) :
    ∀ (is : List Nat) (t : MTree) (fs : List Bool),
      FollowsT U (RChain.backtrack p idx child pat is t fs) (Chain.backtrack (p.total f) idx child pat is t fs)
  | [], t, fs => ⟨fun x h => by injection h, by intro e h; cases h⟩
  | i :: is, t, fs => by
    unfold RChain.backtrack Chain.backtrack
    have hc : ∀ m, (p.total f).configure idx child m = p.base.configure idx child m := fun _ => rfl
    simp only [hc]
    generalize hfs : Chain.dropAll t.children (Chain.positions t.children pat i) fs = fs'
    generalize ht1 : t.setRoot { t.root with stop := Chain.endOf t.root.start (Chain.alive t.children fs') } = t1
    generalize ht2 : t1.setRoot (p.base.configure idx child t1.root) = t2
    generalize hs : MTree.node t2.root (Chain.alive t2.children fs') = seen
    obtain ⟨h1, h2⟩ := processValidator_follows (f := f) hp child seen
    cases hv : p.processValidator child seen with
    | error e =>
      refine ⟨by intro x h; simp at h, ?_⟩
      intro e' h
      simp only [Except.error.injEq] at h; subst h; exact h2 e hv
    | ok b =>
      rw [h1 b hv]
      cases b with
      | true => exact ⟨fun x h => by injection h, by intro e h; cases h⟩
      | false => exact backtrack_follows hp idx child pat is _ _

theorem chainProcess_follows (hp : ∀ e, ConfigRaises p e → U e) (idx : Nat) (child : Bool) (t : MTree) :
    FollowsT U (RChain.processMatch p idx child t) (Chain.processMatch (p.total f) idx child t) := by
  unfold RChain.processMatch Chain.processMatch
  obtain ⟨h1, h2⟩ := processMatch_follows (f := f) hp idx child t
  cases hm : p.processMatch idx child t with
  | error e =>
    refine ⟨by intro x h; simp at h, ?_⟩
    intro e' h
    simp only [Except.error.injEq] at h; subst h; exact h2 e hm
  | ok r =>
    rw [h1 r hm]
    obtain ⟨t1, b⟩ := r
    cases b with
    | true => exact ⟨fun x h => by injection h, by intro e h; cases h⟩
    | false =>
      simp only
      cases hl : t1.children.getLast? with
      | none => exact ⟨fun x h => by injection h, by intro e h; cases h⟩
      | some last =>
        simp only
        generalize hks : (groupByIndex (t1.children.filter (fun c => decide (c.root.pattern = last.root.pattern)))).keys.reverse = ks
        generalize hfs : t1.children.map (fun _ => true) = fs
        obtain ⟨g1, g2⟩ := backtrack_follows (f := f) hp idx child last.root.pattern ks t1 fs
        cases hb : RChain.backtrack p idx child last.root.pattern ks t1 fs with
        | error e =>
          refine ⟨by intro x h; simp at h, ?_⟩
          intro e' h
          simp only [Except.error.injEq] at h; subst h; exact g2 e hb
        | ok r =>
          rw [g1 r hb]
          obtain ⟨t2, o⟩ := r
          cases o with
          | none => exact ⟨fun x h => by injection h, by intro e h; cases h⟩
          | some s => exact ⟨fun x h => by injection h, by intro e h; cases h⟩


theorem followsT_ok {α : Type} (x : α) : FollowsT U (.ok x) x := ⟨fun y h => by injection h, by intro e h; cases h⟩

theorem processProcessor_follows {g : Option (MTree → Except PyErr ProcRet)} (hg : ∀ h t e, g = some h → h t = .error e → U e) (t : MTree) :
    FollowsT U (RPattern.processProcessor g t) (Pattern.processProcessor (g.map (fun h t => filled (f.processor t) (h t))) t) := by
  cases g with
  | none => exact followsT_ok _
  | some h =>
    simp only [RPattern.processProcessor, Pattern.processProcessor, Option.map_some]
    cases hh : h t with
    | error e => exact ⟨by intro x hx; simp at hx, by intro e' he; simp only [Except.error.injEq] at he; subst he; exact hg h t e rfl hh⟩
    | ok r =>
      simp only [filled]
      cases r with
      | none => exact followsT_ok _
      | falsy => exact followsT_ok _
      | tree r => exact followsT_ok _

theorem processChildren_follows {rp : Nat → Bool → MTree → Except PyErr (MTree × Bool)} {pp : Nat → Bool → MTree → MTree × Bool}
    (h : ∀ idx child t, FollowsT U (rp idx child t) (pp idx child t)) (idx : Nat) : ∀ cs : List MTree,
    FollowsT U (RPattern.processChildren rp idx cs) (Pattern.processChildren pp idx cs)
  | [] => followsT_ok _
  | c :: cs => by
    unfold RPattern.processChildren Pattern.processChildren
    obtain ⟨h1, h2⟩ := h idx true c
    cases hc : rp idx true c with
    | error e => exact ⟨by intro x hx; simp at hx, by intro e' he; simp only [Except.error.injEq] at he; subst he; exact h2 e hc⟩
    | ok r =>
      rw [h1 r hc]
      obtain ⟨c', b⟩ := r
      cases b with
      | false => exact followsT_ok _
      | true =>
        simp only
        obtain ⟨g1, g2⟩ := processChildren_follows h idx cs
        cases hcs : RPattern.processChildren rp idx cs with
        | error e => exact ⟨by intro x hx; simp at hx, by intro e' he; simp only [Except.error.injEq] at he; subst he; exact g2 e hcs⟩
        | ok o =>
          rw [g1 o hcs]
          cases o with
          | none => exact followsT_ok _
          | some l => exact followsT_ok _

theorem truthy_err {m : Match} {e : PyErr} (h : m.truthy? = .error e) : e = .valueError := by
  unfold Match.truthy? at h
  split at h
  · injection h with h; exact h.symm
  · cases h

/-- The relation between the two versions of `_process_matches`. -/
theorem processMatches_follows (hI : ¬ U .invalidChain) (hp : ∀ e, ConfigRaises p e → U e)
    {rp : Nat → Bool → MTree → Except PyErr (MTree × Bool)} {pp : Nat → Bool → MTree → MTree × Bool}
    (h : ∀ idx child t, FollowsT U (rp idx child t) (pp idx child t)) (idx : Nat) (t : MTree) :
    (∀ l raw, p.processMatches rp idx t = .ok (l, raw) →
      (p.total f).processMatchesWith pp idx t = .ok l ∧ (p.total f).rawAfter pp idx t = raw) ∧
    ∀ e, p.processMatches rp idx t = .error e → e ≠ .invalidChain ∧ (U e ∨ ∃ e', (p.total f).processMatchesWith pp idx t = .error e') := by
  have user : ∀ e, U e → e ≠ .invalidChain := by rintro e he rfl; exact hI he
  have hpre : ∀ t, FollowsT U (RPattern.processProcessor p.preMatch t) (Pattern.processProcessor (p.total f).preMatch t) :=
    processProcessor_follows (fun g t e hg he => hp e (Or.inr (Or.inr (Or.inl ⟨g, t, hg, he⟩))))
  have hpost : ∀ t, FollowsT U (RPattern.processProcessor p.postMatch t) (Pattern.processProcessor (p.total f).postMatch t) :=
    processProcessor_follows (fun g t e hg he => hp e (Or.inr (Or.inr (Or.inr (Or.inl ⟨g, t, hg, he⟩)))))
  unfold RPattern.processMatches Pattern.processMatchesWith Pattern.rawAfter Pattern.keepGoing
  obtain ⟨h1, h2⟩ := hpre t
  cases hr : RPattern.processProcessor p.preMatch t with
  | error e =>
    refine ⟨by intro l raw hx; simp at hx, ?_⟩
    intro e' he
    simp only [Except.error.injEq] at he; subst he
    exact ⟨user _ (h2 _ hr), Or.inl (h2 _ hr)⟩
  | ok o =>
    rw [h1 o hr]
    cases o with
    | none =>
      refine ⟨?_, by intro e he; simp at he⟩
      intro l raw hx
      simp only [Except.ok.injEq, Prod.mk.injEq] at hx
      obtain ⟨rfl, rfl⟩ := hx
      exact ⟨rfl, rfl⟩
    | some t =>
      simp only
      cases ht : t.root.truthy? with
      | error e =>
        refine ⟨by intro l raw hx; simp at hx, ?_⟩
        intro e' he
        simp only [Except.error.injEq] at he; subst he
        refine ⟨?_, Or.inr ⟨_, rfl⟩⟩
        rw [truthy_err ht]; simp
      | ok b =>
        cases b with
        | false =>
          refine ⟨?_, by intro e he; simp at he⟩
          intro l raw hx
          simp only [Except.ok.injEq, Prod.mk.injEq] at hx
          obtain ⟨rfl, rfl⟩ := hx
          exact ⟨rfl, rfl⟩
        | true =>
          simp only
          obtain ⟨g1, g2⟩ := h idx false t
          cases hm : rp idx false t with
          | error e =>
            refine ⟨by intro l raw hx; simp at hx, ?_⟩
            intro e' he
            simp only [Except.error.injEq] at he; subst he
            exact ⟨user _ (g2 _ hm), Or.inl (g2 _ hm)⟩
          | ok r =>
            rw [g1 r hm]
            obtain ⟨t, b⟩ := r
            cases b with
            | false =>
              refine ⟨?_, by intro e he; simp at he⟩
              intro l raw hx
              simp only [Except.ok.injEq, Prod.mk.injEq] at hx
              obtain ⟨rfl, rfl⟩ := hx
              exact ⟨rfl, rfl⟩
            | true =>
              simp only [RPattern.processAccepted]
              obtain ⟨k1, k2⟩ := processChildren_follows h idx t.children
              cases hc : RPattern.processChildren rp idx t.children with
              | error e =>
                refine ⟨by intro l raw hx; simp at hx, ?_⟩
                intro e' he
                simp only [Except.error.injEq] at he; subst he
                exact ⟨user _ (k2 _ hc), Or.inl (k2 _ hc)⟩
              | ok o =>
                rw [k1 o hc]
                cases o with
                | none =>
                  refine ⟨?_, by intro e he; simp at he⟩
                  intro l raw hx
                  simp only [Except.ok.injEq, Prod.mk.injEq] at hx
                  obtain ⟨rfl, rfl⟩ := hx
                  exact ⟨rfl, rfl⟩
                | some cs =>
                  simp only
                  obtain ⟨m1, m2⟩ := hpost (.node t.root cs)
                  cases hq : RPattern.processProcessor p.postMatch (.node t.root cs) with
                  | error e =>
                    refine ⟨by intro l raw hx; simp at hx, ?_⟩
                    intro e' he
                    simp only [Except.error.injEq] at he; subst he
                    exact ⟨user _ (m2 _ hq), Or.inl (m2 _ hq)⟩
                  | ok o =>
                    rw [m1 o hq]
                    cases o with
                    | none =>
                      refine ⟨?_, by intro e he; simp [Pattern.keepGoing] at he⟩
                      intro l raw hx
                      simp only [Pattern.keepGoing, Except.ok.injEq, Prod.mk.injEq] at hx
                      obtain ⟨rfl, rfl⟩ := hx
                      exact ⟨rfl, rfl⟩
                    | some u =>
                      simp only [Pattern.keepGoing]
                      cases hu : u.root.truthy? with
                      | error e =>
                        refine ⟨by intro l raw hx; simp at hx, ?_⟩
                        intro e' he
                        simp only [Except.error.injEq] at he; subst he
                        refine ⟨?_, Or.inr ⟨_, rfl⟩⟩
                        rw [truthy_err hu]; simp
                      | ok b =>
                        cases b with
                        | false =>
                          refine ⟨?_, by intro e he; simp at he⟩
                          intro l raw hx
                          simp only [Except.ok.injEq, Prod.mk.injEq] at hx
                          obtain ⟨rfl, rfl⟩ := hx
                          exact ⟨rfl, rfl⟩
                        | true =>
                          refine ⟨?_, by intro e he; simp at he⟩
                          intro l raw hx
                          simp only [Except.ok.injEq, Prod.mk.injEq] at hx
                          obtain ⟨rfl, rfl⟩ := hx
                          exact ⟨rfl, rfl⟩


theorem leaveGenerator_inv {e : PyErr} (h : e ≠ .invalidChain) : leaveGenerator e ≠ .invalidChain := by
  cases e <;> simp_all [leaveGenerator]

/-- The search of a sub-pattern that may raise follows the search that does not. -/
def StreamFollows (U : PyErr → Prop) (s : MStream) (q : Except PyErr (List MTree)) : Prop :=
  (s.2 = none → q = .ok s.1) ∧
  ∀ e, s.2 = some e → e ≠ .invalidChain ∧ ((U e ∧ ∀ l, q = .ok l → s.1 <+: l) ∨ ∃ e', q = .error e')

theorem processStream_follows (hI : ¬ U .invalidChain) (hL : ∀ e, U e → U (leaveGenerator e)) (hp : ∀ e, ConfigRaises p e → U e)
    {rp : Nat → Bool → MTree → Except PyErr (MTree × Bool)} {pp : Nat → Bool → MTree → MTree × Bool}
    (h : ∀ idx child t, FollowsT U (rp idx child t) (pp idx child t)) : ∀ (ts : List MTree) (i : Nat) (o : Option PyErr),
    (∀ l raws, p.processStream rp i ts o = .ok (l, raws) → o = none ∧ Pattern.processRaws ((p.total f).processMatchesWith pp) i ts = .ok l ∧
      raws = ts.mapIdx (fun k => (p.total f).rawAfter pp (i + k))) ∧
    ∀ e, p.processStream rp i ts o = .error e →
      (e ≠ .invalidChain ∧ (U e ∨ ∃ e', Pattern.processRaws ((p.total f).processMatchesWith pp) i ts = .error e')) ∨
      ∃ e0, o = some e0 ∧ e = leaveGenerator e0
  | [], i, none => by
    refine ⟨?_, by intro e he; simp [RPattern.processStream] at he⟩
    intro l raws hx
    simp only [RPattern.processStream, Except.ok.injEq, Prod.mk.injEq] at hx
    obtain ⟨rfl, rfl⟩ := hx
    exact ⟨rfl, rfl, rfl⟩
  | [], i, some e => by
    refine ⟨by intro l raws hx; simp [RPattern.processStream] at hx, ?_⟩
    intro e' he
    simp only [RPattern.processStream, Except.error.injEq] at he
    exact Or.inr ⟨e, rfl, he.symm⟩
  | t :: ts, i, o => by
    unfold RPattern.processStream Pattern.processRaws
    obtain ⟨h1, h2⟩ := processMatches_follows (f := f) hI hp h i t
    obtain ⟨k1, k2⟩ := processStream_follows hI hL hp h ts (i + 1) o
    cases hm : p.processMatches rp i t with
    | error e =>
      refine ⟨by intro l raws hx; simp [RPattern.leaving] at hx, ?_⟩
      intro e' he
      simp only [RPattern.leaving, Except.error.injEq] at he; subst he
      obtain ⟨a, b⟩ := h2 e hm
      refine Or.inl ⟨leaveGenerator_inv a, ?_⟩
      rcases b with b | ⟨e', b⟩
      · exact Or.inl (hL e b)
      · rw [b]; exact Or.inr ⟨e', rfl⟩
    | ok r =>
      obtain ⟨l1, raw1⟩ := r
      obtain ⟨a1, a2⟩ := h1 l1 raw1 hm
      rw [a1]
      simp only [RPattern.leaving]
      cases hs : p.processStream rp (i + 1) ts o with
      | error e =>
        refine ⟨by intro l raws hx; simp at hx, ?_⟩
        intro e' he
        simp only [Except.error.injEq] at he; subst he
        rcases k2 e hs with ⟨c1, c2⟩ | c
        · refine Or.inl ⟨c1, ?_⟩
          rcases c2 with c2 | ⟨e', c2⟩
          · exact Or.inl c2
          · rw [c2]; exact Or.inr ⟨e', rfl⟩
        · exact Or.inr c
      | ok r =>
        obtain ⟨l2, raws2⟩ := r
        obtain ⟨b0, b1, b2⟩ := k1 l2 raws2 hs
        refine ⟨?_, by intro e he; simp at he⟩
        intro l raws hx
        simp only [Except.ok.injEq, Prod.mk.injEq] at hx
        obtain ⟨rfl, rfl⟩ := hx
        refine ⟨b0, by rw [b1], ?_⟩
        have he : (fun k => (p.total f).rawAfter pp (i + 1 + k)) = fun k => (p.total f).rawAfter pp (i + (k + 1)) := by
          funext k; rw [Nat.add_assoc, Nat.add_comm 1 k]
        rw [List.mapIdx_cons, b2, ← a2, he]
        rfl

theorem processRaws_prefix {pm : Nat → MTree → Except PyErr (List MTree)} : ∀ {ts l : List MTree} {i : Nat} {e : PyErr}, ts <+: l →
    Pattern.processRaws pm i ts = .error e → Pattern.processRaws pm i l = .error e
  | [], _, _, _, _, h => by simp [Pattern.processRaws] at h
  | t :: ts, [], _, _, hl, _ => by simp at hl
  | t :: ts, u :: l, i, e, hl, h => by
    obtain ⟨rfl, hl'⟩ := List.cons_prefix_cons.1 hl
    unfold Pattern.processRaws at h ⊢
    cases hm : pm i t with
    | error e' => rw [hm] at h; exact h
    | ok l1 =>
      rw [hm] at h
      simp only at h ⊢
      cases hr : Pattern.processRaws pm (i + 1) ts with
      | error e' =>
        rw [hr] at h
        rw [processRaws_prefix hl' hr]
        exact h
      | ok r => rw [hr] at h; cases h

/-- The pure version, before the post processor. -/
def pureRun (q : Pattern) (pp : Nat → Bool → MTree → MTree × Bool) (qs : List (Except PyErr (List MTree))) :
    Except PyErr (List MTree × List MTree) :=
  match collectRaws qs with
  | .error e => .error e
  | .ok ls => match Pattern.processAll (q.processMatchesWith pp) ls with
    | .error e => .error e
    | .ok l => .ok (l, ls.flatMap (fun rs => rs.mapIdx (q.rawAfter pp)))

theorem processStreams_follows (hI : ¬ U .invalidChain) (hL : ∀ e, U e → U (leaveGenerator e)) (hp : ∀ e, ConfigRaises p e → U e)
    {rp : Nat → Bool → MTree → Except PyErr (MTree × Bool)} {pp : Nat → Bool → MTree → MTree × Bool}
    (h : ∀ idx child t, FollowsT U (rp idx child t) (pp idx child t)) {α : Type} (st : α → MStream) (sq : α → Except PyErr (List MTree)) :
    ∀ xs : List α, (∀ x ∈ xs, StreamFollows U (st x) (sq x)) →
    Follows U (p.processStreams rp (xs.map st)) (pureRun (p.total f) pp (xs.map sq))
  | [], _ => by
    refine ⟨?_, by intro e he; simp [RPattern.processStreams] at he⟩
    intro x hx
    simp only [List.map_nil, RPattern.processStreams, Except.ok.injEq] at hx
    subst hx; rfl
  | x :: xs, hx => by
    have ih := processStreams_follows hI hL hp h st sq xs (fun y hy => hx y (List.mem_cons_of_mem _ hy))
    obtain ⟨i1, i2⟩ := ih
    obtain ⟨s1, s2⟩ := hx x (by simp)
    obtain ⟨h1, h2⟩ := processStream_follows (f := f) hI hL hp h (st x).1 0 (st x).2
    simp only [List.map_cons, RPattern.processStreams, pureRun, collectRaws]
    cases hs : p.processStream rp 0 (st x).1 (st x).2 with
    | error e =>
      refine ⟨by intro y hy; simp at hy, ?_⟩
      intro e' he
      simp only [Except.error.injEq] at he; subst he
      cases hq : sq x with
      | error e' =>
        refine ⟨?_, Or.inr ⟨e', rfl⟩⟩
        rcases h2 e hs with ⟨c, _⟩ | ⟨e0, c1, rfl⟩
        · exact c
        · exact leaveGenerator_inv (s2 e0 c1).1
      | ok lq =>
        have hpre : (st x).1 <+: lq := by
          cases ho : (st x).2 with
          | none => have := s1 ho; rw [hq] at this; injection this with this; rw [this]; exact List.prefix_refl _
          | some e0 =>
            rcases (s2 e0 ho).2 with ⟨_, c⟩ | ⟨e', c⟩
            · exact c lq hq
            · rw [hq] at c; cases c
        rcases h2 e hs with ⟨c1, c2⟩ | ⟨e0, c1, rfl⟩
        · refine ⟨c1, ?_⟩
          rcases c2 with c2 | ⟨e', c2⟩
          · exact Or.inl c2
          · have := processRaws_prefix hpre c2
            simp only [collectRaws]
            cases collectRaws (xs.map sq) with
            | error e'' => exact Or.inr ⟨_, rfl⟩
            | ok ls => simp only [Pattern.processAll, this]; exact Or.inr ⟨_, rfl⟩
        · obtain ⟨d1, d2⟩ := s2 e0 c1
          refine ⟨leaveGenerator_inv d1, ?_⟩
          rcases d2 with ⟨d2, _⟩ | ⟨e', d2⟩
          · exact Or.inl (hL e0 d2)
          · rw [hq] at d2; cases d2
    | ok r =>
      obtain ⟨l1, raws1⟩ := r
      obtain ⟨a0, a1, a2⟩ := h1 l1 raws1 hs
      rw [s1 a0]
      simp only
      cases hr : p.processStreams rp (xs.map st) with
      | error e =>
        refine ⟨by intro y hy; simp at hy, ?_⟩
        intro e' he
        simp only [Except.error.injEq] at he; subst he
        obtain ⟨c1, c2⟩ := i2 e hr
        refine ⟨c1, ?_⟩
        rcases c2 with c2 | ⟨e', c2⟩
        · exact Or.inl c2
        · unfold pureRun at c2
          simp only [collectRaws]
          cases hcr : collectRaws (xs.map sq) with
          | error e'' => exact Or.inr ⟨_, rfl⟩
          | ok ls =>
            rw [hcr] at c2
            simp only [Pattern.processAll, a1] at c2 ⊢
            cases hpa : Pattern.processAll ((p.total f).processMatchesWith pp) ls with
            | error e'' => exact Or.inr ⟨_, rfl⟩
            | ok l => rw [hpa] at c2; cases c2
      | ok r =>
        obtain ⟨l2, raws2⟩ := r
        have := i1 _ hr
        refine ⟨?_, by intro e he; simp at he⟩
        intro y hy
        simp only [Except.ok.injEq] at hy
        subst hy
        unfold pureRun at this
        simp only [collectRaws]
        cases hcr : collectRaws (xs.map sq) with
        | error e'' => rw [hcr] at this; cases this
        | ok ls =>
          rw [hcr] at this
          simp only [Pattern.processAll, a1] at this ⊢
          cases hpa : Pattern.processAll ((p.total f).processMatchesWith pp) ls with
          | error e'' => rw [hpa] at this; cases this
          | ok l =>
            rw [hpa] at this
            simp only [Except.ok.injEq, Prod.mk.injEq] at this
            obtain ⟨rfl, rfl⟩ := this
            simp only [List.flatMap_cons, a2, Nat.zero_add]

/-- `Pattern.matches` of both versions. -/
theorem run_follows (hI : ¬ U .invalidChain) (hL : ∀ e, U e → U (leaveGenerator e)) (hp : ∀ e, ConfigRaises p e → U e)
    {rp : Nat → Bool → MTree → Except PyErr (MTree × Bool)} {pp : Nat → Bool → MTree → MTree × Bool}
    (h : ∀ idx child t, FollowsT U (rp idx child t) (pp idx child t)) {α : Type} (st : α → MStream) (sq : α → Except PyErr (List MTree))
    (xs : List α) (hx : ∀ x ∈ xs, StreamFollows U (st x) (sq x)) :
    Follows U (p.run rp (xs.map st)) (match collectRaws (xs.map sq) with
      | .error e => .error e
      | .ok raws => (p.total f).matchesWithRaws pp raws) := by
  obtain ⟨h1, h2⟩ := processStreams_follows (f := f) hI hL hp h st sq xs hx
  have hpp : (p.total f).postProcessor = p.postProcessor.map (fun g l => filled (f.postProcessor l) (g l)) := rfl
  unfold RPattern.run
  cases hs : p.processStreams rp (xs.map st) with
  | error e =>
    refine ⟨by intro y hy; simp at hy, ?_⟩
    intro e' he
    simp only [Except.error.injEq] at he; subst he
    obtain ⟨c1, c2⟩ := h2 e hs
    refine ⟨c1, ?_⟩
    rcases c2 with c2 | ⟨e', c2⟩
    · exact Or.inl c2
    · unfold pureRun at c2
      cases hcr : collectRaws (xs.map sq) with
      | error e'' => exact Or.inr ⟨_, rfl⟩
      | ok ls =>
        rw [hcr] at c2
        simp only [Pattern.matchesWithRaws] at c2 ⊢
        cases hpa : Pattern.processAll ((p.total f).processMatchesWith pp) ls with
        | error e'' => exact Or.inr ⟨_, rfl⟩
        | ok l => rw [hpa] at c2; cases c2
  | ok r =>
    obtain ⟨ms, raws⟩ := r
    have := h1 _ hs
    unfold pureRun at this
    cases hcr : collectRaws (xs.map sq) with
    | error e'' => rw [hcr] at this; cases this
    | ok ls =>
      rw [hcr] at this
      simp only [Pattern.matchesWithRaws] at this ⊢
      cases hpa : Pattern.processAll ((p.total f).processMatchesWith pp) ls with
      | error e'' => rw [hpa] at this; cases this
      | ok l =>
        rw [hpa] at this
        simp only [Except.ok.injEq, Prod.mk.injEq] at this
        obtain ⟨rfl, rfl⟩ := this
        simp only [Pattern.postProcess, hpp]
        cases hg : p.postProcessor with
        | none =>
          refine ⟨?_, by intro e he; simp at he⟩
          intro y hy
          simp only [Except.ok.injEq] at hy
          subst hy; rfl
        | some g =>
          simp only [Option.map_some]
          cases hgl : g l with
          | error e =>
            refine ⟨by intro y hy; simp at hy, ?_⟩
            intro e' he
            simp only [Except.error.injEq] at he; subst he
            have hu : U e := hp e (Or.inr (Or.inr (Or.inr (Or.inr ⟨g, l, hg, hgl⟩))))
            exact ⟨by rintro rfl; exact hI hu, Or.inl hu⟩
          | ok l' =>
            refine ⟨?_, by intro e he; simp at he⟩
            intro y hy
            simp only [Except.ok.injEq] at hy
            subst hy; rfl


end

/-! ## Searching -/

theorem stringStream_follows (U : PyErr → Prop) (p : Pattern) (lower : Str → Str) (o : StringOpts) (input sub : Str) :
    StreamFollows U (p.stringStream lower o input sub) (p.matchString lower o input sub) := by
  unfold Pattern.stringStream
  cases h : p.matchString lower o input sub with
  | error e =>
    refine ⟨by intro h; simp at h, ?_⟩
    intro e' he
    simp only [Option.some.injEq] at he; subst he
    refine ⟨?_, Or.inr ⟨e, rfl⟩⟩
    unfold Pattern.matchString at h
    split at h
    · injection h with h; subst h; simp
    · cases h
  | ok l => exact ⟨fun _ => rfl, by intro e he; simp at he⟩

theorem reMatch_err {p : Pattern} {rc : Bool} {names : List (Option String)} {input : Str} {o : ReObj} {e : PyErr}
    (h : p.reMatch rc names input o = .error e) : e = .assertionError := by
  unfold Pattern.reMatch at h
  simp only at h
  split at h
  · injection h with h; exact h.symm
  · cases h

theorem regexStream_follows (U : PyErr → Prop) (p : Pattern) (rc : Bool) (re : Regex) (input : Str) : ∀ os : List ReObj,
    StreamFollows U (p.regexStream rc re.names input os) (Pattern.matchRegex.go p rc re input os)
  | [] => ⟨fun _ => rfl, by intro e he; simp [Pattern.regexStream] at he⟩
  | o :: os => by
    unfold Pattern.regexStream Pattern.matchRegex.go
    obtain ⟨h1, h2⟩ := regexStream_follows U p rc re input os
    cases hm : p.reMatch rc re.names input o with
    | error e =>
      refine ⟨by intro h; simp at h, ?_⟩
      intro e' he
      simp only [Option.some.injEq] at he; subst he
      exact ⟨by rw [reMatch_err hm]; simp, Or.inr ⟨e, rfl⟩⟩
    | ok l =>
      refine ⟨?_, ?_⟩
      · intro h
        simp only at h ⊢
        rw [h1 h]
      · intro e he
        simp only at he ⊢
        obtain ⟨a, b⟩ := h2 e he
        refine ⟨a, ?_⟩
        rcases b with ⟨b1, b2⟩ | ⟨e', b⟩
        · cases hg : Pattern.matchRegex.go p rc re input os with
          | error e' => exact Or.inr ⟨e', rfl⟩
          | ok l' =>
            refine Or.inl ⟨b1, ?_⟩
            intro l2 hl2
            simp only [Except.ok.injEq] at hl2; subst hl2
            exact List.prefix_append_right_inj l |>.2 (b2 l' hg)
        · rw [b]; exact Or.inr ⟨e', rfl⟩

theorem matchArgs_err {named : Bool} {r : FRet} {e : PyErr} (h : r.matchArgs named = .error e) : e ≠ .invalidChain := by
  unfold FRet.matchArgs at h
  split at h
  · cases h
  · split at h
    · injection h with h; subst h; simp
    · unfold FRet.seqArgs FRet.startArg FRet.stopArg FRet.valueArg FRet.nameArg at h
      repeat' split at h
      all_goals first | (injection h with h; subst h; simp) | cases h
  · injection h with h; subst h; simp

theorem matchWithArgs_err {p : Pattern} {input : Str} {a : MatchArgs} {e : PyErr} (h : p.matchWithArgs input a = .error e) : e ≠ .invalidChain := by
  unfold Pattern.matchWithArgs at h
  split at h
  · cases h
  · injection h with h; subst h; simp

theorem functionalStream_follows (U : PyErr → Prop) (p : Pattern) (input : Str) (after : Option PyErr)
    (ha : ∀ e, after = some e → U e ∧ e ≠ .invalidChain) : ∀ rs : List FRet,
    StreamFollows U (p.functionalStream input after rs) (p.functionalLoop input rs)
  | [] => by
    refine ⟨fun _ => rfl, ?_⟩
    intro e he
    simp only [Pattern.functionalStream] at he
    exact ⟨(ha e he).2, Or.inl ⟨(ha e he).1, fun l _ => List.nil_prefix⟩⟩
  | r :: rs => by
    unfold Pattern.functionalStream Pattern.functionalLoop
    obtain ⟨h1, h2⟩ := functionalStream_follows U p input after ha rs
    cases hr : r.matchArgs p.opts.name.isSome with
    | error e =>
      refine ⟨by intro h; simp at h, ?_⟩
      intro e' he
      simp only [Option.some.injEq] at he; subst he
      exact ⟨matchArgs_err hr, Or.inr ⟨e, rfl⟩⟩
    | ok a =>
      simp only
      cases hm : p.matchWithArgs input a with
      | error e =>
        refine ⟨by intro h; simp at h, ?_⟩
        intro e' he
        simp only [Option.some.injEq] at he; subst he
        exact ⟨matchWithArgs_err hm, Or.inr ⟨e, rfl⟩⟩
      | ok m =>
        simp only
        cases ht : m.truthy? with
        | error e =>
          refine ⟨by intro h; simp at h, ?_⟩
          intro e' he
          simp only [Option.some.injEq] at he; subst he
          exact ⟨by rw [truthy_err ht]; simp, Or.inr ⟨e, rfl⟩⟩
        | ok b =>
          simp only
          refine ⟨?_, ?_⟩
          · intro h
            simp only at h ⊢
            rw [h1 h]
          · intro e he
            simp only at he ⊢
            obtain ⟨a, c⟩ := h2 e he
            refine ⟨a, ?_⟩
            rcases c with ⟨b1, b2⟩ | ⟨e', c⟩
            · cases hg : p.functionalLoop input rs with
              | error e' => exact Or.inr ⟨e', rfl⟩
              | ok l' =>
                refine Or.inl ⟨b1, ?_⟩
                intro l2 hl2
                simp only [Except.ok.injEq] at hl2; subst hl2
                cases b with
                | true => exact List.cons_prefix_cons.2 ⟨rfl, b2 l' hg⟩
                | false => exact b2 l' hg
            · rw [c]; exact Or.inr ⟨e', rfl⟩

/-- A user function and what stands for it where it raises. -/
theorem userStream_follows {U : PyErr → Prop} (hI : ¬ U .invalidChain) (p : Pattern) (g : Str → Except PyErr RFRet) (d : Str → FRet)
    (hg : ∀ s e, (g s = .error e ∨ ∃ r, g s = .ok r ∧ r.after = some e) → U e) (input : Str) :
    StreamFollows U (p.userStream g input) (p.matchFunctional (fun s => match g s with | .ok r => r.ret | .error _ => d s) input) := by
  unfold Pattern.userStream Pattern.matchFunctional
  cases hgi : g input with
  | error e =>
    refine ⟨by intro h; simp at h, ?_⟩
    intro e' he
    simp only [Option.some.injEq] at he; subst he
    have hu := hg input e (Or.inl hgi)
    exact ⟨by rintro rfl; exact hI hu, Or.inl ⟨hu, fun l _ => List.nil_prefix⟩⟩
  | ok r =>
    simp only [hgi]
    refine functionalStream_follows U p input r.ending ?_ _
    intro e he
    have ha : r.after = some e := by
      unfold RFRet.ending at he
      split at he
      · split at he
        · cases he
        · exact he
      · cases he
    have hu := hg input e (Or.inr ⟨r, hgi, ha⟩)
    exact ⟨hu, by rintro rfl; exact hI hu⟩

/-! ## The pure version never lets `_InvalidChainException` out -/

theorem processMatchesWith_err {q : Pattern} {pp : Nat → Bool → MTree → MTree × Bool} {i : Nat} {t : MTree} {e : PyErr}
    (h : q.processMatchesWith pp i t = .error e) : e = .valueError := by
  have hk : ∀ o e, Pattern.keepGoing o = .error e → e = .valueError := by
    intro o e h
    cases o with
    | none => cases h
    | some t =>
      simp only [Pattern.keepGoing] at h
      split at h
      · rename_i e' he; injection h with h; subst h; exact truthy_err he
      · cases h
      · cases h
  unfold Pattern.processMatchesWith at h
  split at h
  · rename_i e' he; injection h with h; subst h; exact hk _ _ he
  · cases h
  · split at h
    · cases h
    · split at h
      · cases h
      · split at h
        · rename_i e' he; injection h with h; subst h; exact hk _ _ he
        · cases h
        · cases h

theorem processRaws_err {q : Pattern} {pp : Nat → Bool → MTree → MTree × Bool} : ∀ {ts : List MTree} {i : Nat} {e : PyErr},
    Pattern.processRaws (q.processMatchesWith pp) i ts = .error e → e = .valueError
  | [], _, _, h => by cases h
  | t :: ts, i, e, h => by
    unfold Pattern.processRaws at h
    split at h
    · rename_i e' he; injection h with h; subst h; exact processMatchesWith_err he
    · split at h
      · rename_i e' he; injection h with h; subst h; exact processRaws_err he
      · cases h

theorem processAll_err {q : Pattern} {pp : Nat → Bool → MTree → MTree × Bool} : ∀ {ls : List (List MTree)} {e : PyErr},
    Pattern.processAll (q.processMatchesWith pp) ls = .error e → e = .valueError
  | [], _, h => by cases h
  | t :: ts, e, h => by
    unfold Pattern.processAll at h
    split at h
    · rename_i e' he; injection h with h; subst h; exact processRaws_err he
    · split at h
      · rename_i e' he; injection h with h; subst h; exact processAll_err he
      · cases h

theorem collectRaws_err : ∀ {qs : List (Except PyErr (List MTree))} {e : PyErr}, collectRaws qs = .error e → .error e ∈ qs
  | [], _, h => by cases h
  | .error e' :: qs, e, h => by simp only [collectRaws, Except.error.injEq] at h; subst h; simp
  | .ok l :: qs, e, h => by
    unfold collectRaws at h
    split at h
    · rename_i e' he; injection h with h; subst h; exact List.mem_cons_of_mem _ (collectRaws_err he)
    · cases h

theorem matchRegex_err {p : Pattern} {rc : Bool} {re : Regex} {input : Str} : ∀ {os : List ReObj} {e : PyErr},
    Pattern.matchRegex.go p rc re input os = .error e → e = .assertionError
  | [], _, h => by cases h
  | o :: os, e, h => by
    unfold Pattern.matchRegex.go at h
    split at h
    · rename_i e' he; injection h with h; subst h; exact reMatch_err he
    · split at h
      · rename_i e' he; injection h with h; subst h; exact matchRegex_err he
      · cases h

theorem functionalLoop_err {p : Pattern} {input : Str} : ∀ {rs : List FRet} {e : PyErr}, p.functionalLoop input rs = .error e → e ≠ .invalidChain
  | [], _, h => by cases h
  | r :: rs, e, h => by
    unfold Pattern.functionalLoop at h
    split at h
    · rename_i e' he; injection h with h; subst h; exact matchArgs_err he
    · split at h
      · rename_i e' he; injection h with h; subst h; exact matchWithArgs_err he
      · split at h
        · rename_i e' he; injection h with h; subst h; rw [truthy_err he]; simp
        · split at h
          · rename_i e' he; injection h with h; subst h; exact functionalLoop_err he
          · cases h

theorem matchesWithRaws_honest (q : Pattern) (pp : Nat → Bool → MTree → MTree × Bool) (ls : List (List MTree)) :
    q.matchesWithRaws pp ls ≠ .error .invalidChain := by
  intro h
  unfold Pattern.matchesWithRaws at h
  split at h
  · rename_i e he
    injection h with h; subst h
    have := processAll_err he
    cases this
  · cases h

theorem patternObj_honest {Ctx : Type} (lower : Str → Str) (p : PatternObj Ctx) (s : Str) : p.run lower s ≠ .error .invalidChain := by
  have main : ∀ (q : Pattern) (qs : List (Except PyErr (List MTree))), (∀ e, .error e ∈ qs → e ≠ .invalidChain) →
      (match collectRaws qs with
      | .error e => (.error e : Except PyErr (List MTree × List MTree))
      | .ok raws => q.matchesWithRaws q.processMatch raws) ≠ .error .invalidChain := by
    intro q qs hq h
    split at h
    · rename_i e he; injection h with h; subst h; exact hq _ (collectRaws_err he) rfl
    · exact matchesWithRaws_honest _ _ _ h
  cases p with
  | string i p o ss =>
    refine main p _ ?_
    intro e he
    obtain ⟨x, _, hx⟩ := List.mem_map.1 he
    exact (((stringStream_follows (fun _ => True) p lower o s x).2 e (by simp only [Pattern.stringStream, hx])).1)
  | regex i p rc res =>
    refine main p _ ?_
    intro e he
    obtain ⟨x, _, hx⟩ := List.mem_map.1 he
    rw [matchRegex_err hx]; simp
  | functional i p fs =>
    refine main p _ ?_
    intro e he
    obtain ⟨x, _, hx⟩ := List.mem_map.1 he
    exact functionalLoop_err hx
  | chain i p b parts =>
    intro h
    simp only [PatternObj.run, Chain.run] at h
    split at h
    · rename_i e he; injection h with h; subst h; exact loop_honest _ _ _ _ _ _ he
    · exact matchesWithRaws_honest _ _ _ h

/-! ## Chains -/

theorem followsT_error {α : Type} {U : PyErr → Prop} {q : α} {e : PyErr} (h : U e) : FollowsT U (.error e) q :=
  ⟨(by intro x hx; cases hx), by intro e' he; cases he; exact h⟩

theorem follows_ok {α : Type} {U : PyErr → Prop} (x : α) : Follows U (.ok x) (.ok x) := ⟨fun y h => h, by intro e h; cases h⟩

theorem follows_user {α : Type} {U : PyErr → Prop} {q : Except PyErr α} {e : PyErr} (h : U e) (hI : ¬ U .invalidChain) : Follows U (.error e) q :=
  ⟨(by intro x hx; cases hx), by intro e' he; cases he; exact ⟨by rintro rfl; exact hI h, Or.inl h⟩⟩

theorem follows_error {α : Type} {U : PyErr → Prop} {e e' : PyErr} (h : e ≠ .invalidChain) : Follows (α := α) U (.error e) (.error e') :=
  ⟨(by intro x hx; cases hx), by intro e'' he; cases he; exact ⟨h, Or.inr ⟨_, rfl⟩⟩⟩

/-- From the error of one to the error of the other. -/
theorem follows_error' {α β : Type} {U : PyErr → Prop} {r : Except PyErr α} {q : Except PyErr α} {e : PyErr} (h : Follows U r q) (hr : r = .error e)
    {q' : Except PyErr β} (hq : ∀ e', q = .error e' → ∃ e'', q' = .error e'') : Follows U (.error e) q' := by
  obtain ⟨a, b⟩ := h.2 e hr
  refine ⟨(by intro x hx; cases hx), ?_⟩
  intro e' he; cases he
  refine ⟨a, ?_⟩
  rcases b with b | ⟨e', b⟩
  · exact Or.inl b
  · exact Or.inr (hq e' b)

/-- A part of one chain follows the part of the other one. -/
structure PartFollows (U : PyErr → Prop) (a b : Part) : Prop where
  start : a.start = b.start
  stop : a.stop = b.stop
  hidden : a.hidden = b.hidden
  search : ∀ s, Follows U (a.search s) (b.search s)
  honest : ∀ s, b.search s ≠ .error .invalidChain

section
variable {U : PyErr → Prop} {c : RChain} {d : Chain}

/-- The breaker of one chain follows the breaker of the other one. -/
theorem breakerEval_follows (hI : ¬ U .invalidChain) {f : Fill} (hb : d.breaker = c.breaker.map (fun g l => filled (f.breaker l) (g l)))
    (hU : ∀ g l e, c.breaker = some g → g l = .error e → U e) (ms : List MTree) : Follows U (c.breakerEval ms) (d.breakerEval ms) := by
  unfold RChain.breakerEval Chain.breakerEval
  rw [hb]
  cases hc : c.breaker with
  | none => exact follows_ok _
  | some g =>
    simp only [Option.map_some]
    by_cases hm : ms.any (fun t => t.root.marker) = true
    · rw [if_pos hm, if_pos hm]; exact follows_error (by simp)
    · rw [if_neg hm, if_neg hm]
      cases hg : g ms with
      | error e => exact follows_user (hU g ms e hc hg) hI
      | ok b => exact follows_ok _

theorem nextGroups_follows (hb : ∀ ms, Follows U (c.breakerEval ms) (d.breakerEval ms)) (input : Str) (hidden : Bool)
    (groups : Dict Nat (List MTree)) : ∀ (gs : Dict Nat (List MTree)) (st : ChainSt),
    Follows U (c.nextGroups input hidden groups gs st) (d.nextGroups input hidden groups gs st)
  | [], st => follows_ok _
  | (i, raws) :: rest, st => by
    unfold RChain.nextGroups Chain.nextGroups
    cases raws.getLast? with
    | none => exact follows_error (by simp)
    | some last =>
      simp only
      cases hidden with
      | true => exact nextGroups_follows hb input true groups rest _
      | false =>
        rw [if_neg (by simp), if_neg (by simp)]
        have h := hb (st.current ++ (groups.get? i).getD [])
        cases he : c.breakerEval (st.current ++ (groups.get? i).getD []) with
        | error e => exact follows_error' h he (by intro e' h'; rw [h']; exact ⟨_, rfl⟩)
        | ok b =>
          rw [h.1 b he]
          cases b with
          | true => exact nextGroups_follows hb input false groups rest _
          | false => exact nextGroups_follows hb input false groups rest _

theorem toNext_follows (hb : ∀ ms, Follows U (c.breakerEval ms) (d.breakerEval ms)) (input : Str) {a b : Part} (hp : a.hidden = b.hidden)
    (ms raws : List MTree) (st : ChainSt) : Follows U (c.toNext input a ms raws st) (d.toNext input b ms raws st) := by
  unfold RChain.toNext Chain.toNext
  rw [hp]
  simp only
  split
  · exact follows_ok _
  · exact nextGroups_follows hb _ _ _ _ _

theorem matchesOf_follows {a b : Part} (h : PartFollows U a b) (first : Bool) (s : Str) :
    (∀ x, a.matchesOf first s = .ok x → b.matchesOf first s = .ok x) ∧
    (a.matchesOf first s = .error .invalidChain → b.matchesOf first s = .error .invalidChain) ∧
    ∀ e, a.matchesOf first s = .error e → e ≠ .invalidChain → U e ∨ ∃ e', b.matchesOf first s = .error e' ∧ e' ≠ .invalidChain := by
  unfold Part.matchesOf
  rw [h.start, h.stop]
  have hs := h.search s
  have hh := h.honest s
  cases ha : a.search s with
  | error e =>
    obtain ⟨k1, k2⟩ := hs.2 e ha
    refine ⟨by intro x hx; simp at hx, ?_, ?_⟩
    · intro hx; simp only [Except.error.injEq] at hx; exact absurd hx k1
    · intro e' he hne
      simp only [Except.error.injEq] at he; subst he
      rcases k2 with k2 | ⟨e', k2⟩
      · exact Or.inl k2
      · rw [k2] at hh ⊢
        exact Or.inr ⟨e', rfl, fun h => hh (by rw [h])⟩
  | ok r =>
    rw [hs.1 r ha]
    refine ⟨fun x hx => hx, fun hx => hx, ?_⟩
    intro e he hne
    exact Or.inr ⟨e, he, hne⟩

theorem runParts_follows (hI : ¬ U .invalidChain) (hb : ∀ ms, Follows U (c.breakerEval ms) (d.breakerEval ms)) (input : Str) :
    ∀ {as bs : List Part}, Each (PartFollows U) as bs → ∀ (first : Bool) (st : ChainSt),
    Follows U (c.runParts input first as st) (d.runParts input first bs st)
  | _, _, .nil, first, st => follows_ok _
  | _, _, .cons (a := a) (as := as) (b := b) (bs := bs) h hs, first, st => by
    obtain ⟨h1, h2, h3⟩ := matchesOf_follows h first st.input
    unfold RChain.runParts Chain.runParts
    cases hm : a.matchesOf first st.input with
    | error e =>
      by_cases he : e = .invalidChain
      · subst he
        rw [h2 hm]
        exact follows_ok _
      · have hL : Follows U (c.runParts input first (a :: as) st) (d.runParts input first (b :: bs) st) ↔
            Follows U (.error e) (d.runParts input first (b :: bs) st) := by
          have : c.runParts input first (a :: as) st = .error e := by
            unfold RChain.runParts
            rw [hm]
            cases e <;> first | rfl | exact absurd rfl he
          rw [this]
        have := hL.2
        unfold RChain.runParts Chain.runParts at this
        rw [hm] at this
        apply this
        rcases h3 e hm he with hu | ⟨e', he', hne⟩
        · exact follows_user hu hI
        · rw [he']
          cases e' <;> first | exact follows_error he | exact absurd rfl hne
    | ok r =>
      rw [h1 r hm]
      obtain ⟨ms, raws⟩ := r
      simp only
      have ht := toNext_follows hb input h.hidden ms raws st
      cases hn : c.toNext input a ms raws st with
      | error e => exact follows_error' ht hn (by intro e' h'; rw [h']; exact ⟨_, rfl⟩)
      | ok st' =>
        rw [ht.1 st' hn]
        exact runParts_follows hI hb input hs false st'

theorem build_follows (hpat : c.pattern.base.opts = d.pattern.opts) (hid : c.pattern.base.id = d.pattern.id) (input : Str) (cur : List MTree) :
    Follows U (c.build input cur) (d.build input cur) := by
  have : c.build input cur = d.build input cur := by
    unfold RChain.build Chain.build Pattern.newMatch
    simp only [hpat, hid]
  rw [this]
  refine ⟨fun x h => h, ?_⟩
  intro e he
  refine ⟨?_, Or.inr ⟨e, he⟩⟩
  unfold Chain.build at he
  split at he
  · injection he with he; subst he; simp
  · simp only at he
    split at he
    · injection he with he; subst he; simp
    · cases he

theorem loop_follows (hI : ¬ U .invalidChain) (hb : ∀ ms, Follows U (c.breakerEval ms) (d.breakerEval ms))
    (hpat : c.pattern.base.opts = d.pattern.opts) (hid : c.pattern.base.id = d.pattern.id) (hp : Each (PartFollows U) c.parts d.parts) (input : Str) :
    ∀ (fuel : Nat) (ci : Str) (o : Int) (acc : List MTree), Follows U (c.loop input fuel ci o acc) (d.loop input fuel ci o acc)
  | 0, ci, o, acc => by
    unfold RChain.loop Chain.loop
    split
    · exact follows_error (by simp)
    · exact follows_ok _
  | fuel + 1, ci, o, acc => by
    unfold RChain.loop Chain.loop
    split
    · have hr := runParts_follows hI hb input hp true ⟨false, ci, o, []⟩
      cases hc : c.runParts input true c.parts ⟨false, ci, o, []⟩ with
      | error e => exact follows_error' hr hc (by intro e' h'; rw [h']; exact ⟨_, rfl⟩)
      | ok r =>
        rw [hr.1 r hc]
        obtain ⟨st, valid⟩ := r
        simp only
        split
        · exact follows_ok _
        · split
          · have hbd := build_follows (U := U) hpat hid input st.current
            cases hbc : c.build input st.current with
            | error e => exact follows_error' hbd hbc (by intro e' h'; rw [h']; exact ⟨_, rfl⟩)
            | ok m =>
              rw [hbd.1 m hbc]
              exact loop_follows hI hb hpat hid hp input fuel _ _ _
          · exact loop_follows hI hb hpat hid hp input fuel _ _ _
    · exact follows_ok _

end

/-! ## Pattern objects -/

theorem reChildren_total (f : Fill) (p : RPattern) (rc : Bool) (s : Str) (main : Match) : ∀ (ns : List (Option String)) (gs : List ReGroup),
    Pattern.reChildren (p.total f) rc s main ns gs = Pattern.reChildren p.base rc s main ns gs
  | [], _ => by simp only [Pattern.reChildren]
  | _ :: _, [] => by simp only [Pattern.reChildren]
  | n :: ns, g :: gs => by
    unfold Pattern.reChildren
    rw [reChildren_total f p rc s main ns gs]
    rfl

theorem reMatch_total (f : Fill) (p : RPattern) (rc : Bool) (names : List (Option String)) (s : Str) (o : ReObj) :
    Pattern.reMatch (p.total f) rc names s o = Pattern.reMatch p.base rc names s o := by
  unfold Pattern.reMatch
  simp only [reChildren_total]
  rfl

theorem matchRegex_total (f : Fill) (p : RPattern) (rc : Bool) (re : Regex) (s : Str) : ∀ os : List ReObj,
    Pattern.matchRegex.go (p.total f) rc re s os = Pattern.matchRegex.go p.base rc re s os
  | [] => rfl
  | o :: os => by
    unfold Pattern.matchRegex.go
    rw [matchRegex_total f p rc re s os, reMatch_total]

theorem functionalLoop_total (f : Fill) (p : RPattern) (s : Str) : ∀ rs : List FRet,
    Pattern.functionalLoop (p.total f) s rs = Pattern.functionalLoop p.base s rs
  | [] => rfl
  | r :: rs => by
    unfold Pattern.functionalLoop
    rw [functionalLoop_total f p s rs]
    rfl

section
variable {Ctx : Type} {U : PyErr → Prop} (hI : ¬ U .invalidChain) (hL : ∀ e, U e → U (leaveGenerator e)) (f : Fill) (lower : Str → Str)
include hI hL

mutual
theorem obj_follows : ∀ (p : RPatternObj Ctx), (∀ e, UserRaises p e → U e) → ∀ s, Follows U (p.run lower s) ((p.total f).run lower s)
  | .string i p o ss, h, s => by
    have h : ∀ e, ConfigRaises p e → U e := fun e he => h e (by simp only [UserRaises]; exact he)
    simp only [RPatternObj.run, RPatternObj.total, PatternObj.run, Pattern.partOfString]
    exact run_follows hI hL h (processMatch_follows h) _ _ ss (fun x _ => stringStream_follows U p.base lower o s x)
  | .regex i p rc res, h, s => by
    have h : ∀ e, ConfigRaises p e → U e := fun e he => h e (by simp only [UserRaises]; exact he)
    simp only [RPatternObj.run, RPatternObj.total, PatternObj.run, Pattern.partOfRegex]
    exact run_follows hI hL h (processMatch_follows h) _ _ res (fun x _ => by
      rw [Pattern.matchRegex, matchRegex_total]; exact regexStream_follows U p.base rc x s _)
  | .functional i p fs, h, s => by
    have h1 : ∀ e, ConfigRaises p e → U e := fun e he => h e (by simp only [UserRaises]; exact Or.inl he)
    simp only [RPatternObj.run, RPatternObj.total, PatternObj.run, List.map_map]
    refine run_follows hI hL h1 (processMatch_follows h1) _ _ fs ?_
    intro g hg
    simp only [Function.comp_apply, Pattern.matchFunctional]
    rw [functionalLoop_total]
    refine userStream_follows hI p.base g f.function ?_ s
    intro s e he
    exact h e (by simp only [UserRaises]; exact Or.inr ⟨g, hg, s, he⟩)
  | .chain i p b parts, h, s => by
    have h1 : ∀ e, ConfigRaises p e → U e := fun e he => h e (by simp only [UserRaises]; exact Or.inl he)
    have h2 : ∀ g l e, b = some g → g l = .error e → U e := fun g l e hb he => h e (by simp only [UserRaises]; exact Or.inr (Or.inl ⟨g, l, hb, he⟩))
    have h3 : ∀ e, UserRaisesIn parts e → U e := fun e he => h e (by simp only [UserRaises]; exact Or.inr (Or.inr he))
    simp only [RPatternObj.run, RPatternObj.total, PatternObj.run, RChain.run, Chain.run]
    have hp := parts_follows parts h3
    have hl := loop_follows (c := { pattern := p, parts := RPatternObj.runParts lower parts, breaker := b })
      (d := { pattern := p.total f, parts := PatternObj.runParts lower (RPartObjs.total f parts), breaker := b.map (fun g l => filled (f.breaker l) (g l)) })
      hI (breakerEval_follows hI (f := f) rfl h2) rfl rfl hp s s.length s 0 []
    have hl : Follows U (RChain.rawMatches { pattern := p, parts := RPatternObj.runParts lower parts, breaker := b } s)
      (Chain.rawMatches { pattern := p.total f, parts := PatternObj.runParts lower (RPartObjs.total f parts), breaker := b.map (fun (g : List MTree → Except PyErr Bool) l => filled (f.breaker l) (g l)) } s) := hl
    cases hr : RChain.rawMatches { pattern := p, parts := RPatternObj.runParts lower parts, breaker := b } s with
    | error e => exact follows_error' hl hr (by intro e' h'; rw [h']; exact ⟨_, rfl⟩)
    | ok raws =>
      rw [hl.1 raws hr]
      exact run_follows (f := f) hI hL h1 (chainProcess_follows h1) (fun _ : Unit => (raws, none)) (fun _ => .ok raws) [()]
        (fun _ _ => ⟨fun _ => rfl, by intro e he; simp at he⟩)
theorem parts_follows : ∀ (ps : RPartObjs Ctx), (∀ e, UserRaisesIn ps e → U e) →
    Each (PartFollows U) (RPatternObj.runParts lower ps) (PatternObj.runParts lower (RPartObjs.total f ps))
  | .nil, _ => .nil
  | .cons p start stop hidden rest, h => by
    simp only [RPatternObj.runParts, RPartObjs.total, PatternObj.runParts]
    refine .cons ⟨rfl, rfl, rfl, ?_, ?_⟩ (parts_follows rest (fun e he => h e (by simp only [UserRaisesIn]; exact Or.inr he)))
    · exact obj_follows p (fun e he => h e (by simp only [UserRaisesIn]; exact Or.inl he))
    · exact patternObj_honest lower _
end

end

/-! ## `Rebulk` objects -/

theorem extendHashed_map {α β : Type} (g : α → β) (eq : α → α → Bool) (eq' : β → β → Bool) (he : ∀ a b, eq' (g a) (g b) = eq a b) :
    ∀ (src tgt : List α), extendHashed eq' (fun _ => true) (tgt.map g) (src.map g) =
      ((extendHashed eq (fun _ => true) tgt src).1.map g, (extendHashed eq (fun _ => true) tgt src).2.map (List.map g))
  | [], tgt => rfl
  | x :: src, tgt => by
    simp only [List.map_cons, extendHashed, List.any_map, Function.comp_def, he, Bool.not_true, Bool.false_eq_true, if_false]
    by_cases h : tgt.any (fun y => eq y x) = true
    · rw [if_pos h, if_pos h]
      exact extendHashed_map g eq eq' he src tgt
    · rw [if_neg h, if_neg h]
      have := extendHashed_map g eq eq' he src (tgt ++ [x])
      rw [List.map_append] at this
      exact this

theorem extendLinear_map {α β : Type} (g : α → β) (eq : α → α → Bool) (eq' : β → β → Bool) (he : ∀ a b, eq' (g a) (g b) = eq a b) :
    ∀ (src tgt : List α), extendLinear eq' (tgt.map g) (src.map g) = (extendLinear eq tgt src).map g
  | [], tgt => rfl
  | x :: src, tgt => by
    simp only [List.map_cons, extendLinear, List.any_map, Function.comp_def, he]
    by_cases h : tgt.any (fun y => eq y x) = true
    · rw [if_pos h, if_pos h]
      exact extendLinear_map g eq eq' he src tgt
    · rw [if_neg h, if_neg h]
      have := extendLinear_map g eq eq' he src (tgt ++ [x])
      rw [List.map_append] at this
      exact this

theorem extendSafe_map {α β : Type} (g : α → β) (eq : α → α → Bool) (eq' : β → β → Bool) (he : ∀ a b, eq' (g a) (g b) = eq a b) (src tgt : List α) :
    extendSafe eq' (fun _ => true) false (tgt.map g) (src.map g) = (extendSafe eq (fun _ => true) false tgt src).map g := by
  unfold extendSafe
  rw [extendHashed_map g eq eq' he src tgt]
  simp only [List.all_map, Function.comp_def]
  split
  · exact extendLinear_map g eq eq' he src tgt
  · cases hx : extendHashed eq (fun _ => true) tgt src with
    | mk a o => cases o with
      | none => rfl
      | some r => exact extendLinear_map g eq eq' he src a

section
variable {Ctx ρ : Type} (f : Fill)

theorem total_id (p : RPatternObj Ctx) : (p.total f).id = p.base.id := by
  cases p <;> simp only [RPatternObj.total] <;> rfl

theorem total_info (p : RPatternObj Ctx) : (p.total f).info = p.info := by
  cases p <;> simp only [RPatternObj.total] <;> rfl

theorem addPatterns_total (ctx : Ctx) : ∀ (cs : List (RRebulkObj Ctx)) (acc : List (RPatternObj Ctx)),
    RebulkObj.addPatterns ctx (RRebulkObj.totalList f cs) (acc.map (RPatternObj.total f)) = (RRebulkObj.addPatterns ctx cs acc).map (RPatternObj.total f)
  | [], acc => by simp only [RRebulkObj.totalList, RebulkObj.addPatterns, RRebulkObj.addPatterns]
  | c :: cs, acc => by
    simp only [RRebulkObj.totalList, RebulkObj.addPatterns, RRebulkObj.addPatterns]
    have hd : (c.total f).disabled = c.disabled := by cases c; simp only [RRebulkObj.total]
    have hp : (c.total f).patterns = c.patterns.map (RPatternObj.total f) := by cases c; simp only [RRebulkObj.total]
    rw [hd, hp]
    have := extendSafe_map (RPatternObj.total f) (fun a b => a.base.id == b.base.id) (fun a b : PatternObj Ctx => a.id == b.id)
      (fun a b => by simp only [total_id]) c.patterns acc
    rw [this]
    split
    · exact addPatterns_total ctx cs _
    · exact addPatterns_total ctx cs _

theorem effectivePatterns_total (r : RRebulkObj Ctx) (ctx : Ctx) :
    (r.total f).effectivePatterns ctx = (r.effectivePatterns ctx).map (RPatternObj.total f) := by
  cases r
  simp only [RRebulkObj.total, RebulkObj.effectivePatterns, RRebulkObj.effectivePatterns]
  exact addPatterns_total f ctx _ _

theorem addRules_total (ctx : Ctx) : ∀ (cs : List (RRebulkObj Ctx)) (acc : List RuleObj),
    RebulkObj.addRules ctx (RRebulkObj.totalList f cs) acc = RebulkObj.addRules ctx (RRebulkObj.bareList cs) acc
  | [], acc => by simp only [RRebulkObj.totalList, RRebulkObj.bareList]
  | c :: cs, acc => by
    simp only [RRebulkObj.totalList, RRebulkObj.bareList, RebulkObj.addRules]
    have hd : (c.total f).disabled = c.bare.disabled := by cases c; simp only [RRebulkObj.total, RRebulkObj.bare]
    have hp : (c.total f).rules = c.bare.rules := by cases c; simp only [RRebulkObj.total, RRebulkObj.bare]
    rw [hd, hp]
    split
    · exact addRules_total ctx cs _
    · exact addRules_total ctx cs _

theorem addKeys_total (ctx : Ctx) : ∀ (cs : List (RRebulkObj Ctx)) (acc : Dict String Key),
    RebulkObj.addKeys ctx (RRebulkObj.totalList f cs) acc = RebulkObj.addKeys ctx (RRebulkObj.bareList cs) acc
  | [], acc => by simp only [RRebulkObj.totalList, RRebulkObj.bareList]
  | c :: cs, acc => by
    simp only [RRebulkObj.totalList, RRebulkObj.bareList, RebulkObj.addKeys]
    have hd : (c.total f).disabled = c.bare.disabled := by cases c; simp only [RRebulkObj.total, RRebulkObj.bare]
    have hp : (c.total f).keys = c.bare.keys := by cases c; simp only [RRebulkObj.total, RRebulkObj.bare]
    rw [hd, hp]
    split
    · exact addKeys_total ctx cs _
    · exact addKeys_total ctx cs _

theorem total_disabled (r : RRebulkObj Ctx) : (r.total f).disabled = r.disabled := by cases r; simp only [RRebulkObj.total]

theorem effectiveKeys_total (r : RRebulkObj Ctx) (ctx : Ctx) : (r.total f).effectiveKeys ctx = r.bare.effectiveKeys ctx := by
  cases r
  simp only [RRebulkObj.total, RRebulkObj.bare, RebulkObj.effectiveKeys]
  exact addKeys_total f ctx _ _

theorem executeRules_total (env : Env ρ) (r : RRebulkObj Ctx) (ctx : Ctx) (x : Found) :
    (r.total f).executeRules env ctx x = r.bare.executeRules env ctx x := by
  cases r
  simp only [RRebulkObj.total, RRebulkObj.bare, RebulkObj.executeRules, RebulkObj.effectiveRules]
  rw [addRules_total]
  rfl

theorem searchPatterns_follows {U : PyErr → Prop} (hI : ¬ U .invalidChain) (hL : ∀ e, U e → U (leaveGenerator e)) (lower : Str → Str) (ctx : Ctx) (input : Str) :
    ∀ (ps : List (RPatternObj Ctx)) (x : Found), (∀ p ∈ ps, ∀ e, UserRaises p e → U e) →
    (∀ y, searchPatternsR lower ctx input ps x = .ok y → searchPatterns lower ctx input (ps.map (RPatternObj.total f)) x = .ok y) ∧
    ∀ e, searchPatternsR lower ctx input ps x = .error e → U e ∨ ∃ e', searchPatterns lower ctx input (ps.map (RPatternObj.total f)) x = .error e'
  | [], x, _ => ⟨fun y h => h, by intro e h; cases h⟩
  | p :: ps, x, h => by
    have ih := fun x => searchPatterns_follows hI hL lower ctx input ps x (fun q hq => h q (List.mem_cons_of_mem _ hq))
    simp only [List.map_cons, searchPatternsR, searchPatterns, total_info, RPatternObj.matches_, PatternObj.matches_]
    split
    · have hp := obj_follows hI hL f lower p (h p (by simp)) input
      cases hr : p.run lower input with
      | error e =>
        refine ⟨by intro y hy; simp at hy, ?_⟩
        intro e' he
        simp only [Except.error.injEq] at he; subst he
        rcases (hp.2 e hr).2 with hu | ⟨e', hq⟩
        · exact Or.inl hu
        · rw [hq]; exact Or.inr ⟨e', rfl⟩
      | ok r =>
        rw [hp.1 r hr]
        simp only
        cases ha : Found.addAll r.1 x with
        | error e => exact ⟨by intro y hy; simp at hy, fun e' _ => Or.inr ⟨e, rfl⟩⟩
        | ok x' => exact ih x'
    · exact ih x

/-- `Rebulk.matches` of both versions. -/
theorem matches_follows {U : PyErr → Prop} (hI : ¬ U .invalidChain) (hL : ∀ e, U e → U (leaveGenerator e)) (env : Env ρ) (r : RRebulkObj Ctx)
    (input : Str) (ctx : Ctx) (h : ∀ p ∈ r.effectivePatterns ctx, ∀ e, UserRaises p e → U e) :
    (∀ y, r.matches_ env input ctx = .ok y → (r.total f).matches_ env input ctx = .ok y) ∧
    ∀ e, r.matches_ env input ctx = .error e → U e ∨ ∃ e', (r.total f).matches_ env input ctx = .error e' := by
  unfold RRebulkObj.matches_ RebulkObj.matches_ RebulkObj.matchesPatterns
  simp only [total_disabled, effectiveKeys_total, effectivePatterns_total, executeRules_total]
  cases hd : r.disabled ctx with
  | true => exact ⟨fun y hy => hy, fun e he => Or.inr ⟨e, he⟩⟩
  | false =>
    simp only [Bool.not_false, if_true]
    obtain ⟨h1, h2⟩ := searchPatterns_follows f hI hL env.lower ctx input (r.effectivePatterns ctx)
      { Found.empty input with keys := r.bare.effectiveKeys ctx } h
    cases hs : searchPatternsR env.lower ctx input (r.effectivePatterns ctx) { Found.empty input with keys := r.bare.effectiveKeys ctx } with
    | error e =>
      refine ⟨by intro y hy; simp at hy, ?_⟩
      intro e' he
      simp only [Except.error.injEq] at he; subst he
      rcases h2 e hs with hu | ⟨e', hq⟩
      · exact Or.inl hu
      · rw [hq]; exact Or.inr ⟨e', rfl⟩
    | ok x =>
      rw [h1 x hs]
      exact ⟨fun y hy => hy, fun e he => Or.inr ⟨e, he⟩⟩

end

end Rebulk
