import Verif.Props.Processors
/-!
# What any conflict solvers can have removed (`C68`, solvers that do anything)

`C68` asks that solvers name a match of the pair they are given. Without any hypothesis on the solvers or on the matches found: whatever is to be removed
was named by the first solver with an opinion, about a public match found, equals one of the two matches of the pair, is not empty, and is listed once.
-/
namespace Rebulk
open Spec Matches

namespace Spec

/-- Why `r` may be removed from `l`: some public match `m` of `l` and some other `c` are such that the first solver with an opinion about them named
`r`, `r` is one of the two (up to equality), and `r` is not empty. -/
def NamedForRemoval (sv : Solvers) (l : List Match) (r : Match) : Prop :=
  r.start < r.stop ∧ ∃ m ∈ l, m.priv = false ∧ ∃ c : Match, c.priv = false ∧ decision sv m c = .ok (.drop r) ∧ (m.eqv r = true ∨ c.eqv r = true)

/-- The solvers only ever name empty matches. -/
def NamesOnlyEmpty (sv : Solvers) : Prop := ∀ m c r, decision sv m c = .ok (.drop r) → r.stop ≤ r.start

end Spec

/-- The state of the removal set. -/
structure SoundSet (sv : Solvers) (l set : List Match) : Prop where
  named : ∀ r ∈ set, NamedForRemoval sv l r
  once : (set.map Match.id).Nodup

theorem resolvePair_sound {sv : Solvers} {l set set' : List Match} {m c : Match} (hm : m ∈ l) (hmp : m.priv = false) (hcp : c.priv = false)
    (h : SoundSet sv l set) (hr : resolvePair sv m c set = .ok set') : SoundSet sv l set' := by
  unfold resolvePair at hr
  rw [C68_order] at hr
  cases hd : decision sv m c with
  | error e => rw [hd] at hr; cases hr
  | ok a =>
    rw [hd] at hr
    cases a with
    | default => cases hr; exact h
    | keepBoth => cases hr; exact h
    | drop r =>
      simp only [addRemoval] at hr
      cases ht : r.truthy? with
      | error e => rw [ht] at hr; cases hr
      | ok b =>
        rw [ht] at hr
        cases b with
        | false => cases hr; exact h
        | true =>
          simp only at hr
          have hlen : r.start < r.stop := by
            unfold Match.truthy? at ht
            split at ht
            · cases ht
            · injection ht with ht
              simp only [bne_iff_ne, ne_eq, decide_eq_true_eq] at ht
              omega
          by_cases hin : inSet set r = true
          · rw [if_pos hin] at hr; cases hr; exact h
          · rw [if_neg hin] at hr
            cases hk : keeper m c r with
            | error e => rw [hk] at hr; cases hr
            | ok k =>
              rw [hk] at hr
              simp only at hr
              by_cases hink : inSet set k = true
              · rw [if_pos hink] at hr; cases hr; exact h
              · rw [if_neg hink] at hr
                cases hr
                have hone : m.eqv r = true ∨ c.eqv r = true := by
                  unfold keeper at hk
                  by_cases h1 : m.eqv r = true
                  · exact .inl h1
                  · rw [if_neg h1] at hk
                    by_cases h2 : c.eqv r = true
                    · exact .inr h2
                    · rw [if_neg h2] at hk; cases hk
                refine ⟨?_, ?_⟩
                · intro x hx
                  rcases List.mem_append.1 hx with hx | hx
                  · exact h.named x hx
                  · rw [List.mem_singleton] at hx
                    subst hx
                    exact ⟨hlen, m, hm, hmp, c, hcp, hd, hone⟩
                · rw [List.map_append, List.nodup_append]
                  refine ⟨h.once, by simp, ?_⟩
                  intro a ha b hb hab
                  simp only [List.map_cons, List.map_nil, List.mem_singleton] at hb
                  obtain ⟨x, hx, rfl⟩ := List.mem_map.1 ha
                  apply hin
                  unfold inSet
                  rw [List.any_eq_true]
                  exact ⟨x, hx, by simp [hab, hb]⟩

theorem resolvePairs_sound {sv : Solvers} {l : List Match} {m : Match} (hm : m ∈ l) (hmp : m.priv = false) : ∀ (cs set : List Match) {set' : List Match},
    (∀ c ∈ cs, c.priv = false) → SoundSet sv l set → resolvePairs sv m cs set = .ok set' → SoundSet sv l set'
  | [], _, _, _, h, hr => by cases hr; exact h
  | c :: cs, set, set', hcs, h, hr => by
    unfold resolvePairs at hr
    cases h1 : resolvePair sv m c set with
    | error e => rw [h1] at hr; cases hr
    | ok set1 =>
      rw [h1] at hr
      exact resolvePairs_sound hm hmp cs set1 (fun x hx => hcs x (List.mem_cons_of_mem _ hx))
        (resolvePair_sound hm hmp (hcs c (List.mem_cons_self ..)) h h1) hr

theorem sortByLen_mem {l l' : List Match} (h : sortByLen l = .ok l') : ∀ x ∈ l', x ∈ l := by
  unfold sortByLen at h
  split at h
  · cases h
  · cases h
    intro x hx
    exact (pySorted_perm _ _).subset hx

theorem publicOf_priv {l : List Match} : ∀ x ∈ publicOf l, x ∈ l ∧ x.priv = false := by
  intro x hx
  obtain ⟨h1, h2⟩ := List.mem_filter.1 hx
  exact ⟨h1, by simpa using h2⟩

theorem resolveMatch_sound {sv : Solvers} {l : List Match} {m : Match} (hm : m ∈ l) (hmp : m.priv = false) {s s' : Matches} {set set' : List Match}
    (h : SoundSet sv l set) (hr : resolveMatch sv m s set = (s', .ok set')) : SoundSet sv l set' := by
  unfold resolveMatch at hr
  rcases hx : s.conflicting m with ⟨s1, r⟩
  rw [hx] at hr
  cases r with
  | error e => simp at hr
  | ok cs =>
    simp only at hr
    split at hr
    · cases hr; exact h
    · cases hs : sortByLen (publicOf cs) with
      | error e => rw [hs] at hr; simp at hr
      | ok cs' =>
        rw [hs] at hr
        simp only [Prod.mk.injEq] at hr
        exact resolvePairs_sound hm hmp cs' set (fun c hc => (publicOf_priv c (sortByLen_mem hs c hc)).2) h hr.2

theorem resolveMatches_sound {sv : Solvers} {l : List Match} : ∀ (ms : List Match) (s : Matches) (set : List Match) {s' : Matches} {set' : List Match},
    (∀ m ∈ ms, m ∈ l ∧ m.priv = false) → SoundSet sv l set → resolveMatches sv ms s set = (s', .ok set') → SoundSet sv l set'
  | [], _, _, _, _, _, h, hr => by cases hr; exact h
  | m :: ms, s, set, s', set', hms, h, hr => by
    unfold resolveMatches at hr
    rcases hx : resolveMatch sv m s set with ⟨s1, r⟩
    rw [hx] at hr
    cases r with
    | error e => simp at hr
    | ok set1 =>
      have hm := hms m (List.mem_cons_self ..)
      exact resolveMatches_sound ms s1 set1 (fun x hx => hms x (List.mem_cons_of_mem _ hx)) (resolveMatch_sound hm.1 hm.2 h hx) hr

/-- **C68**, for solvers that do anything: what `ConflictSolver.when` returns was named by the first solver with an opinion on a pair of public matches it
belongs to, is not empty, and no object is there twice. -/
theorem C68_named (sv : Solvers) (s : Matches) {set : List Match} (h : (conflictWhen sv s).2 = .ok set) :
    (∀ r ∈ set, NamedForRemoval sv s.delegate r) ∧ (set.map Match.id).Nodup := by
  unfold conflictWhen at h
  cases hs : sortByLen (publicOf s.delegate) with
  | error e => rw [hs] at h; cases h
  | ok ms =>
    rw [hs] at h
    rcases hx : resolveMatches sv ms s [] with ⟨s1, r⟩
    simp only [hx] at h
    subst h
    have := resolveMatches_sound (l := s.delegate) ms s [] (fun m hm => publicOf_priv m (sortByLen_mem hs m hm)) ⟨by simp, by simp⟩ hx
    exact ⟨this.named, this.once⟩

/-- Solvers that only name empty matches remove nothing: the rule leaves every match in place. -/
theorem C68_empty_kept (sv : Solvers) (s : Matches) (he : NamesOnlyEmpty sv) {set : List Match} (h : (conflictWhen sv s).2 = .ok set)
    (order : List Match → List Match) (r : RuleRef) :
    set = [] ∧ (executeRule listTruthy (conflictRule sv order) r s).state.delegate = s.delegate ∧
      (executeRule listTruthy (conflictRule sv order) r s).err = none := by
  have hnil : set = [] := by
    cases set with
    | nil => rfl
    | cons x xs =>
      obtain ⟨hx, m, _, _, c, _, hd, _⟩ := (C68_named sv s h).1 x (List.mem_cons_self ..)
      have := he m c x hd
      omega
  subst hnil
  refine ⟨rfl, ?_⟩
  unfold executeRule
  rw [if_pos (show (conflictRule sv order).enabled s = true from rfl)]
  have hw : (conflictRule sv order).when_ s = ((conflictWhen sv s).1, .ok []) := by
    show conflictWhen sv s = _
    rw [← h]
  rw [hw]
  exact ⟨(conflictWhen_sim sv s).delegate, rfl⟩

/-- Solvers whose default solver names an empty copy of the match. -/
def emptySolvers : Solvers := ⟨fun _ _ _ => .ok .default, fun m _ => .ok (.drop { m with start := 0, stop := 0 })⟩

example : NamesOnlyEmpty emptySolvers := by
  intro m c r h
  rw [← C68_order] at h
  unfold askSolvers ownSolver emptySolvers at h
  cases hc : c.solver <;> cases hm : m.solver <;> simp only [hc, hm] at h <;> injection h with h <;> injection h with h <;> subst h <;> exact Int.le_refl _

example : conflictSample.delegate.map Match.span = [(0, 6), (4, 7), (6, 8), (0, 2), (1, 3)] ∧
    ((conflictWhen emptySolvers conflictSample).2.toOption.map (fun l => l.map Match.id)) = some [] ∧
    ((conflictWhen (.withDefault (fun _ _ _ => .ok .default)) conflictSample).2.toOption.map (fun l => l.map Match.id)) = some [2, 4, 1] := by
  decide

end Rebulk
