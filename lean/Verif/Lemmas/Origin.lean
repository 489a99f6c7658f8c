import Verif.Spec.Origin
import Verif.Lemmas.Chain
import Verif.Lemmas.Pattern
/-!
# What every match of a tree keeps through processing
-/
namespace Rebulk
open Spec
variable {Ctx : Type}

/-- All matches of a tree. -/
def AllNodes (P : Match → Prop) (t : MTree) : Prop := ∀ m, NodeOf m t → P m

/-- Only the name, tags, marker flag, conflict solver and pattern matter. -/
def Lasting (P : Match → Prop) : Prop :=
  ∀ m m' : Match, m'.name = m.name → m'.tags = m.tags → m'.marker = m.marker → m'.solver = m.solver → m'.pattern = m.pattern → P m → P m'

variable {P : Match → Prop}

theorem lasting (hP : Lasting P) {m m' : Match} (h : P m) (h1 : m'.name = m.name) (h2 : m'.tags = m.tags) (h3 : m'.marker = m.marker)
    (h4 : m'.solver = m.solver) (h5 : m'.pattern = m.pattern) : P m' := hP m m' h1 h2 h3 h4 h5 h

theorem allNodes_node {m : Match} {cs : List MTree} : AllNodes P (.node m cs) ↔ P m ∧ ∀ c ∈ cs, AllNodes P c := by
  constructor
  · intro h
    exact ⟨h m .root, fun c hc x hx => h x (.inside hc hx)⟩
  · rintro ⟨h1, h2⟩ x hx
    cases hx with
    | root => exact h1
    | inside hc hx => exact h2 _ hc x hx

theorem allNodes_iff {t : MTree} : AllNodes P t ↔ P t.root ∧ ∀ c ∈ t.children, AllNodes P c := by
  cases t with
  | node m cs => exact allNodes_node

mutual
theorem allNodes_relink (hP : Lasting P) (old new : List Core) : ∀ t : MTree, AllNodes P t → AllNodes P (t.relink old new)
  | .node m cs, h => by
    rw [allNodes_node] at h
    rw [MTree.relink, allNodes_node]
    exact ⟨lasting hP h.1 rfl rfl rfl rfl rfl, allNodes_relinkList hP old new cs h.2⟩
theorem allNodes_relinkList (hP : Lasting P) (old new : List Core) : ∀ l : List MTree, (∀ c ∈ l, AllNodes P c) → ∀ c ∈ MTree.relinkList old new l, AllNodes P c
  | [], _ => by simp [MTree.relinkList]
  | t :: ts, h => by
    rw [MTree.relinkList]
    intro c hc
    rcases List.mem_cons.1 hc with rfl | hc
    · exact allNodes_relink hP old new t (h t List.mem_cons_self)
    · exact allNodes_relinkList hP old new ts (fun x hx => h x (List.mem_cons_of_mem _ hx)) c hc
end

mutual
theorem allNodes_fix (hP : Lasting P) (input : Str) (o : Int) : ∀ t : MTree, AllNodes P t → AllNodes P (t.fix input o)
  | .node m cs, h => by
    rw [allNodes_node] at h
    rw [MTree.fix]
    have hcs := allNodes_fixList hP input o cs h.2
    split
    · simp only
      rw [allNodes_node]
      exact ⟨lasting hP h.1 rfl rfl rfl rfl rfl, allNodes_relinkList hP _ _ _ hcs⟩
    · rw [allNodes_node]
      exact ⟨h.1, hcs⟩
theorem allNodes_fixList (hP : Lasting P) (input : Str) (o : Int) : ∀ l : List MTree, (∀ c ∈ l, AllNodes P c) → ∀ c ∈ MTree.fixList input o l, AllNodes P c
  | [], _ => by simp [MTree.fixList]
  | t :: ts, h => by
    rw [MTree.fixList]
    intro c hc
    rcases List.mem_cons.1 hc with rfl | hc
    · exact allNodes_fix hP input o t (h t List.mem_cons_self)
    · exact allNodes_fixList hP input o ts (fun x hx => h x (List.mem_cons_of_mem _ hx)) c hc
end

theorem allNodes_setRoot (hP : Lasting P) {t : MTree} {m : Match} (h : AllNodes P t) (hm : P m) : AllNodes P (t.setRoot m) := by
  rw [allNodes_iff] at h
  unfold MTree.setRoot
  rw [allNodes_node]
  exact ⟨hm, allNodes_relinkList hP _ _ _ h.2⟩

theorem lasting_configure (hP : Lasting P) (p : Pattern) (idx : Nat) (child : Bool) {m : Match} (h : P m) : P (p.configure idx child m) := by
  unfold Pattern.configure
  have h1 : P (Pattern.processIndex idx m) := lasting hP h rfl rfl rfl rfl rfl
  have h2 : P (p.processPrivate child (Pattern.processIndex idx m)) := by
    unfold Pattern.processPrivate; split
    · exact lasting hP h1 rfl rfl rfl rfl rfl
    · exact h1
  have h3 : P (p.processValue child (p.processPrivate child (Pattern.processIndex idx m))) := by
    unfold Pattern.processValue; simp only; split
    · exact lasting hP h2 rfl rfl rfl rfl rfl
    · exact h2
  unfold Pattern.processFormatter
  simp only
  generalize ((if child = true then p.shouldIncludeChildren else p.shouldIncludeParent) || p.formatAll) = b
  cases b
  · exact h3
  · exact lasting hP h3 rfl rfl rfl rfl rfl

theorem allNodes_processMatch (hP : Lasting P) (p : Pattern) (idx : Nat) (child : Bool) {t : MTree} (h : AllNodes P t) :
    AllNodes P (p.processMatch idx child t).1 :=
  allNodes_setRoot hP h (lasting_configure hP p idx child (allNodes_iff.1 h).1)

theorem alive_sub {all : List MTree} {fs : List Bool} {x : MTree} (h : x ∈ Chain.alive all fs) : x ∈ all := by
  unfold Chain.alive at h
  obtain ⟨y, hy, rfl⟩ := List.mem_map.1 h
  exact (List.of_mem_zip (List.mem_filter.1 hy).1).1

theorem allNodes_backtrack (hP : Lasting P) (p : Pattern) (idx : Nat) (child : Bool) (pat : Option Nat) : ∀ (ks : List Nat) (t : MTree) (fs : List Bool),
    AllNodes P t → AllNodes P (Chain.backtrack p idx child pat ks t fs).1 ∧
      ∀ s, (Chain.backtrack p idx child pat ks t fs).2 = some s → AllNodes P s
  | [], t, fs, h => ⟨h, fun s hs => by cases hs⟩
  | k :: ks, t, fs, h => by
    unfold Chain.backtrack
    simp only
    generalize hfs : Chain.dropAll t.children (Chain.positions t.children pat k) fs = fs'
    have h1 : AllNodes P (t.setRoot { t.root with stop := Chain.endOf t.root.start (Chain.alive t.children fs') }) :=
      allNodes_setRoot hP h (lasting hP (allNodes_iff.1 h).1 rfl rfl rfl rfl rfl)
    generalize (t.setRoot { t.root with stop := Chain.endOf t.root.start (Chain.alive t.children fs') }) = t1 at h1 ⊢
    have h2 : AllNodes P (t1.setRoot (p.configure idx child t1.root)) := allNodes_processMatch hP p idx child h1
    generalize (t1.setRoot (p.configure idx child t1.root)) = t2 at h2 ⊢
    have h3 : AllNodes P (.node t2.root (Chain.alive t2.children fs')) := by
      rw [allNodes_node]
      exact ⟨(allNodes_iff.1 h2).1, fun c hc => (allNodes_iff.1 h2).2 c (alive_sub hc)⟩
    split
    · exact ⟨h2, fun s hs => by injection hs with hs; exact hs ▸ h3⟩
    · exact allNodes_backtrack hP p idx child pat ks t2 fs' h2

theorem allNodes_chainProcess (hP : Lasting P) (p : Pattern) (idx : Nat) (child : Bool) {t : MTree} (h : AllNodes P t) :
    AllNodes P (Chain.processMatch p idx child t).1 := by
  unfold Chain.processMatch
  have h1 := allNodes_processMatch hP p idx child h
  cases hm : p.processMatch idx child t with
  | mk t1 b =>
    rw [hm] at h1
    cases b with
    | true => exact h1
    | false =>
      simp only
      cases t1.children.getLast? with
      | none => exact h1
      | some last =>
        simp only
        have hb := allNodes_backtrack hP p idx child last.root.pattern
          (groupByIndex (t1.children.filter (fun c => decide (c.root.pattern = last.root.pattern)))).keys.reverse t1 (t1.children.map (fun _ => true)) h1
        cases hr : Chain.backtrack p idx child last.root.pattern
            (groupByIndex (t1.children.filter (fun c => decide (c.root.pattern = last.root.pattern)))).keys.reverse t1 (t1.children.map (fun _ => true)) with
        | mk t' o =>
          rw [hr] at hb
          cases o with
          | none => exact allNodes_setRoot hP hb.1 (lasting hP (allNodes_iff.1 hb.1).1 rfl rfl rfl rfl rfl)
          | some s => exact hb.2 s rfl

theorem allNodes_processChildren {proc : Nat → Bool → MTree → MTree × Bool} (hproc : ∀ i b t, AllNodes P t → AllNodes P (proc i b t).1) (idx : Nat) :
    ∀ (cs cs' : List MTree), Pattern.processChildren proc idx cs = some cs' → (∀ c ∈ cs, AllNodes P c) → ∀ c ∈ cs', AllNodes P c
  | [], cs', he, _ => by injection he with he; subst he; simp
  | c :: cs, cs', he, h => by
    unfold Pattern.processChildren at he
    have hc := hproc idx true c (h c List.mem_cons_self)
    cases hpr : proc idx true c with
    | mk c1 b =>
      rw [hpr] at he hc
      cases b with
      | false => cases he
      | true =>
        simp only at he
        cases hrec : Pattern.processChildren proc idx cs with
        | none => rw [hrec] at he; cases he
        | some r =>
          rw [hrec] at he
          injection he with he
          subst he
          intro x hx
          rcases List.mem_cons.1 hx with rfl | hx
          · exact hc
          · exact allNodes_processChildren hproc idx cs r hrec (fun y hy => h y (List.mem_cons_of_mem _ hy)) x hx

/-- A pattern without processor. -/
def NoProcessor (p : Pattern) : Prop := p.preMatch = none ∧ p.postMatch = none ∧ p.postProcessor = none

theorem keepGoing_some {t t' : MTree} {p : Option (MTree → ProcRet)} (hp : p = none)
    (h : Pattern.keepGoing (Pattern.processProcessor p t) = .ok (some t')) : t' = t := by
  subst hp
  unfold Pattern.processProcessor Pattern.keepGoing at h
  simp only at h
  split at h
  · cases h
  · cases h
  · injection h with h; injection h with h; exact h.symm

theorem allNodes_processMatches {p : Pattern} (hn : NoProcessor p) {proc : Nat → Bool → MTree → MTree × Bool}
    (hproc : ∀ i b t, AllNodes P t → AllNodes P (proc i b t).1) (idx : Nat) {t : MTree} (h : AllNodes P t) {out : List MTree}
    (he : p.processMatchesWith proc idx t = .ok out) : ∀ x ∈ out, AllNodes P x := by
  unfold Pattern.processMatchesWith at he
  cases hk : Pattern.keepGoing (Pattern.processProcessor p.preMatch t) with
  | error e => rw [hk] at he; cases he
  | ok o =>
    rw [hk] at he
    cases o with
    | none => injection he with he; subst he; simp
    | some t1 =>
      have := keepGoing_some hn.1 hk; subst this
      simp only at he
      have h1 := hproc idx false t1 h
      cases hpr : proc idx false t1 with
      | mk t2 b =>
        rw [hpr] at he h1
        cases b with
        | false => injection he with he; subst he; simp
        | true =>
          simp only at he
          cases hc : Pattern.processChildren proc idx t2.children with
          | none => rw [hc] at he; injection he with he; subst he; simp
          | some cs =>
            rw [hc] at he
            simp only at he
            have hcs := allNodes_processChildren hproc idx _ _ hc (allNodes_iff.1 h1).2
            cases hk2 : Pattern.keepGoing (Pattern.processProcessor p.postMatch (.node t2.root cs)) with
            | error e => rw [hk2] at he; cases he
            | ok o =>
              rw [hk2] at he
              cases o with
              | none => injection he with he; subst he; simp
              | some t3 =>
                have := keepGoing_some hn.2.1 hk2; subst this
                injection he with he; subst he
                intro x hx
                unfold Pattern.emitted at hx
                rcases List.mem_append.1 hx with hx | hx
                · split at hx
                  · rw [List.mem_singleton] at hx; subst hx
                    exact allNodes_node.2 ⟨(allNodes_iff.1 h1).1, hcs⟩
                  · cases hx
                · split at hx
                  · exact hcs x (List.mem_filter.1 hx).1
                  · cases hx

theorem allNodes_processRaws {process : Nat → MTree → Except PyErr (List MTree)}
    (hp : ∀ i t out, AllNodes P t → process i t = .ok out → ∀ x ∈ out, AllNodes P x) : ∀ (raws : List MTree) (i : Nat) (out : List MTree),
    (∀ t ∈ raws, AllNodes P t) → Pattern.processRaws process i raws = .ok out → ∀ x ∈ out, AllNodes P x
  | [], i, out, _, he => by injection he with he; subst he; simp
  | t :: ts, i, out, h, he => by
    unfold Pattern.processRaws at he
    cases h1 : process i t with
    | error e => rw [h1] at he; cases he
    | ok l =>
      rw [h1] at he
      simp only at he
      cases h2 : Pattern.processRaws process (i + 1) ts with
      | error e => rw [h2] at he; cases he
      | ok r =>
        rw [h2] at he
        injection he with he; subst he
        intro x hx
        rcases List.mem_append.1 hx with hx | hx
        · exact hp i t l (h t List.mem_cons_self) h1 x hx
        · exact allNodes_processRaws hp ts (i + 1) r (fun y hy => h y (List.mem_cons_of_mem _ hy)) h2 x hx

theorem allNodes_processAll {process : Nat → MTree → Except PyErr (List MTree)}
    (hp : ∀ i t out, AllNodes P t → process i t = .ok out → ∀ x ∈ out, AllNodes P x) : ∀ (L : List (List MTree)) (out : List MTree),
    (∀ raws ∈ L, ∀ t ∈ raws, AllNodes P t) → Pattern.processAll process L = .ok out → ∀ x ∈ out, AllNodes P x
  | [], out, _, he => by injection he with he; subst he; simp
  | l :: L, out, h, he => by
    unfold Pattern.processAll at he
    cases h1 : Pattern.processRaws process 0 l with
    | error e => rw [h1] at he; cases he
    | ok a =>
      rw [h1] at he
      simp only at he
      cases h2 : Pattern.processAll process L with
      | error e => rw [h2] at he; cases he
      | ok r =>
        rw [h2] at he
        injection he with he; subst he
        intro x hx
        rcases List.mem_append.1 hx with hx | hx
        · exact allNodes_processRaws hp l 0 a (h l List.mem_cons_self) h1 x hx
        · exact allNodes_processAll hp L r (fun y hy => h y (List.mem_cons_of_mem _ hy)) h2 x hx

theorem allNodes_withRaws {p : Pattern} (hn : NoProcessor p) {proc : Nat → Bool → MTree → MTree × Bool}
    (hproc : ∀ i b t, AllNodes P t → AllNodes P (proc i b t).1) {L : List (List MTree)} (h : ∀ raws ∈ L, ∀ t ∈ raws, AllNodes P t)
    {out raws : List MTree} (he : p.matchesWithRaws proc L = .ok (out, raws)) : ∀ x ∈ out, AllNodes P x := by
  unfold Pattern.matchesWithRaws Pattern.postProcess at he
  rw [hn.2.2] at he
  cases h1 : Pattern.processAll (p.processMatchesWith proc) L with
  | error e => rw [h1] at he; cases he
  | ok l =>
    rw [h1] at he
    injection he with he
    injection he with he _
    subst he
    exact allNodes_processAll (fun i t o ht ho => allNodes_processMatches hn hproc i ht ho) L l h h1

theorem collectRaws_each {α : Type} (g : α → Except PyErr (List MTree)) {Q : MTree → Prop} : ∀ (xs : List α) (L : List (List MTree)),
    collectRaws (xs.map g) = .ok L → (∀ x ∈ xs, ∀ l, g x = .ok l → ∀ t ∈ l, Q t) → ∀ raws ∈ L, ∀ t ∈ raws, Q t
  | [], L, he, _ => by injection he with he; subst he; simp
  | x :: xs, L, he, h => by
    rw [List.map_cons] at he
    cases hg : g x with
    | error e => rw [hg] at he; cases he
    | ok l =>
      rw [hg] at he
      unfold collectRaws at he
      cases hr : collectRaws (xs.map g) with
      | error e => rw [hr] at he; cases he
      | ok r =>
        rw [hr] at he
        injection he with he; subst he
        intro raws hraws
        rcases List.mem_cons.1 hraws with rfl | hraws
        · exact h x List.mem_cons_self _ hg
        · exact collectRaws_each g xs r hr (fun y hy => h y (List.mem_cons_of_mem _ hy)) raws hraws

/-! ## Chains -/

theorem allNodes_nextGroups (c : Chain) (input : Str) (hidden : Bool) (groups : Dict Nat (List MTree))
    (hg : hidden = false → ∀ i, ∀ x ∈ (groups.get? i).getD [], AllNodes P x) : ∀ (rs : Dict Nat (List MTree)) (st st' : ChainSt),
    (∀ x ∈ st.current, AllNodes P x) → c.nextGroups input hidden groups rs st = .ok st' → ∀ x ∈ st'.current, AllNodes P x
  | [], st, st', h, he => by injection he with he; subst he; exact h
  | (i, raws) :: rest, st, st', h, he => by
    unfold Chain.nextGroups at he
    cases hl : raws.getLast? with
    | none => rw [hl] at he; cases he
    | some last =>
      rw [hl] at he
      simp only at he
      split at he
      · refine allNodes_nextGroups c input hidden groups hg rest _ st' ?_ he; exact h
      · next hh =>
        split at he
        · cases he
        · refine allNodes_nextGroups c input hidden groups hg rest _ st' ?_ he
          intro x hx
          rcases List.mem_append.1 hx with hx | hx
          · exact h x hx
          · exact hg (by simpa using hh) i x hx
        · refine allNodes_nextGroups c input hidden groups hg rest _ st' ?_ he; exact h

theorem allNodes_toNext (hP : Lasting P) (c : Chain) (input : Str) (part : Part) (ms raws : List MTree) (st st' : ChainSt)
    (hm : part.hidden = false → ∀ x ∈ ms, AllNodes P x) (h : ∀ x ∈ st.current, AllNodes P x) (he : c.toNext input part ms raws st = .ok st') :
    ∀ x ∈ st'.current, AllNodes P x := by
  unfold Chain.toNext at he
  simp only at he
  split at he
  · injection he with he; subst he; exact h
  · refine allNodes_nextGroups c input part.hidden _ ?_ _ st st' h he
    intro hh i x hx
    rw [groupByIndex_get] at hx
    exact allNodes_fixList hP input st.offset ms (hm hh) x (List.mem_filter.1 hx).1

theorem allNodes_matchesOf {part : Part} (hs : ∀ s out raws, part.search s = .ok (out, raws) → ∀ x ∈ out, AllNodes P x) {first : Bool} {input : Str}
    {ms raws : List MTree} (he : part.matchesOf first input = .ok (ms, raws)) : ∀ x ∈ ms, AllNodes P x := by
  unfold Part.matchesOf at he
  cases h1 : part.search input with
  | error e => rw [h1] at he; cases he
  | ok o =>
    obtain ⟨a, b⟩ := o
    rw [h1] at he
    simp only at he
    split at he
    · cases he
    · injection he with he
      injection he with he _
      subst he
      intro x hx
      exact hs _ _ _ h1 x ((truncate_sub (l := a)).subset hx)

theorem allNodes_runParts (hP : Lasting P) (c : Chain) (input : Str) : ∀ (parts : List Part) (first : Bool) (st st' : ChainSt) (v : Bool),
    (∀ part ∈ parts, part.hidden = false → ∀ s out raws, part.search s = .ok (out, raws) → ∀ x ∈ out, AllNodes P x) →
    (∀ x ∈ st.current, AllNodes P x) → c.runParts input first parts st = .ok (st', v) → ∀ x ∈ st'.current, AllNodes P x
  | [], first, st, st', v, _, h, he => by injection he with he; injection he with he _; subst he; exact h
  | part :: rest, first, st, st', v, hs, h, he => by
    unfold Chain.runParts at he
    split at he
    · injection he with he; injection he with he _
      subst he
      split <;> exact h
    · cases he
    · next ms raws hm =>
      split at he
      · cases he
      · next st1 ht =>
        have h1 := allNodes_toNext hP c input part ms raws st st1 (fun hh => allNodes_matchesOf (hs part List.mem_cons_self hh) hm) h ht
        exact allNodes_runParts hP c input rest false st1 st' v (fun p hp => hs p (List.mem_cons_of_mem _ hp)) h1 he

theorem allNodes_buildChildren (hP : Lasting P) (m : Match) : ∀ (n : Nat) (cs xs : List MTree), (∀ x ∈ cs, AllNodes P x) → (∀ x ∈ xs, AllNodes P x) →
    ∀ x ∈ Chain.buildChildren.go m n cs xs, AllNodes P x
  | 0, cs, xs, h, _ => by unfold Chain.buildChildren.go; cases xs <;> exact h
  | n + 1, cs, [], h, _ => by unfold Chain.buildChildren.go; exact h
  | n + 1, cs, x :: xs, h, hx => by
    unfold Chain.buildChildren.go
    simp only
    have hx0 := hx x List.mem_cons_self
    have hcs : ∀ y ∈ cs ++ x.children, AllNodes P y := by
      intro y hy
      rcases List.mem_append.1 hy with hy | hy
      · exact h y hy
      · exact (allNodes_iff.1 hx0).2 y hy
    split
    · exact allNodes_buildChildren hP m n _ xs hcs (fun y hy => hx y (List.mem_cons_of_mem _ hy))
    · refine allNodes_buildChildren hP m n _ _ ?_ ?_
      · intro y hy
        rcases List.mem_append.1 hy with hy | hy
        · exact allNodes_relinkList hP _ _ _ hcs y hy
        · rw [List.mem_singleton] at hy; subst hy
          exact allNodes_setRoot hP hx0 (lasting hP (allNodes_iff.1 hx0).1 rfl rfl rfl rfl rfl)
      · intro y hy
        obtain ⟨z, hz, rfl⟩ := List.mem_map.1 hy
        exact allNodes_relink hP _ _ z (hx z (List.mem_cons_of_mem _ hz))

theorem allNodes_build (hP : Lasting P) (c : Chain) (hc : ∀ input s e, P (c.pattern.newMatch input s e)) (input : Str) (cur : List MTree) {t : MTree}
    (h : ∀ x ∈ cur, AllNodes P x) (he : c.build input cur = .ok t) : AllNodes P t := by
  unfold Chain.build at he
  split at he
  · cases he
  · next s e hb =>
    simp only at he
    split at he
    · cases he
    · injection he with he; subst he
      rw [allNodes_node]
      exact ⟨hc _ _ _, allNodes_buildChildren hP _ _ _ _ (by simp) h⟩

theorem allNodes_loop (hP : Lasting P) (c : Chain) (hc : ∀ input s e, P (c.pattern.newMatch input s e))
    (hs : ∀ part ∈ c.parts, part.hidden = false → ∀ s out raws, part.search s = .ok (out, raws) → ∀ x ∈ out, AllNodes P x) (input : Str) :
    ∀ (fuel : Nat) (ci : Str) (o : Int) (acc out : List MTree), (∀ x ∈ acc, AllNodes P x) → c.loop input fuel ci o acc = .ok out → ∀ x ∈ out, AllNodes P x
  | 0, ci, o, acc, out, h, he => by
    unfold Chain.loop at he
    split at he
    · cases he
    · injection he with he; subst he; exact h
  | fuel + 1, ci, o, acc, out, h, he => by
    unfold Chain.loop at he
    split at he
    · split at he
      · cases he
      · next st v hr =>
        have h1 := allNodes_runParts hP c input c.parts true _ st v hs (by simp) hr
        split at he
        · injection he with he; subst he; exact h
        · split at he
          · split at he
            · cases he
            · next t hb =>
              refine allNodes_loop hP c hc hs input fuel _ _ _ out ?_ he
              intro x hx
              rcases List.mem_append.1 hx with hx | hx
              · exact h x hx
              · rw [List.mem_singleton] at hx; subst hx
                exact allNodes_build hP c hc input _ h1 hb
          · exact allNodes_loop hP c hc hs input fuel _ _ _ out h he
    · injection he with he; subst he; exact h

theorem allNodes_chainRun (hP : Lasting P) (c : Chain) (hn : NoProcessor c.pattern) (hc : ∀ input s e, P (c.pattern.newMatch input s e))
    (hs : ∀ part ∈ c.parts, part.hidden = false → ∀ s out raws, part.search s = .ok (out, raws) → ∀ x ∈ out, AllNodes P x) (input : Str) {out raws : List MTree}
    (he : c.run input = .ok (out, raws)) : ∀ x ∈ out, AllNodes P x := by
  unfold Chain.run at he
  cases h1 : c.rawMatches input with
  | error e => rw [h1] at he; cases he
  | ok rs =>
    rw [h1] at he
    refine allNodes_withRaws hn (fun i b t ht => allNodes_chainProcess hP c.pattern i b ht) ?_ he
    intro l hl
    rw [List.mem_singleton] at hl; subst hl
    exact allNodes_loop hP c hc hs input _ _ _ _ _ (by simp) h1

end Rebulk
