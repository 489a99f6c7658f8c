import Verif.Props.BuilderDicts
/-!
# Every dict object a program can get at exists (`C101`, the hypothesis of `C101_chain_partial`)
-/
namespace Rebulk
open Spec

theorem Spec.ClosedDict.mono {n m : Nat} {d : HDict} (h : ClosedDict n d) (hnm : n ≤ m) : ClosedDict m d :=
  fun name b hb => Nat.lt_of_lt_of_le (h name b hb) hnm

theorem mem_set {d : HDict} {k : String} {v : HV} {kv : String × HV} (h : kv ∈ Dict.set d k v) : kv ∈ d ∨ kv.2 = v := by
  induction d with
  | nil => simp only [Dict.set, List.mem_singleton] at h; subst h; exact Or.inr rfl
  | cons a d ih =>
    obtain ⟨k', v'⟩ := a
    simp only [Dict.set] at h
    split at h
    · rcases List.mem_cons.1 h with h | h
      · subst h; exact Or.inr rfl
      · exact Or.inl (List.mem_cons_of_mem _ h)
    · rcases List.mem_cons.1 h with h | h
      · subst h; exact Or.inl List.mem_cons_self
      · rcases ih h with h | h
        · exact Or.inl (List.mem_cons_of_mem _ h)
        · exact Or.inr h

theorem Spec.ClosedDict.set {n : Nat} {d : HDict} (h : ClosedDict n d) (k : String) {v : HV} (hv : ∀ b, v = .ref b → b < n) : ClosedDict n (Dict.set d k v) := by
  intro name b hb
  rcases mem_set hb with hb | hb
  · exact h name b hb
  · exact hv b hb.symm

theorem Spec.ClosedDict.setDefault {n : Nat} {d : HDict} (h : ClosedDict n d) (k : String) {v : HV} (hv : ∀ b, v = .ref b → b < n) :
    ClosedDict n (Dict.setDefault d k v) := by
  unfold Dict.setDefault
  split
  · exact h
  · exact h.set k hv

theorem closedDict_nil (n : Nat) : ClosedDict n [] := fun _ _ hb => by cases hb

theorem Spec.ClosedDict.pop {n : Nat} {d : HDict} (h : ClosedDict n d) (k : String) : ClosedDict n (HDict.pop d k) :=
  fun name b hb => h name b (List.mem_filter.1 hb).1

theorem Spec.ClosedDict.append {n : Nat} {d e : HDict} (hd : ClosedDict n d) (he : ClosedDict n e) : ClosedDict n (d ++ e : HDict) := by
  intro name b hb
  rcases List.mem_append.1 hb with hb | hb
  · exact hd name b hb
  · exact he name b hb

theorem Spec.ClosedDict.update {n : Nat} {e : HDict} (he : ClosedDict n e) : ∀ {d : HDict}, ClosedDict n d → ClosedDict n (Dict.update d e) := by
  unfold Dict.update
  induction e with
  | nil => exact fun hd => hd
  | cons kv e ih =>
    intro d hd
    rw [List.foldl_cons]
    refine ih (fun name b hb => he name b (List.mem_cons_of_mem _ hb)) (hd.set kv.1 (fun b hb => ?_))
    exact he kv.1 b (by rw [← hb]; exact List.mem_cons_self)

theorem Spec.Closed.at {h : DHeap} (hc : Closed h) (a : Nat) : ClosedDict h.length (h.at_ a) := fun name b hb => hc a name b hb

theorem Spec.Closed.put {h : DHeap} (hc : Closed h) (a : Nat) {d : HDict} (hd : ClosedDict h.length d) : Closed (h.put a d) := by
  intro x name b hb
  rw [DHeap.length_put]
  rw [DHeap.at_put] at hb
  split at hb
  · exact hd name b hb
  · exact hc x name b hb

theorem Spec.Closed.app {h : DHeap} (hc : Closed h) {d : HDict} (hd : ClosedDict (h.length + 1) d) : Closed (h ++ [d] : DHeap) := by
  intro x name b hb
  simp only [List.length_append, List.length_singleton]
  by_cases hx : x < h.length
  · rw [(Ext.append h [d]).at hx] at hb
    have := hc x name b hb
    omega
  · by_cases hx' : x = h.length
    · have : (h ++ [d] : DHeap).at_ x = d := by rw [DHeap.at_eq, hx']; simp
      rw [this] at hb
      exact hd name b hb
    · have : (h ++ [d] : DHeap).at_ x = [] := by
        rw [DHeap.at_eq, List.getElem?_eq_none (by simp; omega)]; rfl
      rw [this] at hb
      cases hb

theorem get?_mem_pair {d : HDict} {key : String} {v : HV} (h : d.get? key = some v) : (key, v) ∈ d := by
  induction d with
  | nil => cases h
  | cons kv d ih =>
    obtain ⟨k', v'⟩ := kv
    simp only [Dict.get?] at h
    by_cases hk : (k' == key) = true
    · rw [if_pos hk] at h
      have : k' = key := by simpa using hk
      cases h
      rw [this]
      exact List.mem_cons_self
    · rw [if_neg hk] at h
      exact List.mem_cons_of_mem _ (ih h)

theorem Spec.ClosedDict.get {n : Nat} {d : HDict} (h : ClosedDict n d) {key : String} {v : HV} (hv : d.get? key = some v) : ∀ b, v = .ref b → b < n :=
  fun b hb => h key b (by rw [← hb]; exact get?_mem_pair hv)

/-- Closedness is preserved, the number of objects too. -/
def KeepsClosed (h h' : DHeap) : Prop := h'.length = h.length ∧ (Closed h → Closed h')

theorem KeepsClosed.refl (h : DHeap) : KeepsClosed h h := ⟨rfl, id⟩
theorem KeepsClosed.trans {h h' h'' : DHeap} (a : KeepsClosed h h') (b : KeepsClosed h' h'') : KeepsClosed h h'' :=
  ⟨b.1.trans a.1, fun hc => b.2 (a.2 hc)⟩

theorem defaultKeyH_closed {rec_ : Addr → Addr → DHeap → Option DHeap} (hr : ∀ d e h h', rec_ d e h = some h' → KeepsClosed h h')
    {d k : Addr} {o : Bool} {h h' : DHeap} {key : String} (he : defaultKeyH rec_ d k o h key = some h') : KeepsClosed h h' := by
  unfold defaultKeyH at he
  cases hd : (h.at_ d).get? key with
  | none => rw [hd] at he; cases he; exact .refl h
  | some value =>
    rw [hd] at he
    simp only at he
    have hput : ∀ g : DHeap, KeepsClosed h g → KeepsClosed h (g.put k ((g.at_ k).set key value)) := by
      intro g hg
      refine ⟨(DHeap.length_put _ _ _).trans hg.1, fun hc => ?_⟩
      refine (hg.2 hc).put k (((hg.2 hc).at k).set key ?_)
      rw [hg.1]
      exact (hc.at d).get hd
    cases hcur : (h.at_ k).get? key with
    | none => rw [hcur] at he; cases he; exact hput h (.refl h)
    | some cur =>
      rw [hcur] at he
      simp only [Option.map_eq_some_iff] at he
      obtain ⟨g, e1, e2⟩ := he
      have hg : KeepsClosed h g := by
        split at e1
        · simp only [Option.some.injEq] at e1
          subst e1
          exact ⟨DHeap.length_put _ _ _, fun hc => hc.put k ((hc.at k).set key (fun b hb => by cases hb))⟩
        · exact hr _ _ _ _ e1
        · simp only [Option.some.injEq] at e1; exact e1 ▸ .refl h
      subst e2
      split
      · exact hput g hg
      · exact hg

theorem setDefaultsH_closed (fuel : Nat) (d k : Addr) (o : Bool) (h h' : DHeap) (he : setDefaultsH fuel d k o h = some h') : KeepsClosed h h' := by
  induction fuel generalizing d k o h h' with
  | zero => simp [setDefaultsH] at he
  | succ fuel ih =>
    unfold setDefaultsH at he
    simp only at he
    have hp : KeepsClosed h (popClear h d).1 := by
      unfold popClear
      split
      · exact .refl h
      · exact ⟨DHeap.length_put _ _ _, fun hc => hc.put d ((hc.at d).pop _)⟩
    have h1 : KeepsClosed h (if (popClear h d).2 = true then ((popClear h d).1).put k [] else (popClear h d).1) := by
      split
      · exact hp.trans ⟨DHeap.length_put _ _ _, fun hc => hc.put k (closedDict_nil _)⟩
      · exact hp
    refine foldlM_inv (P := fun s => KeepsClosed h s) he h1 ?_
    intro s x s' hx hs hf
    exact hs.trans (defaultKeyH_closed (fun d e h h' he => ih d e false h h' he) hf)

theorem expandFold_closed {expand : List Val → HV → HV} (hexp : ∀ l v b, expand l v = .ref b → v = .ref b) (ab : Option HV) :
    ∀ (args : List HV) (h : DHeap), KeepsClosed h (args.foldl (expandPatternDict expand ab) h)
  | [], h => .refl h
  | arg :: args, h => by
    rw [List.foldl_cons]
    refine KeepsClosed.trans ?_ (expandFold_closed hexp ab args _)
    unfold expandPatternDict
    split
    · split
      · next a _ p hp =>
        refine ⟨DHeap.length_put _ _ _, fun hc => hc.put _ ((hc.at _).set _ (fun b hb => ?_))⟩
        exact (hc.at _).get hp b (hexp _ _ _ hb)
      · exact .refl h
    · exact .refl h

/-- Closedness is preserved, objects are added. -/
def GrowsClosed (h h' : DHeap) : Prop := h.length ≤ h'.length ∧ (Closed h → Closed h')

theorem KeepsClosed.grows {h h' : DHeap} (k : KeepsClosed h h') : GrowsClosed h h' := ⟨Nat.le_of_eq k.1.symm, k.2⟩
theorem GrowsClosed.refl (h : DHeap) : GrowsClosed h h := ⟨Nat.le_refl _, id⟩
theorem GrowsClosed.trans {h h' h'' : DHeap} (a : GrowsClosed h h') (b : GrowsClosed h' h'') : GrowsClosed h h'' :=
  ⟨Nat.le_trans a.1 b.1, fun hc => b.2 (a.2 hc)⟩
theorem GrowsClosed.app {h : DHeap} {d : HDict} (hd : ClosedDict (h.length + 1) d) : GrowsClosed h (h ++ [d]) :=
  ⟨by simp, fun hc => hc.app hd⟩

theorem newPattern_closed (h : DHeap) {kw : HDict} (hk : ClosedDict h.length kw) : GrowsClosed h (newPattern h kw).1 := by
  have h0 : GrowsClosed h (h.alloc kw).1 := GrowsClosed.app (hk.mono (by omega))
  unfold newPattern
  simp only
  split
  · next a _ =>
    by_cases hc : List.isEmpty ((h.alloc kw).1.at_ a) = true
    · rw [if_pos hc]; exact h0.trans (GrowsClosed.app (closedDict_nil _))
    · rw [if_neg hc]; exact h0
  · next v hv _ =>
    refine h0.trans (GrowsClosed.app ?_)
    by_cases ht : HV.truthy (h.alloc kw).1 v = true
    · rw [if_pos ht]
      intro name b hb
      simp only [List.mem_singleton, Prod.mk.injEq] at hb
      exact absurd hb.2.symm (hv b)
    · rw [if_neg ht]; exact closedDict_nil _
  · exact h0.trans (GrowsClosed.app (closedDict_nil _))

theorem inheritKeys_closed (keys : Dict String Nat) (b : Bool) (h : DHeap) (p : PatCfg) : GrowsClosed h (inheritKeys keys b h p).1 := by
  unfold inheritKeys
  split
  · exact .refl h
  · simp only
    split
    · exact .refl h
    · simp only [DHeap.alloc]
      refine ⟨by simp, fun hc => hc.app ?_⟩
      refine ((hc.at _).mono (by omega)).append ?_
      intro name c hm
      obtain ⟨x, _, hx⟩ := List.mem_map.1 hm
      cases hx

theorem popOverrides_closed {kw kw' backup : HDict} {n : Nat} (hk : ClosedDict n kw) (e : popOverrides kw = some (kw', backup)) :
    ClosedDict n kw' ∧ ClosedDict n backup := by
  have h1 := popOverrides_options e
  have h2 := (popOverrides_backup e).1
  refine ⟨h1 ▸ hk.pop _, fun name b hb => ?_⟩
  have := h2 _ hb
  rw [h1] at this
  exact (hk.pop _).get this b rfl

theorem buildPattern_closed {expand : List Val → HV → HV} (hexp : ∀ l v b, expand l v = .ref b → v = .ref b) {fuel : Nat} {f : Factory} {slot : Slot}
    {args : List HV} {kw : HDict} {h : DHeap} {r : DHeap × PatCfg} (hk : ClosedDict h.length kw)
    (e : buildPattern expand fuel f slot args kw h = some r) : GrowsClosed h r.1 := by
  unfold buildPattern at e
  cases hp : popOverrides kw with
  | none => rw [hp] at e; cases e
  | some q =>
    obtain ⟨kw', backup⟩ := q
    obtain ⟨hk', hb⟩ := popOverrides_closed hk hp
    rw [hp] at e
    simp only [DHeap.alloc] at e
    cases e1 : setDefaultsH fuel (f.slot slot) h.length false (h ++ [kw']) with
    | none => rw [e1] at e; cases e
    | some h1 =>
      rw [e1] at e
      simp only at e
      cases e2 : setDefaultsH fuel f.base h.length false h1 with
      | none => rw [e2] at e; cases e
      | some h2 =>
        rw [e2] at e
        simp only [Option.some.injEq] at e
        have g2 : GrowsClosed h h2 := (GrowsClosed.app (hk'.mono (by omega))).trans
          (((setDefaultsH_closed _ _ _ _ _ _ e1).trans (setDefaultsH_closed _ _ _ _ _ _ e2)).grows)
        have l2 : h2.length = h.length + 1 := by
          rw [(setDefaultsH_closed _ _ _ _ _ _ e2).1, (setDefaultsH_closed _ _ _ _ _ _ e1).1]; simp
        generalize hK : Dict.update (h2.at_ h.length) backup = K at e
        have hKc : Closed h2 → ClosedDict h2.length K := fun hc => by
          rw [← hK]
          exact (hb.mono (by omega)).update (hc.at _)
        rw [at_put_self (by omega)] at e
        generalize hfold : (if slot = .regex then args.foldl (expandPatternDict expand (K.get? "abbreviations")) (h2.put h.length K)
            else h2.put h.length K) = h3 at e
        have g3 : GrowsClosed h h3 ∧ h3.length = h2.length := by
          have gp : h2.length = (h2.put h.length K).length := (DHeap.length_put _ _ _).symm
          rw [← hfold]
          split
          · have kf := expandFold_closed hexp (K.get? "abbreviations") args (h2.put h.length K)
            refine ⟨⟨by rw [kf.1, ← gp]; exact g2.1, fun hc => kf.2 ((g2.2 hc).put _ (hKc (g2.2 hc)))⟩, by rw [kf.1, ← gp]⟩
          · exact ⟨⟨by rw [← gp]; exact g2.1, fun hc => (g2.2 hc).put _ (hKc (g2.2 hc))⟩, gp.symm⟩
        subst e
        refine ⟨?_, fun hc => ?_⟩
        · have := (newPattern_ext h3 K).1
          have := (inheritKeys_ext f.keys (hasBareFormatter (newPattern h3 K).1 K) (newPattern h3 K).1 (newPattern h3 K).2).1
          have := g3.1.1
          omega
        · refine (inheritKeys_closed _ _ _ _).2 ((newPattern_closed h3 ?_).2 (g3.1.2 hc))
          rw [g3.2]
          exact hKc (g2.2 hc)

theorem deepCopyH_closed (fuel : Nat) (a : Addr) (h : DHeap) (r : DHeap × Addr) (e : deepCopyH fuel a h = some r) : GrowsClosed h r.1 := by
  induction fuel generalizing a h r with
  | zero => simp [deepCopyH] at e
  | succ fuel ih =>
    unfold deepCopyH at e
    split at e
    · simp at e
    · next q hq =>
      simp only [Option.some.injEq] at e
      subst e
      have gen : ∀ (l : HDict) (s q : DHeap × HDict), ClosedDict s.1.length s.2 →
          l.foldlM (deepCopyEntry (fun b h => deepCopyH fuel b h)) s = some q → GrowsClosed s.1 q.1 ∧ ClosedDict q.1.length q.2 := by
        intro l
        induction l with
        | nil =>
          intro s q hs hq
          simp only [List.foldlM_nil, pure, Option.some.injEq] at hq; subst hq
          exact ⟨.refl _, hs⟩
        | cons kv l ihl =>
          intro s q hs hq
          simp only [List.foldlM_cons, bind, Option.bind_eq_some_iff] at hq
          obtain ⟨s', h1, h2⟩ := hq
          have key : GrowsClosed s.1 s'.1 ∧ ClosedDict s'.1.length s'.2 := by
            unfold deepCopyEntry at h1
            split at h1
            · split at h1
              · simp at h1
              · next r hr =>
                simp only [Option.some.injEq] at h1; subst h1
                have x := deepCopyH_ext _ _ _ _ hr
                refine ⟨ih _ _ _ hr, ((hs.mono x.1.1).append ?_)⟩
                intro name b hb
                simp only [List.mem_singleton, Prod.mk.injEq, HV.ref.injEq] at hb
                rw [hb.2]
                exact x.2.2.1
            · next v hv =>
              simp only [Option.some.injEq] at h1; subst h1
              refine ⟨.refl _, hs.append ?_⟩
              intro name b hb
              simp only [List.mem_singleton, Prod.mk.injEq] at hb
              exact absurd hb.2.symm (hv b)
          have := ihl s' q key.2 h2
          exact ⟨key.1.trans this.1, this.2⟩
      have := gen _ _ _ (closedDict_nil _) hq
      exact this.1.trans (.app (this.2.mono (by omega)))

theorem inheritDefaults_closed {fuel : Nat} {src : Factory} {h : DHeap} {r : DHeap × Factory} (e : inheritDefaults fuel src h = some r) :
    GrowsClosed h r.1 := by
  unfold inheritDefaults at e
  simp only [bind, Option.bind_eq_some_iff, pure, Option.some.injEq] at e
  obtain ⟨a1, e1, a2, e2, a3, e3, a4, e4, a5, e5, e⟩ := e
  subst e
  exact ((((deepCopyH_closed _ _ _ _ e1).trans (deepCopyH_closed _ _ _ _ e2)).trans (deepCopyH_closed _ _ _ _ e3)).trans
    (deepCopyH_closed _ _ _ _ e4)).trans (deepCopyH_closed _ _ _ _ e5)

theorem applyKey_closed {key : KeyArg} {kw kw' : HDict} {h h' : DHeap} (hk : ClosedDict h.length kw) (e : applyKey key kw h = .ok (kw', h')) :
    GrowsClosed h h' ∧ (Closed h → ClosedDict h'.length kw') := by
  cases key with
  | absent => cases e; exact ⟨.refl _, fun _ => hk⟩
  | one k =>
    cases e
    exact ⟨.refl _, fun _ => (hk.setDefault _ (fun b hb => by cases hb)).setDefault _ (fun b hb => by cases hb)⟩
  | many ks =>
    cases ks with
    | nil => cases e; exact ⟨.refl _, fun _ => hk⟩
    | cons k ks =>
      simp only [applyKey] at e
      cases hb : keysBase kw h with
      | error e0 => rw [hb] at e; cases e
      | ok base =>
        rw [hb] at e
        simp only [DHeap.alloc, Except.ok.injEq, Prod.mk.injEq] at e
        obtain ⟨rfl, rfl⟩ := e
        have hbase : Closed h → ClosedDict h.length base := by
          intro hc
          unfold keysBase at hb
          split at hb
          · cases hb; exact closedDict_nil _
          · cases hb; exact closedDict_nil _
          · cases hb; exact hc.at _
          · cases hb
        have hconv : ∀ (ks : List BKey) (d : HDict), ClosedDict h.length d → ClosedDict h.length (addConverters d ks) := by
          intro ks
          induction ks with
          | nil => exact fun d hd => hd
          | cons k ks ih => exact fun d hd => ih _ (hd.setDefault _ (fun b hb => by cases hb))
        refine ⟨⟨by simp, fun hc => hc.app ((hconv _ _ (hbase hc)).mono (by omega))⟩, fun _ => ?_⟩
        refine (hk.mono (by simp)).set _ (fun b hb => ?_)
        simp only [HV.ref.injEq] at hb
        simp; omega

theorem newFactory_closed (h : DHeap) : GrowsClosed h (newFactory h).1 := by
  have : (newFactory h).1 = ((((h ++ [[]]) ++ [[]]) ++ [[]]) ++ [[]]) ++ [[]] := by simp [newFactory]
  rw [this]
  exact ((((GrowsClosed.app (closedDict_nil _)).trans (.app (closedDict_nil _))).trans (.app (closedDict_nil _))).trans (.app (closedDict_nil _))).trans
    (.app (closedDict_nil _))

/-- Every reference a program can make is to an existing dict object. (The replacement of abbreviations returns no reference it was not given.) -/
theorem closed_reachable {expand : List Val → HV → HV} (hexp : ∀ l v b, expand l v = .ref b → v = .ref b) {w : World} (hw : ReachableK expand w) :
    ReachableB expand w ∧ Closed w.heap := by
  induction hw with
  | init =>
    refine ⟨.init, ?_⟩
    intro a name b hb
    have : (World.init.heap.at_ a) = [] := by rw [DHeap.at_eq]; simp [World.init]
    rw [this] at hb
    cases hb
  | @step w w' op fuel _ hv hk he ih =>
    refine ⟨ih.1.step hv he, ?_⟩
    have hc := ih.2
    cases op with
    | dict d =>
      simp only [stepB, Option.some.injEq] at he; subst he
      exact hc.app (Spec.ClosedDict.mono hk (by omega))
    | builder =>
      simp only [stepB, Option.some.injEq] at he; subst he
      exact (newFactory_closed _).2 hc
    | defaults f slot kw =>
      simp only [stepB] at he
      split at he
      · simp at he
      · simp only [Option.map_eq_some_iff, DHeap.alloc] at he
        obtain ⟨h, e1, e2⟩ := he
        subst e2
        exact (setDefaultsH_closed _ _ _ _ _ _ e1).2 (hc.app (Spec.ClosedDict.mono hk (by omega)))
    | build f slot key args kw =>
      simp only [stepB] at he
      split at he
      · simp at he
      · split at he
        · simp at he
        · next kw' h ek =>
          simp only [Option.map_eq_some_iff] at he
          obtain ⟨r, e1, e2⟩ := he
          subst e2
          obtain ⟨a1, a2⟩ := applyKey_closed hk.1 ek
          exact (buildPattern_closed hexp (a2 hc) e1).2 (a1.2 hc)
    | chain f kw =>
      simp only [stepB] at he
      split at he
      · simp at he
      · split at he
        · simp at he
        · next h p eb =>
          simp only [Option.map_eq_some_iff] at he
          obtain ⟨r, e1, e2⟩ := he
          subst e2
          exact (inheritDefaults_closed e1).2 ((buildPattern_closed hexp hk eb).2 hc)
    | declareKeys f ks =>
      simp only [stepB] at he
      split at he
      · simp at he
      · simp only [Option.some.injEq] at he; subst he; exact hc
    | reset f =>
      simp only [stepB] at he
      split at he
      · simp at he
      · simp only [Option.some.injEq] at he; subst he
        exact (newFactory_closed _).2 hc

/-- **C101**, `chain(**kw)` as in `C101_chain_partial`, in every world a program can reach. -/
theorem C101_chain_known {expand : List Val → HV → HV} (hexp : ∀ l v b, expand l v = .ref b → v = .ref b) {fuel : Nat} {w w' : World} {f : Nat}
    {fac : Factory} {kw : HDict} (hw : ReachableK expand w) (hs : NoShared w (.chain f kw)) (hf : w.factories[f]? = some fac)
    (he : stepB expand fuel w (.chain f kw) = some w') :
    (∃ p, w'.patterns = w.patterns ++ [p] ∧ w.heap.length ≤ p.kwargs ∧
      BuiltWith (fun n => kw.get? n) (w.heap.at_ fac.chain) (w.heap.at_ fac.base) (Overridden kw) (w'.heap.at_ p.kwargs)) ∧
    ∃ part, w'.factories = w.factories ++ [part] ∧ part.keys = fac.keys ∧
      ∀ s, ∃ n, DeepCopy w.heap w'.heap n (fac.slot s) (part.slot s) :=
  C101_chain_partial (closed_reachable hexp hw).1 (closed_reachable hexp hw).2 hs hf he

/-- The world of `dictOps` is reached with existing dict objects only. -/
example : ∃ w, runB noExpand 9 World.init dictOps = some w ∧ ReachableK noExpand w := by
  refine ⟨_, rfl, ReachableK.step (fuel := 9) (op := dictOps[3]) (ReachableK.step (fuel := 9) (op := dictOps[2])
    (ReachableK.step (fuel := 9) (op := dictOps[1]) (ReachableK.step (fuel := 9) (op := dictOps[0]) .init ?_ ?_ rfl) ?_ ?_ rfl) trivial trivial rfl) ?_ ?_ rfl⟩
  · show List.Nodup _; decide
  · intro name b hb
    simp only [List.mem_cons, Prod.mk.injEq, List.not_mem_nil, or_false] at hb
    rcases hb with ⟨_, hb⟩ | ⟨_, hb⟩ <;> cases hb
  · show List.Nodup _; decide
  · intro name b hb
    simp only [List.mem_cons, Prod.mk.injEq, List.not_mem_nil, or_false] at hb
    rcases hb with ⟨_, hb⟩ | ⟨_, hb⟩ | ⟨_, hb⟩ <;> cases hb
  · show List.Nodup _; decide
  · intro name b hb
    simp only [List.mem_cons, Prod.mk.injEq, List.not_mem_nil, or_false] at hb
    rcases hb with ⟨_, hb⟩ | ⟨_, hb⟩
    · cases hb; decide +kernel
    · cases hb

end Rebulk
