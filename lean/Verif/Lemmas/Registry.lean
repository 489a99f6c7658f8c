import Verif.Spec.Registry
import Verif.Lemmas.Py
/-!
# Invariants of registration
-/
namespace Rebulk
open Spec
variable {Ctx : Type}

/-! ## Histories -/

theorem afterLast_snoc (p : Event Ctx → Bool) (h : History Ctx) (e : Event Ctx) :
    afterLast p (h ++ [e]) = if p e = true then [] else afterLast p h ++ [e] := by
  unfold afterLast
  rw [List.reverse_append, List.reverse_singleton, List.singleton_append, List.takeWhile_cons]
  cases hp : p e <;> simp

theorem flatMap_snoc {α β : Type} (f : α → List β) (l : List α) (e : α) : (l ++ [e]).flatMap f = l.flatMap f ++ f e := by
  simp [List.flatMap_append]

theorem startOf_snoc (r : Nat) (h : History Ctx) (e : Event Ctx) (hs : starts r e = false) : startOf r (h ++ [e]) = startOf r h := by
  unfold startOf
  rw [List.reverse_append, List.reverse_singleton, List.singleton_append, List.find?_cons, hs]

theorem loadModule_append : ∀ (ms : List Member) (acc : List RuleObj), (loadModule ms acc).1 = acc ++ (loadModule ms []).1 ∧
    (loadModule ms acc).2 = (loadModule ms []).2
  | [], acc => ⟨by simp [loadModule], rfl⟩
  | m :: ms, acc => by
    unfold loadModule
    by_cases hm : m.own = true
    · rw [if_pos hm, if_pos hm]
      cases m.call with
      | error e => exact ⟨by simp, rfl⟩
      | ok r =>
        simp only [List.nil_append]
        have h1 := loadModule_append ms (acc ++ [r])
        have h2 := loadModule_append ms [r]
        exact ⟨by rw [h1.1, h2.1]; simp, by rw [h1.2, h2.2]⟩
    · rw [if_neg hm, if_neg hm]
      exact loadModule_append ms acc

theorem loadRules_append : ∀ (args : List RuleArg) (acc : List RuleObj), (loadRules args acc).1 = acc ++ (loadRules args []).1
  | [], acc => by simp [loadRules]
  | .module_ ms :: rest, acc => by
    have h1 := loadModule_append ms acc
    unfold loadRules
    rcases hx : loadModule ms acc with ⟨a, e⟩
    rcases hy : loadModule ms [] with ⟨a', e'⟩
    rw [hx, hy] at h1
    simp only at h1
    obtain ⟨h1, h2⟩ := h1
    subst h2
    cases e with
    | some e => exact h1
    | none =>
      simp only
      rw [loadRules_append rest a, loadRules_append rest a', h1, List.append_assoc]
  | .class_ make :: rest, acc => by
    unfold loadRules
    cases make with
    | error e => simp
    | ok r => simp only [List.nil_append]; rw [loadRules_append rest (acc ++ [r]), loadRules_append rest [r]]; simp
  | .object r :: rest, acc => by
    unfold loadRules
    simp only [List.nil_append]; rw [loadRules_append rest (acc ++ [r]), loadRules_append rest [r]]; simp

theorem keys_foldl (n : String) : ∀ (ks : List Key) (d : Dict String Key),
    (ks.foldl (fun d k => Dict.set d k.name k) d).get? n = ((ks.filter (fun k => k.name == n)).getLast?).or (d.get? n)
  | [], d => by simp
  | k :: ks, d => by
    rw [List.foldl_cons, keys_foldl n ks, Dict.get?_set]
    by_cases h : k.name = n
    · rw [if_pos h]
      rw [List.filter_cons_of_pos (by simpa using h), List.getLast?_cons]
      cases (ks.filter (fun k => k.name == n)).getLast? <;> rfl
    · rw [if_neg h, List.filter_cons_of_neg (by simpa using h)]

/-! ## `Rebulk` objects -/

/-- The object is what the history says. -/
structure RObjIs (h : History Ctx) (r : Nat) (o : RObj Ctx) : Prop where
  start : ∃ dr a, startOf r h = some (o.disabled, dr) ∧
    o.rules = (if dr then [conflictSolverRule a, privateRemoverRule (a + 1)] else []) ++ loaded ((life r h).flatMap (loads r))
  patterns : o.patterns = (life r h).flatMap (registers r)
  rebulks : o.rebulks = (life r h).flatMap (attaches r)
  keys : ∀ n, o.keys.get? n = (((life r h).flatMap (declares r)).filter (fun k => k.name == n)).getLast?

/-- The event is not about `r`. -/
structure NotAbout (r : Nat) (e : Event Ctx) : Prop where
  starts : starts r e = false
  registers : registers r e = []
  loads : loads r e = []
  attaches : attaches r e = []
  declares : declares r e = []

theorem life_snoc {r : Nat} {h : History Ctx} {e : Event Ctx} (hs : starts r e = false) : life r (h ++ [e]) = life r h ++ [e] := by
  unfold life
  rw [afterLast_snoc, if_neg (by rw [hs]; simp)]

theorem RObjIs.other {h : History Ctx} {r : Nat} {o : RObj Ctx} {e : Event Ctx} (ho : RObjIs h r o) (he : NotAbout r e) : RObjIs (h ++ [e]) r o := by
  obtain ⟨dr, a, h1, h2⟩ := ho.start
  refine ⟨⟨dr, a, by rw [startOf_snoc r h e he.starts]; exact h1, ?_⟩, ?_, ?_, ?_⟩
  · rw [life_snoc he.starts, flatMap_snoc, he.loads, List.append_nil]; exact h2
  · rw [life_snoc he.starts, flatMap_snoc, he.registers, List.append_nil]; exact ho.patterns
  · rw [life_snoc he.starts, flatMap_snoc, he.attaches, List.append_nil]; exact ho.rebulks
  · intro n; rw [life_snoc he.starts, flatMap_snoc, he.declares, List.append_nil]; exact ho.keys n

theorem robjIs_init {h : History Ctx} {r : Nat} {e : Event Ctx} {disabled : Ctx → Bool} {dr : Bool} (hs : starts r e = true)
    (hst : startOf r (h ++ [e]) = some (disabled, dr)) (next : Nat) : RObjIs (h ++ [e]) r (RObj.init disabled dr next) := by
  have hl : life r (h ++ [e]) = [] := by
    unfold life
    rw [afterLast_snoc, if_pos hs]
  refine ⟨⟨dr, next, hst, ?_⟩, by rw [hl]; rfl, by rw [hl]; rfl, by rw [hl]; intro n; rfl⟩
  rw [hl]
  cases dr <;> rfl

theorem startOf_last (r : Nat) (h : History Ctx) (e : Event Ctx) (hs : starts r e = true) :
    startOf r (h ++ [e]) = match (some e : Option (Event Ctx)) with | some (.new disabled dr, _) => some (disabled, dr) | some (.reset _, _) => some (fun _ => false, true) | _ => none := by
  unfold startOf
  rw [List.reverse_append, List.reverse_singleton, List.singleton_append, List.find?_cons, hs]
  rfl

/-- All `Rebulk` objects are what the history says. -/
structure RebulksInv (reg : Reg Ctx) (h : History Ctx) : Prop where
  each : ∀ r o, reg.rebulks[r]? = some o → RObjIs h r o
  patterns : ∀ (r : Nat) (o : RObj Ctx), reg.rebulks[r]? = some o → ∀ c, PRef.chain c ∈ o.patterns → c < reg.chains.length
  rebulks : ∀ (r : Nat) (o : RObj Ctx), reg.rebulks[r]? = some o → ∀ c ∈ o.rebulks, c < reg.rebulks.length

theorem onRebulk_some {reg : Reg Ctx} {r : Nat} {f : RObj Ctx → Reg Ctx × RRet} {x : Reg Ctx × RRet} (h : reg.onRebulk r f = some x) :
    ∃ o, reg.rebulks[r]? = some o ∧ x = f o := by
  unfold Reg.onRebulk at h
  cases ho : reg.rebulks[r]? with
  | none => rw [ho] at h; cases h
  | some o => rw [ho] at h; injection h with h; exact ⟨o, rfl, h.symm⟩

theorem get_set_cases {α : Type} {l : List α} {i j : Nat} {a x : α} (h : (l.set i a)[j]? = some x) : (i = j ∧ x = a ∧ i < l.length) ∨ (i ≠ j ∧ l[j]? = some x) := by
  by_cases hij : i = j
  · subst hij
    by_cases hl : i < l.length
    · rw [List.getElem?_set_self hl] at h
      injection h with h
      exact .inl ⟨rfl, h.symm, hl⟩
    · rw [List.getElem?_eq_none (by simpa using Nat.le_of_not_lt hl)] at h; cases h
  · rw [List.getElem?_set_ne hij] at h
    exact .inr ⟨hij, h⟩

/-- A call that changes the object `r0` only. -/
theorem rebulksInv_set {reg : Reg Ctx} {h : History Ctx} (hi : RebulksInv reg h) {e : Event Ctx} {r0 : Nat} {o o' : RObj Ctx}
    (ho : reg.rebulks[r0]? = some o) (hother : ∀ r, r ≠ r0 → NotAbout r e) (hself : RObjIs (h ++ [e]) r0 o')
    (chains' : List (ChainRec Ctx)) (hch : reg.chains.length ≤ chains'.length) (next : Nat)
    (hp : ∀ c, PRef.chain c ∈ o'.patterns → PRef.chain c ∈ o.patterns ∨ c < chains'.length)
    (hr : ∀ c ∈ o'.rebulks, c ∈ o.rebulks ∨ c < reg.rebulks.length) :
    RebulksInv { rebulks := reg.rebulks.set r0 o', chains := chains', nextRule := next } (h ++ [e]) := by
  refine ⟨?_, ?_, ?_⟩
  · intro r x hx
    rcases get_set_cases hx with ⟨rfl, rfl, _⟩ | ⟨hne, hx⟩
    · exact hself
    · exact (hi.each r x hx).other (hother r (fun e => hne e.symm))
  · intro r x hx c hc
    rcases get_set_cases hx with ⟨rfl, rfl, _⟩ | ⟨hne, hx⟩
    · rcases hp c hc with hc | hc
      · exact Nat.lt_of_lt_of_le (hi.patterns _ o ho c hc) hch
      · exact hc
    · exact Nat.lt_of_lt_of_le (hi.patterns r x hx c hc) hch
  · intro r x hx c hc
    simp only [List.length_set]
    rcases get_set_cases hx with ⟨rfl, rfl, _⟩ | ⟨hne, hx⟩
    · rcases hr c hc with hc | hc
      · exact hi.rebulks _ o ho c hc
      · exact hc
    · exact hi.rebulks r x hx c hc

/-- A call about a chain. -/
theorem rebulksInv_chain {reg : Reg Ctx} {h : History Ctx} (hi : RebulksInv reg h) {e : Event Ctx} (he : ∀ r, NotAbout r e)
    (chains' : List (ChainRec Ctx)) (hch : reg.chains.length ≤ chains'.length) (next : Nat) :
    RebulksInv { rebulks := reg.rebulks, chains := chains', nextRule := next } (h ++ [e]) :=
  ⟨fun r o ho => (hi.each r o ho).other (he r), fun r o ho c hc => Nat.lt_of_lt_of_le (hi.patterns r o ho c hc) hch, hi.rebulks⟩

theorem starts_ret {r : Nat} {op : ROp Ctx} {ret : RRet} (h1 : ∀ d b, op ≠ .new d b) (h2 : ∀ r, op ≠ .reset r) : starts r (op, ret) = false := by
  cases op <;> first | rfl | (exact absurd rfl (h1 _ _)) | (exact absurd rfl (h2 _))

theorem rebulksInv_step {reg reg' : Reg Ctx} {h : History Ctx} (hi : RebulksInv reg h) {op : ROp Ctx} {ret : RRet}
    (hs : reg.step op = some (reg', ret)) : RebulksInv reg' (h ++ [(op, ret)]) := by
  have getlt : ∀ {r : Nat} {o : RObj Ctx}, reg.rebulks[r]? = some o → r < reg.rebulks.length := by
    intro r o ho
    exact (List.getElem?_eq_some_iff.1 ho).1
  cases op with
  | new disabled dr =>
    unfold Reg.step at hs
    injection hs with hs
    injection hs with h1 h2
    subst h1 h2
    refine ⟨?_, ?_, ?_⟩
    · intro r o ho
      by_cases hr : r < reg.rebulks.length
      · rw [List.getElem?_append_left hr] at ho
        refine (hi.each r o ho).other ⟨?_, rfl, rfl, rfl, rfl⟩
        simp [starts]; omega
      · rw [List.getElem?_append_right (Nat.le_of_not_lt hr)] at ho
        have hz : r - reg.rebulks.length = 0 := by
          rcases Nat.eq_zero_or_pos (r - reg.rebulks.length) with hz | hz
          · exact hz
          · rw [List.getElem?_eq_none (by simp; omega)] at ho; cases ho
        rw [hz] at ho
        injection ho with ho; subst ho
        have hr' : reg.rebulks.length = r := by omega
        have hst : starts r ((ROp.new disabled dr, RRet.rebulk reg.rebulks.length) : Event Ctx) = true := by simp [starts, hr']
        refine robjIs_init hst ?_ _
        rw [startOf_last _ _ _ hst]
    · intro r o ho c hc
      by_cases hr : r < reg.rebulks.length
      · rw [List.getElem?_append_left hr] at ho
        exact hi.patterns r o ho c hc
      · rw [List.getElem?_append_right (Nat.le_of_not_lt hr)] at ho
        cases hz : r - reg.rebulks.length with
        | zero => rw [hz] at ho; injection ho with ho; subst ho; cases hc
        | succ n => rw [hz] at ho; cases ho
    · intro r o ho c hc
      simp only [List.length_append, List.length_singleton]
      by_cases hr : r < reg.rebulks.length
      · rw [List.getElem?_append_left hr] at ho
        have := hi.rebulks r o ho c hc
        omega
      · rw [List.getElem?_append_right (Nat.le_of_not_lt hr)] at ho
        cases hz : r - reg.rebulks.length with
        | zero => rw [hz] at ho; injection ho with ho; subst ho; cases hc
        | succ n => rw [hz] at ho; cases ho
  | pattern r ps =>
    simp only [Reg.step] at hs
    split at hs
    · next hall =>
      obtain ⟨o, ho, hx⟩ := onRebulk_some hs
      injection hx with h1 h2
      subst h1 h2
      have hst : starts r ((ROp.pattern r ps, RRet.rebulk r) : Event Ctx) = false := rfl
      have hs0 := hi.each r o ho
      obtain ⟨dr, a, q1, q2⟩ := hs0.start
      refine rebulksInv_set hi ho ?_ ?_ _ (Nat.le_refl _) _ ?_ ?_
      · intro r' hr'
        exact ⟨rfl, if_neg (fun e => hr' e.symm), rfl, rfl, rfl⟩
      · refine ⟨⟨dr, a, by rw [startOf_snoc _ _ _ hst]; exact q1, ?_⟩, ?_, ?_, ?_⟩
        · rw [life_snoc hst, flatMap_snoc]; simpa [loads] using q2
        · rw [life_snoc hst, flatMap_snoc]; simp [registers, hs0.patterns]
        · rw [life_snoc hst, flatMap_snoc]; simpa [attaches] using hs0.rebulks
        · intro n; rw [life_snoc hst, flatMap_snoc]; simpa [declares] using hs0.keys n
      · intro c hc
        rcases List.mem_append.1 hc with hc | hc
        · exact .inl hc
        · have := List.all_eq_true.1 hall _ hc
          exact .inr (by simpa [Reg.exists_] using this)
      · intro c hc; exact .inl hc
    · cases hs
  | rules r args =>
    simp only [Reg.step] at hs
    obtain ⟨o, ho, hx⟩ := onRebulk_some hs
    injection hx with h1 h2
    subst h1
    clear h2
    have hst : starts r ((ROp.rules r args, ret) : Event Ctx) = false := rfl
    have hs0 := hi.each r o ho
    obtain ⟨dr, a, q1, q2⟩ := hs0.start
    refine rebulksInv_set hi ho ?_ ?_ _ (Nat.le_refl _) _ (fun c hc => .inl hc) (fun c hc => .inl hc)
    · intro r' hr'
      exact ⟨rfl, rfl, if_neg (fun e => hr' e.symm), rfl, rfl⟩
    · refine ⟨⟨dr, a, by rw [startOf_snoc _ _ _ hst]; exact q1, ?_⟩, ?_, ?_, ?_⟩
      · rw [life_snoc hst, flatMap_snoc]
        show (loadRules args o.rules).1 = _
        rw [loadRules_append, q2]
        simp [loads, loaded, List.flatMap_append]
      · rw [life_snoc hst, flatMap_snoc]; simpa [registers] using hs0.patterns
      · rw [life_snoc hst, flatMap_snoc]; simpa [attaches] using hs0.rebulks
      · intro n; rw [life_snoc hst, flatMap_snoc]; simpa [declares] using hs0.keys n
  | rebulk r rs =>
    simp only [Reg.step] at hs
    split at hs
    · next hall =>
      obtain ⟨o, ho, hx⟩ := onRebulk_some hs
      injection hx with h1 h2
      subst h1 h2
      have hst : starts r ((ROp.rebulk r rs, RRet.rebulk r) : Event Ctx) = false := rfl
      have hs0 := hi.each r o ho
      obtain ⟨dr, a, q1, q2⟩ := hs0.start
      refine rebulksInv_set hi ho ?_ ?_ _ (Nat.le_refl _) _ (fun c hc => .inl hc) ?_
      · intro r' hr'
        exact ⟨rfl, rfl, rfl, if_neg (fun e => hr' e.symm), rfl⟩
      · refine ⟨⟨dr, a, by rw [startOf_snoc _ _ _ hst]; exact q1, ?_⟩, ?_, ?_, ?_⟩
        · rw [life_snoc hst, flatMap_snoc]; simpa [loads] using q2
        · rw [life_snoc hst, flatMap_snoc]; simpa [registers] using hs0.patterns
        · rw [life_snoc hst, flatMap_snoc]; simp [attaches, hs0.rebulks]
        · intro n; rw [life_snoc hst, flatMap_snoc]; simpa [declares] using hs0.keys n
      · intro c hc
        rcases List.mem_append.1 hc with hc | hc
        · exact .inl hc
        · exact .inr (by simpa using List.all_eq_true.1 hall _ hc)
    · cases hs
  | declareKeys r ks =>
    simp only [Reg.step] at hs
    obtain ⟨o, ho, hx⟩ := onRebulk_some hs
    injection hx with h1 h2
    subst h1 h2
    have hst : starts r ((ROp.declareKeys r ks, RRet.rebulk r) : Event Ctx) = false := rfl
    have hs0 := hi.each r o ho
    obtain ⟨dr, a, q1, q2⟩ := hs0.start
    refine rebulksInv_set hi ho ?_ ?_ _ (Nat.le_refl _) _ (fun c hc => .inl hc) (fun c hc => .inl hc)
    · intro r' hr'
      exact ⟨rfl, rfl, rfl, rfl, if_neg (fun e => hr' e.symm)⟩
    · refine ⟨⟨dr, a, by rw [startOf_snoc _ _ _ hst]; exact q1, ?_⟩, ?_, ?_, ?_⟩
      · rw [life_snoc hst, flatMap_snoc]; simpa [loads] using q2
      · rw [life_snoc hst, flatMap_snoc]; simpa [registers] using hs0.patterns
      · rw [life_snoc hst, flatMap_snoc]; simpa [attaches] using hs0.rebulks
      · intro n
        show (ks.foldl (fun d k => Dict.set d k.name k) o.keys).get? n = _
        rw [life_snoc hst, flatMap_snoc, keys_foldl, hs0.keys n]
        simp [declares, List.filter_append, List.getLast?_append]
  | chain r args =>
    simp only [Reg.step] at hs
    obtain ⟨o, ho, hx⟩ := onRebulk_some hs
    injection hx with h1 h2
    subst h1 h2
    have hst : starts r ((ROp.chain r args, RRet.builder reg.chains.length) : Event Ctx) = false := rfl
    have hs0 := hi.each r o ho
    obtain ⟨dr, a, q1, q2⟩ := hs0.start
    refine rebulksInv_set hi ho ?_ ?_ _ (by simp) _ ?_ (fun c hc => .inl hc)
    · intro r' hr'
      exact ⟨rfl, if_neg (fun e => hr' e.symm), rfl, rfl, rfl⟩
    · refine ⟨⟨dr, a, by rw [startOf_snoc _ _ _ hst]; exact q1, ?_⟩, ?_, ?_, ?_⟩
      · rw [life_snoc hst, flatMap_snoc]; simpa [loads] using q2
      · rw [life_snoc hst, flatMap_snoc]; simp [registers, hs0.patterns]
      · rw [life_snoc hst, flatMap_snoc]; simpa [attaches] using hs0.rebulks
      · intro n; rw [life_snoc hst, flatMap_snoc]; simpa [declares] using hs0.keys n
    · intro c hc
      rcases List.mem_append.1 hc with hc | hc
      · exact .inl hc
      · rw [List.mem_singleton] at hc
        injection hc with hc
        exact .inr (by simp [hc])
  | reset r =>
    simp only [Reg.step] at hs
    obtain ⟨o, ho, hx⟩ := onRebulk_some hs
    injection hx with h1 h2
    subst h1 h2
    have hst : starts r ((ROp.reset r, RRet.nothing) : Event Ctx) = true := by simp [starts]
    refine rebulksInv_set hi ho ?_ ?_ _ (Nat.le_refl _) _ (fun c hc => by cases hc) (fun c hc => by cases hc)
    · intro r' hr'
      exact ⟨by simp [starts]; exact fun e => hr' e.symm, rfl, rfl, rfl, rfl⟩
    · refine robjIs_init hst ?_ _
      rw [startOf_last _ _ _ hst]
  | add c p =>
    simp only [Reg.step, Reg.addPart] at hs
    split at hs
    · cases hs
    · injection hs with hs; injection hs with h1 h2; subst h1 h2
      exact rebulksInv_chain hi (fun _ => ⟨rfl, rfl, rfl, rfl, rfl⟩) _ (by simp) _
  | nest c args =>
    simp only [Reg.step, Reg.nestChain] at hs
    split at hs
    · cases hs
    · injection hs with hs; injection hs with h1 h2; subst h1 h2
      exact rebulksInv_chain hi (fun _ => ⟨rfl, rfl, rfl, rfl, rfl⟩) _ (by simp) _
  | close c =>
    simp only [Reg.step, Reg.closeChain] at hs
    split at hs
    · cases hs
    · rw [Option.map_eq_some_iff] at hs
      obtain ⟨x, _, hs⟩ := hs
      injection hs with h1 h2; subst h1 h2
      exact rebulksInv_chain hi (fun _ => ⟨rfl, rfl, rfl, rfl, rfl⟩) _ (Nat.le_refl _) _
  | partAdd c k p =>
    simp only [Reg.step, Reg.addPart] at hs
    split at hs
    · split at hs
      · cases hs
      · injection hs with hs; injection hs with h1 h2; subst h1 h2
        exact rebulksInv_chain hi (fun _ => ⟨rfl, rfl, rfl, rfl, rfl⟩) _ (by simp) _
    · cases hs
  | partChain c k args =>
    simp only [Reg.step, Reg.nestChain] at hs
    split at hs
    · split at hs
      · cases hs
      · injection hs with hs; injection hs with h1 h2; subst h1 h2
        exact rebulksInv_chain hi (fun _ => ⟨rfl, rfl, rfl, rfl, rfl⟩) _ (by simp) _
    · cases hs
  | repeater c k v =>
    simp only [Reg.step, Reg.changePart] at hs
    split at hs
    · cases hs
    · split at hs
      · cases hs
      · injection hs with hs; injection hs with h1 h2; subst h1 h2
        exact rebulksInv_chain hi (fun _ => ⟨rfl, rfl, rfl, rfl, rfl⟩) _ (by simp) _
  | hidden c k b =>
    simp only [Reg.step, Reg.changePart] at hs
    split at hs
    · cases hs
    · split at hs
      · cases hs
      · injection hs with hs; injection hs with h1 h2; subst h1 h2
        exact rebulksInv_chain hi (fun _ => ⟨rfl, rfl, rfl, rfl, rfl⟩) _ (by simp) _
  | partClose c k =>
    simp only [Reg.step, Reg.closeChain] at hs
    split at hs
    · split at hs
      · cases hs
      · rw [Option.map_eq_some_iff] at hs
        obtain ⟨x, _, hs⟩ := hs
        injection hs with h1 h2; subst h1 h2
        exact rebulksInv_chain hi (fun _ => ⟨rfl, rfl, rfl, rfl, rfl⟩) _ (Nat.le_refl _) _
    · cases hs

end Rebulk
