import Verif.Props.Registry
/-!
# C92: default rules are not shared
-/
namespace Rebulk
open Spec
variable {Ctx : Type}

theorem loadRules_prefix (args : List RuleArg) (acc : List RuleObj) : acc <+: (loadRules args acc).1 := by
  rw [loadRules_append]
  exact List.prefix_append _ _

/-- A call that neither makes nor resets a `Rebulk` object leaves the rules of each, with others behind. -/
theorem step_grows {reg reg' : Reg Ctx} {op : ROp Ctx} {ret : RRet} (hs : reg.step op = some (reg', ret)) (h1 : ∀ d b, op ≠ .new d b)
    (h2 : ∀ r, op ≠ .reset r) : reg'.nextRule = reg.nextRule ∧ reg'.rebulks.length = reg.rebulks.length ∧
      ∀ (r : Nat) (o' : RObj Ctx), reg'.rebulks[r]? = some o' → ∃ o, reg.rebulks[r]? = some o ∧ o.rules <+: o'.rules := by
  have same : ∀ {x : Reg Ctx}, x.nextRule = reg.nextRule → x.rebulks = reg.rebulks → x.nextRule = reg.nextRule ∧ x.rebulks.length = reg.rebulks.length ∧
      ∀ (r : Nat) (o' : RObj Ctx), x.rebulks[r]? = some o' → ∃ o, reg.rebulks[r]? = some o ∧ o.rules <+: o'.rules := by
    intro x e1 e2
    refine ⟨e1, by rw [e2], fun r o' h => ⟨o', by rw [← e2]; exact h, List.prefix_rfl⟩⟩
  have put : ∀ {x : Reg Ctx} {r0 : Nat} {o n : RObj Ctx}, x.nextRule = reg.nextRule → x.rebulks = reg.rebulks.set r0 n → reg.rebulks[r0]? = some o →
      o.rules <+: n.rules → x.nextRule = reg.nextRule ∧ x.rebulks.length = reg.rebulks.length ∧
      ∀ (r : Nat) (o' : RObj Ctx), x.rebulks[r]? = some o' → ∃ o, reg.rebulks[r]? = some o ∧ o.rules <+: o'.rules := by
    intro x r0 o n e1 e2 e3 e4
    refine ⟨e1, by rw [e2, List.length_set], fun r o' h => ?_⟩
    rw [e2] at h
    rcases get_set_cases h with ⟨rfl, rfl, _⟩ | ⟨_, h⟩
    · exact ⟨o, e3, e4⟩
    · exact ⟨o', h, List.prefix_rfl⟩
  have adds : ∀ {c : Nat} {p : PatternObj Ctx}, reg.addPart c p = some (reg', ret) → reg'.nextRule = reg.nextRule ∧ reg'.rebulks = reg.rebulks := by
    intro c p h
    unfold Reg.addPart at h
    split at h
    · cases h
    · injection h with h; injection h with h _; subst h; exact ⟨rfl, rfl⟩
  have nests : ∀ {c : Nat} {args : ChainArgs Ctx}, reg.nestChain c args = some (reg', ret) → reg'.nextRule = reg.nextRule ∧ reg'.rebulks = reg.rebulks := by
    intro c p h
    unfold Reg.nestChain at h
    split at h
    · cases h
    · injection h with h; injection h with h _; subst h; exact ⟨rfl, rfl⟩
  have closes : ∀ {c : Nat}, reg.closeChain c = some (reg', ret) → reg'.nextRule = reg.nextRule ∧ reg'.rebulks = reg.rebulks := by
    intro c h
    unfold Reg.closeChain at h
    split at h
    · cases h
    · rw [Option.map_eq_some_iff] at h
      obtain ⟨_, _, h⟩ := h
      injection h with h _; subst h; exact ⟨rfl, rfl⟩
  have changes : ∀ {c k : Nat} {f : PartRec Ctx → PartRec Ctx}, reg.changePart c k f = some (reg', ret) → reg'.nextRule = reg.nextRule ∧ reg'.rebulks = reg.rebulks := by
    intro c k f h
    unfold Reg.changePart at h
    split at h
    · cases h
    · split at h
      · cases h
      · injection h with h; injection h with h _; subst h; exact ⟨rfl, rfl⟩
  have both : reg'.nextRule = reg.nextRule ∧ reg'.rebulks = reg.rebulks → reg'.nextRule = reg.nextRule ∧ reg'.rebulks.length = reg.rebulks.length ∧
      ∀ (r : Nat) (o' : RObj Ctx), reg'.rebulks[r]? = some o' → ∃ o, reg.rebulks[r]? = some o ∧ o.rules <+: o'.rules := fun h => same h.1 h.2
  cases op with
  | new d b => exact absurd rfl (h1 d b)
  | reset r => exact absurd rfl (h2 r)
  | pattern r ps =>
    simp only [Reg.step] at hs
    split at hs
    · obtain ⟨o, ho, hx⟩ := onRebulk_some hs
      injection hx with h1 _; subst h1
      exact put rfl rfl ho List.prefix_rfl
    · cases hs
  | rules r args =>
    simp only [Reg.step] at hs
    obtain ⟨o, ho, hx⟩ := onRebulk_some hs
    injection hx with h1 _; subst h1
    exact put rfl rfl ho (loadRules_prefix _ _)
  | rebulk r rs =>
    simp only [Reg.step] at hs
    split at hs
    · obtain ⟨o, ho, hx⟩ := onRebulk_some hs
      injection hx with h1 _; subst h1
      exact put rfl rfl ho List.prefix_rfl
    · cases hs
  | declareKeys r ks =>
    simp only [Reg.step] at hs
    obtain ⟨o, ho, hx⟩ := onRebulk_some hs
    injection hx with h1 _; subst h1
    exact put rfl rfl ho List.prefix_rfl
  | chain r args =>
    simp only [Reg.step] at hs
    obtain ⟨o, ho, hx⟩ := onRebulk_some hs
    injection hx with h1 _; subst h1
    exact put rfl rfl ho List.prefix_rfl
  | add c p => exact both (adds hs)
  | nest c args => exact both (nests hs)
  | close c => exact both (closes hs)
  | partAdd c k p =>
    simp only [Reg.step] at hs
    split at hs
    · exact both (adds hs)
    · cases hs
  | partChain c k args =>
    simp only [Reg.step] at hs
    split at hs
    · exact both (nests hs)
    · cases hs
  | repeater c k v => exact both (changes hs)
  | hidden c k b => exact both (changes hs)
  | partClose c k =>
    simp only [Reg.step] at hs
    split at hs
    · exact both (closes hs)
    · cases hs

/-- The objects whose default rules are wanted have their own, made for them. -/
structure OwnRules (reg : Reg Ctx) (h : History Ctx) (a : Nat → Nat) : Prop where
  made : ∀ r < reg.rebulks.length, a r + 2 ≤ reg.nextRule
  apart : ∀ r < reg.rebulks.length, ∀ r' < reg.rebulks.length, r ≠ r' → a r + 2 ≤ a r' ∨ a r' + 2 ≤ a r
  there : ∀ (r : Nat) (o : RObj Ctx), reg.rebulks[r]? = some o → ∀ d, startOf r h = some (d, true) →
    [conflictSolverRule (a r), privateRemoverRule (a r + 1)] <+: o.rules

/-- The rules of the object `r0` are made anew. -/
theorem own_anew {reg : Reg Ctx} {h : History Ctx} {a : Nat → Nat} (hi : OwnRules reg h a) {e : Event Ctx} {r0 : Nat} {l : List (RObj Ctx)}
    {disabled : Ctx → Bool} {dr : Bool} (hlen : ∀ r < l.length, r = r0 ∨ r < reg.rebulks.length) (hst : starts r0 e = true)
    (hdr : startOf r0 (h ++ [e]) = some (disabled, dr)) (hother : ∀ r, r ≠ r0 → starts r e = false)
    (hget : ∀ (r : Nat) (o : RObj Ctx), l[r]? = some o → (r = r0 ∧ o = RObj.init disabled dr reg.nextRule) ∨ (r ≠ r0 ∧ reg.rebulks[r]? = some o)) :
    ∃ a', OwnRules { reg with rebulks := l, nextRule := reg.nextRule + 2 } (h ++ [e]) a' := by
  refine ⟨fun r => if r = r0 then reg.nextRule else a r, ?_, ?_, ?_⟩
  · intro r hr
    show (if r = r0 then _ else _) + 2 ≤ reg.nextRule + 2
    rcases hlen r hr with h | h
    · rw [if_pos h]; exact Nat.le_refl _
    · split
      · exact Nat.le_refl _
      · have := hi.made r h; omega
  · intro r hr r' hr' hne
    show (if r = r0 then _ else _) + 2 ≤ (if r' = r0 then _ else _) ∨ (if r' = r0 then _ else _) + 2 ≤ (if r = r0 then _ else _)
    by_cases h1 : r = r0
    · have h2 : r' ≠ r0 := fun h => hne (h1.trans h.symm)
      rw [if_pos h1, if_neg h2]
      rcases hlen r' hr' with h | h
      · exact absurd h h2
      · exact .inr (hi.made r' h)
    · rw [if_neg h1]
      by_cases h2 : r' = r0
      · rw [if_pos h2]
        rcases hlen r hr with h | h
        · exact absurd h h1
        · exact .inl (hi.made r h)
      · rw [if_neg h2]
        rcases hlen r hr with h | h
        · exact absurd h h1
        · rcases hlen r' hr' with h' | h'
          · exact absurd h' h2
          · exact hi.apart r h r' h' hne
  · intro r o ho d hd
    show [conflictSolverRule (if r = r0 then _ else _), privateRemoverRule ((if r = r0 then _ else _) + 1)] <+: o.rules
    rcases hget r o ho with ⟨h1, h2⟩ | ⟨h1, h2⟩
    · subst h1
      rw [if_pos rfl, h2]
      rw [hdr] at hd
      injection hd with hd
      injection hd with _ hd
      subst hd
      exact List.prefix_rfl
    · rw [if_neg h1]
      rw [startOf_snoc r h e (hother r h1)] at hd
      exact hi.there r o h2 d hd

theorem own_step {reg reg' : Reg Ctx} {h : History Ctx} {a : Nat → Nat} (hi : OwnRules reg h a) {op : ROp Ctx} {ret : RRet}
    (hs : reg.step op = some (reg', ret)) : ∃ a', OwnRules reg' (h ++ [(op, ret)]) a' := by
  by_cases h1 : ∃ d b, op = .new d b
  · obtain ⟨d, b, rfl⟩ := h1
    unfold Reg.step at hs
    injection hs with hs
    injection hs with h1 h2
    subst h1 h2
    have hst : starts reg.rebulks.length ((ROp.new d b, RRet.rebulk reg.rebulks.length) : Event Ctx) = true := by simp [starts]
    refine own_anew (r0 := reg.rebulks.length) (disabled := d) (dr := b) hi ?_ hst (by rw [startOf_last _ _ _ hst]) ?_ ?_
    · intro r hr
      rw [List.length_append, List.length_singleton] at hr
      omega
    · intro r hr
      simp [starts]; omega
    · intro r o ho
      by_cases hr : r < reg.rebulks.length
      · rw [List.getElem?_append_left hr] at ho
        exact .inr ⟨by omega, ho⟩
      · rw [List.getElem?_append_right (Nat.le_of_not_lt hr)] at ho
        cases hz : r - reg.rebulks.length with
        | zero => rw [hz] at ho; injection ho with ho; exact .inl ⟨by omega, ho.symm⟩
        | succ n => rw [hz] at ho; cases ho
  · by_cases h2 : ∃ r, op = .reset r
    · obtain ⟨r0, rfl⟩ := h2
      simp only [Reg.step] at hs
      obtain ⟨o, ho, hx⟩ := onRebulk_some hs
      injection hx with h1 h2
      subst h1 h2
      have hst : starts r0 ((ROp.reset r0, RRet.nothing) : Event Ctx) = true := by simp [starts]
      refine own_anew (r0 := r0) (disabled := fun _ => false) (dr := true) hi ?_ hst (by rw [startOf_last _ _ _ hst]) ?_ ?_
      · intro r hr
        exact .inr (by simpa [Reg.setRebulk] using hr)
      · intro r hr
        simp [starts]; omega
      · intro r x hx
        rcases get_set_cases hx with ⟨rfl, rfl, _⟩ | ⟨hne, hx⟩
        · exact .inl ⟨rfl, rfl⟩
        · exact .inr ⟨fun e => hne e.symm, hx⟩
    · have n1 : ∀ d b, op ≠ .new d b := fun d b e => h1 ⟨d, b, e⟩
      have n2 : ∀ r, op ≠ .reset r := fun r e => h2 ⟨r, e⟩
      obtain ⟨g1, g2, g3⟩ := step_grows hs n1 n2
      refine ⟨a, ?_, ?_, ?_⟩
      · rw [g1, g2]; exact hi.made
      · rw [g2]; exact hi.apart
      · intro r o' ho d hd
        obtain ⟨o, k1, k2⟩ := g3 r o' ho
        rw [startOf_snoc r h _ (starts_ret n1 n2)] at hd
        exact (hi.there r o k1 d hd).trans k2

theorem own_run : ∀ (ops : List (ROp Ctx)) {reg reg' : Reg Ctx} {h log : History Ctx} {a : Nat → Nat}, OwnRules reg h a → reg.run ops = some (reg', log) →
    ∃ a', OwnRules reg' (h ++ log) a'
  | [], reg, reg', h, log, a, hi, hr => by
    injection hr with hr
    injection hr with h1 h2
    subst h1 h2
    rw [List.append_nil]
    exact ⟨a, hi⟩
  | op :: ops, reg, reg', h, log, a, hi, hr => by
    unfold Reg.run at hr
    split at hr
    · cases hr
    · rename_i r1 ret hs
      split at hr
      · cases hr
      · rename_i r2 log' hs'
        injection hr with hr
        injection hr with h1 h2
        subst h1 h2
        obtain ⟨a1, h1⟩ := own_step hi hs
        obtain ⟨a2, h2⟩ := own_run ops h1 hs'
        refine ⟨a2, ?_⟩
        rw [List.append_assoc] at h2
        exact h2

/-- **C92**, default rules: the default rules of an object are its own, made when it was made or last reset. Two `Rebulk` objects that have default rules have
different rule objects for them. -/
theorem C92_own_rules {ops : List (ROp Ctx)} {reg : Reg Ctx} {h : History Ctx} (hr : Reg.run {} ops = some (reg, h)) {r r' : Nat} {d d' : Ctx → Bool}
    (h1 : startOf r h = some (d, true)) (h2 : startOf r' h = some (d', true)) (hne : r ≠ r') {x x' : RebulkObj Ctx} (hx : reg.readRebulk r = some x)
    (hx' : reg.readRebulk r' = some x') : ∃ a b, x.rules.take 2 = [conflictSolverRule a, privateRemoverRule (a + 1)] ∧
      x'.rules.take 2 = [conflictSolverRule b, privateRemoverRule (b + 1)] ∧ ∀ u ∈ x.rules.take 2, ∀ v ∈ x'.rules.take 2, u.info.id ≠ v.info.id := by
  obtain ⟨a, ha⟩ := own_run ops (reg := {}) (h := []) (a := fun _ => 0) ⟨by simp, by simp, by simp⟩ hr
  rw [List.nil_append] at ha
  have rd : ∀ {r : Nat} {x : RebulkObj Ctx}, reg.readRebulk r = some x → ∃ o, reg.rebulks[r]? = some o ∧ x.rules = o.rules := by
    intro r x h
    unfold Reg.readRebulk Reg.readAlone at h
    cases ho : reg.rebulks[r]? with
    | none => rw [ho] at h; cases h
    | some o =>
      rw [ho] at h
      simp only at h
      cases hp : o.patterns.mapM (reg.read reg.chains.length) with
      | none => rw [hp] at h; cases h
      | some ps =>
        rw [hp] at h
        simp only [Option.map_some] at h
        rw [Option.map_eq_some_iff] at h
        obtain ⟨cs, _, rfl⟩ := h
        exact ⟨o, rfl, rfl⟩
  obtain ⟨o, e1, e2⟩ := rd hx
  obtain ⟨o', e1', e2'⟩ := rd hx'
  have p1 := ha.there r o e1 d h1
  have p2 := ha.there r' o' e1' d' h2
  have hl := (List.getElem?_eq_some_iff.1 e1).1
  have hl' := (List.getElem?_eq_some_iff.1 e1').1
  have t1 : x.rules.take 2 = [conflictSolverRule (a r), privateRemoverRule (a r + 1)] := by
    rw [e2]; exact (List.prefix_iff_eq_take.1 p1).symm
  have t2 : x'.rules.take 2 = [conflictSolverRule (a r'), privateRemoverRule (a r' + 1)] := by
    rw [e2']; exact (List.prefix_iff_eq_take.1 p2).symm
  refine ⟨a r, a r', t1, t2, ?_⟩
  rw [t1, t2]
  have hap := ha.apart r hl r' hl' hne
  intro u hu v hv
  simp only [List.mem_cons, List.not_mem_nil, or_false] at hu hv
  rcases hu with rfl | rfl <;> rcases hv with rfl | rfl <;> simp [conflictSolverRule, privateRemoverRule] <;> omega

/-- Two objects, one of them reset in between. -/
example : ∃ reg h x x', Reg.run (Ctx := Unit) {} [.new (fun _ => false) true, .new (fun _ => false) true, .reset 0] = some (reg, h) ∧
    reg.readRebulk 0 = some x ∧ reg.readRebulk 1 = some x' ∧ ∀ u ∈ x.rules.take 2, ∀ v ∈ x'.rules.take 2, u.info.id ≠ v.info.id := by
  refine ⟨_, _, _, _, rfl, rfl, rfl, ?_⟩
  obtain ⟨_, _, _, _, h⟩ := C92_own_rules (Ctx := Unit) (ops := [.new (fun _ => false) true, .new (fun _ => false) true, .reset 0]) rfl (r := 0) (r' := 1) rfl rfl
    (by simp) rfl rfl
  exact h

end Rebulk
