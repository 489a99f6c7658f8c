import Verif.Lemmas.RegistryChains
import Verif.Props.RebulkSimple
/-!
# Registration (`C92`–`C94`, and `C71`, `C74` for what calls have built)
-/
namespace Rebulk
open Spec
variable {Ctx : Type}

theorem readParts_depicts {h : History Ctx} {c : Nat} {rd : PRef Ctx → Option (PatternObj Ctx)} : ∀ (parts : List (PartRec Ctx)) (k : Nat),
    (∀ p ∈ parts, ∃ q, rd p.pattern = some q ∧ Depicts h p.pattern q) →
    (∀ i p, parts[i]? = some p → p.start = (repeatedPart (h.flatMap (repeats c (k + i)))).start ∧
      p.stop = (repeatedPart (h.flatMap (repeats c (k + i)))).stop ∧ p.hidden = lastOr false (h.flatMap (hides c (k + i)))) →
    ∃ ps, Reg.readParts rd parts = some ps ∧ DepictsParts h c k (parts.map PartRec.pattern) ps
  | [], k, _, _ => ⟨.nil, rfl, .nil⟩
  | p :: parts, k, h1, h2 => by
    obtain ⟨q, hq, hd⟩ := h1 p List.mem_cons_self
    obtain ⟨ps, hps, hds⟩ := readParts_depicts (c := c) parts (k + 1) (fun x hx => h1 x (List.mem_cons_of_mem _ hx)) (by
      intro i x hx
      have := h2 (i + 1) x (by simpa using hx)
      rwa [show k + (i + 1) = k + 1 + i by omega] at this)
    obtain ⟨t1, t2, t3⟩ := h2 0 p rfl
    refine ⟨.cons q p.start p.stop p.hidden ps, ?_, ?_⟩
    · unfold Reg.readParts
      rw [hq, hps]
    · rw [t1, t2, t3, List.map_cons]
      exact .cons hd hds

theorem read_depicts {reg : Reg Ctx} {h : History Ctx} (hi : ChainsInv reg h) : ∀ (fuel : Nat) (p : PRef Ctx),
    (∀ c, p = .chain c → c < reg.chains.length ∧ reg.chains.length ≤ c + fuel) → ∃ q, reg.read fuel p = some q ∧ Depicts h p q
  | fuel, .leaf p, _ => ⟨p, by cases fuel <;> rfl, .leaf⟩
  | 0, .chain c, hc => by have := hc c rfl; omega
  | fuel + 1, .chain c, hc => by
    obtain ⟨h1, h2⟩ := hc c rfl
    have hx : reg.chains[c]? = some reg.chains[c] := List.getElem?_eq_getElem h1
    generalize reg.chains[c] = ch at hx
    have hch := hi.each c ch hx
    obtain ⟨ps, hps, hds⟩ := readParts_depicts (h := h) (c := c) (rd := reg.read fuel) ch.parts 0 (by
      intro p hp
      refine read_depicts hi fuel p.pattern ?_
      intro d hd
      have := hi.parts c ch hx p hp d hd
      omega) (by
      intro i p hp
      rw [Nat.zero_add]
      exact hch.told i p hp)
    refine ⟨_, ?_, .chain hch.opened (hch.parts ▸ hds)⟩
    unfold Reg.read
    rw [hx]
    simp only
    rw [hps]
    rfl

theorem mapM_each {α β : Type} {f : α → Option β} {R : α → β → Prop} : ∀ (l : List α), (∀ a ∈ l, ∃ b, f a = some b ∧ R a b) →
    ∃ bs, l.mapM f = some bs ∧ Each R l bs
  | [], _ => ⟨[], rfl, .nil⟩
  | a :: l, h => by
    obtain ⟨b, hb, hr⟩ := h a List.mem_cons_self
    obtain ⟨bs, hbs, hrs⟩ := mapM_each l (fun x hx => h x (List.mem_cons_of_mem _ hx))
    refine ⟨b :: bs, ?_, .cons hr hrs⟩
    rw [List.mapM_cons, hb, hbs]
    rfl

theorem readAlone_depicts {reg : Reg Ctx} {h : History Ctx} (h1 : RebulksInv reg h) (h2 : ChainsInv reg h) {r : Nat} (hr : r < reg.rebulks.length) :
    ∃ x, reg.readAlone r = some x ∧ DepictsAlone h r x := by
  have hx : reg.rebulks[r]? = some reg.rebulks[r] := List.getElem?_eq_getElem hr
  generalize reg.rebulks[r] = o at hx
  have ho := h1.each r o hx
  obtain ⟨ps, hps, hd⟩ := mapM_each (f := reg.read reg.chains.length) (R := Depicts h) o.patterns (by
    intro p hp
    refine read_depicts h2 _ p ?_
    rintro c rfl
    have := h1.patterns r o hx c hp
    omega)
  refine ⟨{ disabled := o.disabled, patterns := ps, rules := o.rules, keys := o.keys, children := [] }, ?_, ho.start, ?_, ho.keys⟩
  · unfold Reg.readAlone
    rw [hx]
    simp only
    rw [hps]
    rfl
  · rw [← ho.patterns]; exact hd

theorem made_lt : ∀ (ops : List (ROp Ctx)) (reg reg' : Reg Ctx) (log : History Ctx), reg.run ops = some (reg', log) →
    reg.rebulks.length ≤ reg'.rebulks.length ∧ ∀ d b r, (ROp.new d b, RRet.rebulk r) ∈ log → r < reg'.rebulks.length
  | [], reg, reg', log, hr => by
    unfold Reg.run at hr
    injection hr with hr; injection hr with a b; subst a b
    exact ⟨Nat.le_refl _, fun d b r hm => by cases hm⟩
  | op :: ops, reg, reg', log, hr => by
    unfold Reg.run at hr
    split at hr
    · cases hr
    · next reg1 ret hs =>
      split at hr
      · cases hr
      · next reg2 log2 hr2 =>
        injection hr with hr; injection hr with a b; subst a b
        obtain ⟨h1, h2⟩ := made_lt ops reg1 reg2 log2 hr2
        have hstep : reg.rebulks.length ≤ reg1.rebulks.length ∧ ∀ d b r, (ROp.new d b, RRet.rebulk r) = (op, ret) → r < reg1.rebulks.length := by
          cases op with
          | new d b =>
            unfold Reg.step at hs
            injection hs with hs; injection hs with x y; subst x y
            refine ⟨by simp, ?_⟩
            intro d' b' r' he
            injection he with _ he; injection he with he; subst he
            simp
          | pattern r ps =>
            simp only [Reg.step] at hs
            split at hs
            · obtain ⟨o, ho, hx⟩ := onRebulk_some hs
              injection hx with x y; subst x
              exact ⟨by simp [Reg.setRebulk], fun _ _ _ he => by cases he⟩
            · cases hs
          | rules r args =>
            simp only [Reg.step] at hs
            obtain ⟨o, ho, hx⟩ := onRebulk_some hs
            injection hx with x y; subst x
            exact ⟨by simp [Reg.setRebulk], fun _ _ _ he => by injection he with he _; cases he⟩
          | rebulk r rs =>
            simp only [Reg.step] at hs
            split at hs
            · obtain ⟨o, ho, hx⟩ := onRebulk_some hs
              injection hx with x y; subst x
              exact ⟨by simp [Reg.setRebulk], fun _ _ _ he => by cases he⟩
            · cases hs
          | declareKeys r ks =>
            simp only [Reg.step] at hs
            obtain ⟨o, ho, hx⟩ := onRebulk_some hs
            injection hx with x y; subst x
            exact ⟨by simp [Reg.setRebulk], fun _ _ _ he => by injection he with he _; cases he⟩
          | chain r args =>
            simp only [Reg.step] at hs
            obtain ⟨o, ho, hx⟩ := onRebulk_some hs
            injection hx with x y; subst x
            exact ⟨by simp [Reg.setRebulk], fun _ _ _ he => by injection he with he _; cases he⟩
          | reset r =>
            simp only [Reg.step] at hs
            obtain ⟨o, ho, hx⟩ := onRebulk_some hs
            injection hx with x y; subst x
            exact ⟨by simp [Reg.setRebulk], fun _ _ _ he => by injection he with he _; cases he⟩
          | add c p =>
            simp only [Reg.step, Reg.addPart] at hs
            split at hs
            · cases hs
            · injection hs with hs; injection hs with x y; subst x
              exact ⟨Nat.le_refl _, fun _ _ _ he => by injection he with he _; cases he⟩
          | nest c args =>
            simp only [Reg.step, Reg.nestChain] at hs
            split at hs
            · cases hs
            · injection hs with hs; injection hs with x y; subst x
              exact ⟨Nat.le_refl _, fun _ _ _ he => by injection he with he _; cases he⟩
          | close c =>
            simp only [Reg.step, Reg.closeChain] at hs
            split at hs
            · cases hs
            · rw [Option.map_eq_some_iff] at hs
              obtain ⟨w, _, hs⟩ := hs
              injection hs with x y; subst x
              exact ⟨Nat.le_refl _, fun _ _ _ he => by injection he with he _; cases he⟩
          | partAdd c k p =>
            simp only [Reg.step, Reg.addPart] at hs
            split at hs
            · split at hs
              · cases hs
              · injection hs with hs; injection hs with x y; subst x
                exact ⟨Nat.le_refl _, fun _ _ _ he => by injection he with he _; cases he⟩
            · cases hs
          | partChain c k args =>
            simp only [Reg.step, Reg.nestChain] at hs
            split at hs
            · split at hs
              · cases hs
              · injection hs with hs; injection hs with x y; subst x
                exact ⟨Nat.le_refl _, fun _ _ _ he => by injection he with he _; cases he⟩
            · cases hs
          | repeater c k v =>
            simp only [Reg.step, Reg.changePart] at hs
            split at hs
            · cases hs
            · split at hs
              · cases hs
              · injection hs with hs; injection hs with x y; subst x
                exact ⟨Nat.le_refl _, fun _ _ _ he => by injection he with he _; cases he⟩
          | hidden c k b =>
            simp only [Reg.step, Reg.changePart] at hs
            split at hs
            · cases hs
            · split at hs
              · cases hs
              · injection hs with hs; injection hs with x y; subst x
                exact ⟨Nat.le_refl _, fun _ _ _ he => by injection he with he _; cases he⟩
          | partClose c k =>
            simp only [Reg.step, Reg.closeChain] at hs
            split at hs
            · split at hs
              · cases hs
              · rw [Option.map_eq_some_iff] at hs
                obtain ⟨w, _, hs⟩ := hs
                injection hs with x y; subst x
                exact ⟨Nat.le_refl _, fun _ _ _ he => by injection he with he _; cases he⟩
            · cases hs
        refine ⟨Nat.le_trans hstep.1 h1, ?_⟩
        intro d b r hm
        rcases List.mem_cons.1 hm with hm | hm
        · exact Nat.lt_of_lt_of_le (hstep.2 d b r hm) h1
        · exact h2 d b r hm

/-- **C92**: after any sequence of calls, each `Rebulk` object made is, when it is used, what the calls said: the patterns registered on it since it was made or
last reset, in order; the chains with the parts added to them, in order, each with its repeater and hidden as last told; the default rules if asked for, then
the rules loaded; for each name the key last declared; and the objects attached to it, as they are now. -/
theorem C92 {ops : List (ROp Ctx)} {reg : Reg Ctx} {h : History Ctx} (hr : Reg.run {} ops = some (reg, h)) {r : Nat} {d : Ctx → Bool} {b : Bool}
    (hm : (ROp.new d b, RRet.rebulk r) ∈ h) : ∃ x, reg.readRebulk r = some x ∧ DepictsRebulk h r x := by
  obtain ⟨h1, h2⟩ := built_inv hr
  have hlt := (made_lt ops {} reg h hr).2 d b r hm
  obtain ⟨x, hx, hd⟩ := readAlone_depicts h1 h2 hlt
  have ho : reg.rebulks[r]? = some reg.rebulks[r] := List.getElem?_eq_getElem hlt
  generalize reg.rebulks[r] = o at ho
  obtain ⟨cs, hcs, hds⟩ := mapM_each (f := reg.readAlone) (R := DepictsAlone h) o.rebulks
    (fun c hc => readAlone_depicts h1 h2 (h1.rebulks r o ho c hc))
  refine ⟨{ x with children := cs }, ?_, ⟨hd.start, hd.patterns, hd.keys⟩, ?_⟩
  · unfold Reg.readRebulk
    rw [ho, hx]
    simp only
    rw [hcs]
    rfl
  · rw [← (h1.each r o ho).rebulks]; exact hds

mutual
theorem depicts_unique {h : History Ctx} : ∀ {p : PRef Ctx} {a b : PatternObj Ctx}, Depicts h p a → Depicts h p b → a = b
  | _, _, _, .leaf, .leaf => rfl
  | _, _, _, .chain h1 h2, .chain h3 h4 => by
    rw [h1] at h3
    injection h3 with h3
    subst h3
    rw [depictsParts_unique h2 h4]
theorem depictsParts_unique {h : History Ctx} : ∀ {c k : Nat} {ps : List (PRef Ctx)} {a b : PartObjs Ctx}, DepictsParts h c k ps a → DepictsParts h c k ps b → a = b
  | _, _, _, _, _, .nil, .nil => rfl
  | _, _, _, _, _, .cons h1 h2, .cons h3 h4 => by
    rw [depicts_unique h1 h3, depictsParts_unique h2 h4]
end

theorem each_unique {α β : Type} {R : α → β → Prop} (hR : ∀ a b c, R a b → R a c → b = c) {l : List α} {x y : List β} (h1 : Each R l x) (h2 : Each R l y) : x = y := by
  induction h1 generalizing y with
  | nil => cases h2; rfl
  | cons ha _ ih => cases h2 with | cons hb ht => rw [hR _ _ _ ha hb, ih ht]

/-- What **C92** says of the patterns determines them: the history alone gives the list of pattern objects. -/
theorem C92_determined {h : History Ctx} {r : Nat} {x y : RebulkObj Ctx} (hx : DepictsRebulk h r x) (hy : DepictsRebulk h r y) :
    x.patterns = y.patterns ∧ x.disabled = y.disabled ∧ x.rules.map (fun u => u.info.cls) = y.rules.map (fun u => u.info.cls) ∧
      (∀ n, x.keys.get? n = y.keys.get? n) ∧ x.children.map (fun c => c.patterns) = y.children.map (fun c => c.patterns) := by
  have hp := fun {r : Nat} {x y : RebulkObj Ctx} (hx : DepictsAlone h r x) (hy : DepictsAlone h r y) =>
    each_unique (fun a b c => depicts_unique (h := h) (p := a)) hx.patterns hy.patterns
  obtain ⟨d1, a1, s1, r1⟩ := hx.alone.start
  obtain ⟨d2, a2, s2, r2⟩ := hy.alone.start
  rw [s1] at s2
  injection s2 with s2
  injection s2 with s2 s3
  subst s3
  refine ⟨hp hx.alone hy.alone, s2, ?_, fun n => by rw [hx.alone.keys n, hy.alone.keys n], ?_⟩
  · rw [r1, r2]
    cases d1 <;> rfl
  · have hc1 := hx.children
    have hc2 := hy.children
    generalize (life r h).flatMap (attaches r) = l at hc1 hc2
    generalize x.children = xs at hc1
    generalize y.children = ys at hc2
    induction hc1 generalizing ys with
    | nil => cases hc2; rfl
    | cons ha _ ih => cases hc2 with | cons hb ht => rw [List.map_cons, List.map_cons, hp ha hb, ih _ ht]

/-! ## C93: `close()` -/

theorem closeFrom_opened {reg : Reg Ctx} {h : History Ctx} (hi : ChainsInv reg h) {c r : Nat} (ho : OpenedOn h c r) :
    ∃ ch, reg.chains[c]? = some ch ∧ ∀ fuel, c ≤ fuel → closeFrom reg.chains fuel ch.parent = some r := by
  have nested : ∀ {c d r : Nat} {e : Event Ctx}, e ∈ h → opensUnder e = some (.chain d, c) →
      (∃ ch, reg.chains[d]? = some ch ∧ ∀ fuel, d ≤ fuel → closeFrom reg.chains fuel ch.parent = some r) →
      ∃ ch, reg.chains[c]? = some ch ∧ ∀ fuel, c ≤ fuel → closeFrom reg.chains fuel ch.parent = some r := by
    intro c d r e he hu ⟨chd, hd1, hd2⟩
    obtain ⟨ch, h1, h2⟩ := hi.opened e he _ _ hu
    have hlt := (hi.parent c ch h1).1
    rw [h2] at hlt
    refine ⟨ch, h1, ?_⟩
    intro fuel hf
    rw [h2]
    cases fuel with
    | zero => exact absurd (Nat.lt_of_lt_of_le hlt hf) (Nat.not_lt_zero _)
    | succ fuel =>
      unfold closeFrom
      rw [hd1]
      exact hd2 fuel (by have : d < c := hlt; omega)
  induction ho with
  | direct he =>
    obtain ⟨ch, h1, h2⟩ := hi.opened _ he _ _ rfl
    refine ⟨ch, h1, fun fuel _ => ?_⟩
    rw [h2]
    cases fuel <;> rfl
  | nested he _ ih => exact nested he rfl ih
  | ofPart he _ ih => exact nested he rfl ih

/-- **C93**: `close()`, on the builder of a chain or on any of its parts, whatever the nesting, returns the `Rebulk` object the outermost chain was opened on, and
changes nothing. -/
theorem C93 {ops : List (ROp Ctx)} {reg : Reg Ctx} {h : History Ctx} (hr : Reg.run {} ops = some (reg, h)) {c r : Nat} (ho : OpenedOn h c r) :
    reg.step (.close c) = some (reg, .rebulk r) ∧
      ∀ k, k < (h.flatMap (addsTo c)).length → reg.step (.partClose c k) = some (reg, .rebulk r) := by
  obtain ⟨_, h2⟩ := built_inv hr
  obtain ⟨ch, h3, h4⟩ := closeFrom_opened h2 ho
  have hlt : c < reg.chains.length := (List.getElem?_eq_some_iff.1 h3).1
  have hclose : reg.closeChain c = some (reg, .rebulk r) := by
    unfold Reg.closeChain
    rw [h3]
    simp only
    rw [h4 _ (Nat.le_of_lt hlt)]
    rfl
  refine ⟨hclose, ?_⟩
  intro k hk
  have hpart : reg.hasPart c k = true := by
    unfold Reg.hasPart
    rw [h3]
    rw [← (h2.each c ch h3).parts, List.length_map] at hk
    simpa using hk
  show (if reg.hasPart c k = true then reg.closeChain c else none) = _
  rw [if_pos hpart]
  exact hclose

/-- Every chain was opened on a `Rebulk` object, directly or not. -/
theorem chain_opened {reg : Reg Ctx} {h : History Ctx} (h2 : ChainsInv reg h) {c : Nat} (hc : c < reg.chains.length) : ∃ r, OpenedOn h c r := by
  have key : ∀ n c, c < n → c < reg.chains.length → ∃ r, OpenedOn h c r := by
    intro n
    induction n with
    | zero => intro c hc; omega
    | succ n ih =>
      intro c hc hl
      have hx : reg.chains[c]? = some reg.chains[c] := List.getElem?_eq_getElem hl
      generalize reg.chains[c] = ch at hx
      obtain ⟨h3, e, he, h4⟩ := h2.parent c ch hx
      obtain ⟨op, ret⟩ := e
      unfold opensUnder at h4
      split at h4
      · next r args c' heq =>
        injection heq with e1 e2; subst e1 e2
        injection h4 with h4; injection h4 with h5 h6; subst h6
        exact ⟨r, .direct he⟩
      · next d args c' heq =>
        injection heq with e1 e2; subst e1 e2
        injection h4 with h4; injection h4 with h5 h6; subst h6
        rw [← h5] at h3
        have h3 : d < c' := h3
        obtain ⟨r, hr⟩ := ih d (by omega) (by omega)
        exact ⟨r, .nested he hr⟩
      · next d k args c' heq =>
        injection heq with e1 e2; subst e1 e2
        injection h4 with h4; injection h4 with h5 h6; subst h6
        rw [← h5] at h3
        have h3 : d < c' := h3
        obtain ⟨r, hr⟩ := ih d (by omega) (by omega)
        exact ⟨r, .ofPart he hr⟩
      · cases h4
  exact key (c + 1) c (Nat.lt_succ_self _) hc

/-- Every chain builder ever returned was opened on one `Rebulk` object, so **C93** tells what its `close()` returns. -/
theorem C93_every_builder {ops : List (ROp Ctx)} {reg : Reg Ctx} {h : History Ctx} (hr : Reg.run {} ops = some (reg, h)) {op : ROp Ctx} {c : Nat}
    (hm : (op, RRet.builder c) ∈ h) (hop : (∃ r args, op = .chain r args) ∨ (∃ d args, op = .nest d args) ∨ ∃ d k args, op = .partChain d k args) :
    ∃ r, OpenedOn h c r ∧ ∀ r', OpenedOn h c r' → r' = r := by
  obtain ⟨_, h2⟩ := built_inv hr
  have hlt : c < reg.chains.length := by
    have hu : ∃ w, opensUnder ((op, RRet.builder c) : Event Ctx) = some (w, c) := by
      rcases hop with ⟨r, args, rfl⟩ | ⟨d, args, rfl⟩ | ⟨d, k, args, rfl⟩ <;> exact ⟨_, rfl⟩
    obtain ⟨w, hu⟩ := hu
    obtain ⟨ch, h3, _⟩ := h2.opened _ hm w c hu
    exact (List.getElem?_eq_some_iff.1 h3).1
  obtain ⟨r, ho⟩ := chain_opened h2 hlt
  refine ⟨r, ho, ?_⟩
  intro r' ho'
  have e1 := (C93 hr ho).1
  have e2 := (C93 hr ho').1
  rw [e1] at e2
  injection e2 with e2
  injection e2 with _ e2
  injection e2 with e2
  exact e2.symm

theorem loadRules_raises : ∀ (args : List RuleArg) (acc acc' : List RuleObj), (loadRules args acc).2 = (loadRules args acc').2
  | [], _, _ => rfl
  | .module_ ms :: rest, acc, acc' => by
    have h1 := (loadModule_append ms acc).2
    have h2 := (loadModule_append ms acc').2
    unfold loadRules
    cases h3 : loadModule ms acc with
    | mk a b =>
      cases h4 : loadModule ms acc' with
      | mk a' b' =>
        rw [h3] at h1; rw [h4] at h2
        have : b = b' := h1.trans h2.symm
        subst this
        cases b with
        | some e => rfl
        | none => exact loadRules_raises rest _ _
  | .class_ make :: rest, acc, acc' => by
    unfold loadRules
    cases make with
    | error e => rfl
    | ok r => exact loadRules_raises rest _ _
  | .object r :: rest, acc, acc' => by
    unfold loadRules
    exact loadRules_raises rest _ _

/-- **C92**, what the calls return: after any sequence of calls, the next one returns what `ReturnsRight` says, so calls made on what was returned are about the
object meant. -/
theorem C92_returns {ops : List (ROp Ctx)} {reg reg' : Reg Ctx} {h : History Ctx} (hr : Reg.run {} ops = some (reg, h)) {op : ROp Ctx} {ret : RRet}
    (hs : reg.step op = some (reg', ret)) : ReturnsRight h op ret := by
  obtain ⟨h1, h2⟩ := built_inv hr
  have part : ∀ {c p}, reg.addPart c p = some (reg', ret) → ret = .part c (h.flatMap (addsTo c)).length := by
    intro c p hs
    unfold Reg.addPart at hs
    cases hc : reg.chains[c]? with
    | none => rw [hc] at hs; cases hs
    | some ch =>
      rw [hc] at hs
      injection hs with hs; injection hs with _ hs; subst hs
      rw [← (h2.each c ch hc).parts, List.length_map]
  have fresh : ∀ e ∈ h, opens reg.chains.length e = [] := fun e he => (h2.fresh _ (Nat.le_refl _) e he).opens
  have nest : ∀ {c args}, reg.nestChain c args = some (reg', ret) → ∃ c, ret = .builder c ∧ ∀ e ∈ h, opens c e = [] := by
    intro c args hs
    unfold Reg.nestChain at hs
    cases hc : reg.chains[c]? with
    | none => rw [hc] at hs; cases hs
    | some ch =>
      rw [hc] at hs
      injection hs with hs; injection hs with _ hs
      exact ⟨_, hs.symm, fresh⟩
  have close : ∀ {c}, reg.closeChain c = some (reg', ret) → ∃ r, ret = .rebulk r ∧ OpenedOn h c r := by
    intro c hs
    have hc : c < reg.chains.length := by
      apply Nat.lt_of_not_le
      intro hc
      unfold Reg.closeChain at hs
      rw [List.getElem?_eq_none hc] at hs
      cases hs
    obtain ⟨r, ho⟩ := chain_opened h2 hc
    have := (C93 hr ho).1
    have : reg.closeChain c = some (reg, .rebulk r) := this
    rw [this] at hs
    injection hs with hs; injection hs with _ hs
    exact ⟨r, hs.symm, ho⟩
  have change : ∀ {c k f}, reg.changePart c k f = some (reg', ret) → ret = .part c k := by
    intro c k f hs
    unfold Reg.changePart at hs
    cases hc : reg.chains[c]? with
    | none => rw [hc] at hs; cases hs
    | some ch =>
      rw [hc] at hs
      cases hp : ch.parts[k]? with
      | none => simp only [hp] at hs; cases hs
      | some q =>
        simp only [hp] at hs
        injection hs with hs; injection hs with _ hs
        exact hs.symm
  cases op with
  | new d b =>
    injection hs with hs; injection hs with _ hs
    refine ⟨_, hs.symm, ?_⟩
    intro d' b' hm
    exact absurd ((made_lt ops {} reg h hr).2 d' b' _ hm) (Nat.lt_irrefl _)
  | pattern r ps =>
    simp only [Reg.step] at hs
    split at hs
    · obtain ⟨o, _, hs⟩ := onRebulk_some hs
      exact congrArg Prod.snd hs
    · cases hs
  | rules r args =>
    obtain ⟨o, _, hs⟩ := onRebulk_some hs
    have e := loadRules_raises args o.rules []
    have hs : ret = _ := congrArg Prod.snd hs
    simp only [e] at hs
    cases hl : (loadRules args []).2 with
    | none => rw [hl] at hs; exact Or.inr ⟨hl, hs⟩
    | some e => rw [hl] at hs; exact Or.inl ⟨e, hl, hs⟩
  | rebulk r rs =>
    simp only [Reg.step] at hs
    split at hs
    · obtain ⟨o, _, hs⟩ := onRebulk_some hs
      exact congrArg Prod.snd hs
    · cases hs
  | declareKeys r ks =>
    obtain ⟨o, _, hs⟩ := onRebulk_some hs
    exact congrArg Prod.snd hs
  | chain r args =>
    obtain ⟨o, _, hs⟩ := onRebulk_some hs
    exact ⟨_, congrArg Prod.snd hs, fresh⟩
  | reset r =>
    obtain ⟨o, _, hs⟩ := onRebulk_some hs
    exact congrArg Prod.snd hs
  | add c p => exact part hs
  | nest c args => exact nest hs
  | close c => exact close hs
  | partAdd c k p =>
    simp only [Reg.step] at hs
    split at hs
    · exact part hs
    · cases hs
  | partChain c k args =>
    simp only [Reg.step] at hs
    split at hs
    · exact nest hs
    · cases hs
  | repeater c k v => exact change hs
  | hidden c k b => exact change hs
  | partClose c k =>
    simp only [Reg.step] at hs
    split at hs
    · exact close hs
    · cases hs

/-- A chain opened on a `Rebulk` object, two parts added: the second one is the part 1 of the chain. -/
example : ∃ reg h reg' x, Reg.run (Ctx := Unit) {}
      [.new (fun _ => false) true, .chain 0 ⟨{}, Pattern.init 0 {}, none⟩, .add 0 (.string {} (Pattern.init 1 {}) {} [])] = some (reg, h) ∧
    reg.step (.partAdd 0 0 x) = some (reg', .part 0 1) ∧ ReturnsRight h (.partAdd 0 0 x) (.part 0 1) :=
  ⟨_, _, _, .string {} (Pattern.init 2 {}) {} [], rfl, rfl, C92_returns (reg := _) (ops := [.new (fun _ => false) true, .chain 0 ⟨{}, Pattern.init 0 {}, none⟩, .add 0 (.string {} (Pattern.init 1 {}) {} [])]) rfl rfl⟩

end Rebulk
