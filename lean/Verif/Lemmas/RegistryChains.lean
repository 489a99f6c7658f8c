import Verif.Lemmas.Registry
/-!
# Invariants of registration: chains
-/
namespace Rebulk
open Spec
variable {Ctx : Type}

/-- The chain is what the history says. -/
structure ChainIs (h : History Ctx) (c : Nat) (ch : ChainRec Ctx) : Prop where
  opened : h.flatMap (opens c) = [ch.args]
  parts : ch.parts.map PartRec.pattern = h.flatMap (addsTo c)
  told : ∀ k p, ch.parts[k]? = some p → p.start = (repeatedPart (h.flatMap (repeats c k))).start ∧
    p.stop = (repeatedPart (h.flatMap (repeats c k))).stop ∧ p.hidden = lastOr false (h.flatMap (hides c k))
  untold : ∀ k, ch.parts.length ≤ k → h.flatMap (repeats c k) = [] ∧ h.flatMap (hides c k) = []

/-- The event is not about the chain `c`. -/
structure NotAboutChain (c : Nat) (e : Event Ctx) : Prop where
  opens : opens c e = []
  addsTo : addsTo c e = []
  repeats : ∀ k, repeats c k e = []
  hides : ∀ k, hides c k e = []

theorem ChainIs.other {h : History Ctx} {c : Nat} {ch : ChainRec Ctx} {e : Event Ctx} (hc : ChainIs h c ch) (he : NotAboutChain c e) : ChainIs (h ++ [e]) c ch := by
  refine ⟨?_, ?_, ?_, ?_⟩
  · rw [flatMap_snoc, he.opens, List.append_nil]; exact hc.opened
  · rw [flatMap_snoc, he.addsTo, List.append_nil]; exact hc.parts
  · intro k p hp; rw [flatMap_snoc, flatMap_snoc, he.repeats, he.hides, List.append_nil, List.append_nil]; exact hc.told k p hp
  · intro k hk; rw [flatMap_snoc, flatMap_snoc, he.repeats, he.hides, List.append_nil, List.append_nil]; exact hc.untold k hk

/-- The event opens a chain: the owner of its builder, and the builder. -/
def opensUnder : Event Ctx → Option (Owner × Nat)
  | (.chain r _, .builder c) => some (.rebulk r, c)
  | (.nest d _, .builder c) => some (.chain d, c)
  | (.partChain d _ _, .builder c) => some (.chain d, c)
  | _ => none

/-- Owners come first. -/
def OwnerBefore (reg : Reg Ctx) (c : Nat) : Owner → Prop
  | .rebulk r => r < reg.rebulks.length
  | .chain d => d < c

/-- All chains are what the history says. -/
structure ChainsInv (reg : Reg Ctx) (h : History Ctx) : Prop where
  each : ∀ c ch, reg.chains[c]? = some ch → ChainIs h c ch
  fresh : ∀ c, reg.chains.length ≤ c → ∀ e ∈ h, NotAboutChain c e
  parts : ∀ (c : Nat) (ch : ChainRec Ctx), reg.chains[c]? = some ch → ∀ p ∈ ch.parts, ∀ d, p.pattern = .chain d → c < d ∧ d < reg.chains.length
  parent : ∀ (c : Nat) (ch : ChainRec Ctx), reg.chains[c]? = some ch → OwnerBefore reg c ch.parent ∧ ∃ e ∈ h, opensUnder e = some (ch.parent, c)
  opened : ∀ e ∈ h, ∀ w c, opensUnder e = some (w, c) → ∃ ch, reg.chains[c]? = some ch ∧ ch.parent = w

theorem chainsInv_general {reg reg' : Reg Ctx} {h : History Ctx} (hi : ChainsInv reg h) {e : Event Ctx}
    (hr : reg.rebulks.length ≤ reg'.rebulks.length) (hl : reg.chains.length ≤ reg'.chains.length)
    (old : ∀ c ch, reg.chains[c]? = some ch → ∃ ch', reg'.chains[c]? = some ch' ∧ ch'.parent = ch.parent ∧ ChainIs (h ++ [e]) c ch' ∧
      ∀ p ∈ ch'.parts, ∀ d, p.pattern = .chain d → (∃ q ∈ ch.parts, q.pattern = .chain d) ∨ (c < d ∧ d < reg'.chains.length))
    (new : ∀ c ch', reg.chains.length ≤ c → reg'.chains[c]? = some ch' → ChainIs (h ++ [e]) c ch' ∧ ch'.parts = [] ∧
      opensUnder e = some (ch'.parent, c) ∧ OwnerBefore reg' c ch'.parent)
    (fresh : ∀ c, reg'.chains.length ≤ c → NotAboutChain c e)
    (opened : ∀ w c, opensUnder e = some (w, c) → ∃ ch', reg'.chains[c]? = some ch' ∧ ch'.parent = w) : ChainsInv reg' (h ++ [e]) := by
  have split : ∀ c ch', reg'.chains[c]? = some ch' → (∃ ch, reg.chains[c]? = some ch ∧ ch'.parent = ch.parent ∧ ChainIs (h ++ [e]) c ch' ∧
      ∀ p ∈ ch'.parts, ∀ d, p.pattern = .chain d → (∃ q ∈ ch.parts, q.pattern = .chain d) ∨ (c < d ∧ d < reg'.chains.length)) ∨ reg.chains.length ≤ c := by
    intro c ch' hc
    cases hx : reg.chains[c]? with
    | none => exact .inr (by rw [List.getElem?_eq_none_iff] at hx; exact hx)
    | some ch =>
      obtain ⟨ch1, h1, h2⟩ := old c ch hx
      rw [hc] at h1; injection h1 with h1; subst h1
      exact .inl ⟨ch, rfl, h2⟩
  refine ⟨?_, ?_, ?_, ?_, ?_⟩
  · intro c ch' hc
    rcases split c ch' hc with ⟨ch, _, _, h1, _⟩ | hn
    · exact h1
    · exact (new c ch' hn hc).1
  · intro c hc x hx
    rcases List.mem_append.1 hx with hx | hx
    · exact hi.fresh c (Nat.le_trans hl hc) x hx
    · rw [List.mem_singleton] at hx; subst hx; exact fresh c hc
  · intro c ch' hc p hp d hd
    rcases split c ch' hc with ⟨ch, hch, _, _, h1⟩ | hn
    · rcases h1 p hp d hd with ⟨q, hq, hqd⟩ | h1
      · have := hi.parts c ch hch q hq d hqd
        omega
      · exact h1
    · rw [(new c ch' hn hc).2.1] at hp; cases hp
  · intro c ch' hc
    rcases split c ch' hc with ⟨ch, hch, hpar, _, _⟩ | hn
    · obtain ⟨h1, x, hx, h2⟩ := hi.parent c ch hch
      rw [hpar]
      refine ⟨?_, x, List.mem_append.2 (.inl hx), h2⟩
      cases hw : ch.parent with
      | rebulk r => rw [hw] at h1; exact Nat.lt_of_lt_of_le h1 hr
      | chain d => rw [hw] at h1; exact h1
    · obtain ⟨_, _, h1, h2⟩ := new c ch' hn hc
      exact ⟨h2, e, by simp, h1⟩
  · intro x hx w c hw
    rcases List.mem_append.1 hx with hx | hx
    · obtain ⟨ch, h1, h2⟩ := hi.opened x hx w c hw
      obtain ⟨ch', h3, h4, _⟩ := old c ch h1
      exact ⟨ch', h3, h4.trans h2⟩
    · rw [List.mem_singleton] at hx; subst hx; exact opened w c hw

/-- A call that changes no chain. -/
theorem chainsInv_same {reg reg' : Reg Ctx} {h : History Ctx} (hi : ChainsInv reg h) {e : Event Ctx} (hc : reg'.chains = reg.chains)
    (hr : reg.rebulks.length ≤ reg'.rebulks.length) (he : ∀ c, NotAboutChain c e) (ho : opensUnder e = none) : ChainsInv reg' (h ++ [e]) := by
  refine chainsInv_general hi hr (by rw [hc]; exact Nat.le_refl _) ?_ ?_ (fun c _ => he c) ?_
  · intro c ch hx
    exact ⟨ch, by rw [hc]; exact hx, rfl, (hi.each c ch hx).other (he c), fun p hp d hd => .inl ⟨p, hp, hd⟩⟩
  · intro c ch' hn hx
    rw [hc, List.getElem?_eq_none hn] at hx; cases hx
  · intro w c hw; rw [ho] at hw; cases hw

/-- A call that changes one chain. -/
theorem chainsInv_set {reg : Reg Ctx} {h : History Ctx} (hi : ChainsInv reg h) {e : Event Ctx} {c0 : Nat} {ch ch' : ChainRec Ctx}
    (h0 : reg.chains[c0]? = some ch) (hp : ch'.parent = ch.parent) (hself : ChainIs (h ++ [e]) c0 ch')
    (hparts : ∀ p ∈ ch'.parts, ∀ d, p.pattern = .chain d → ∃ q ∈ ch.parts, q.pattern = .chain d)
    (he : ∀ c, c ≠ c0 → NotAboutChain c e) (ho : opensUnder e = none) : ChainsInv (reg.setChain c0 ch') (h ++ [e]) := by
  have hlt : c0 < reg.chains.length := (List.getElem?_eq_some_iff.1 h0).1
  refine chainsInv_general hi (Nat.le_refl _) (by simp [Reg.setChain]) ?_ ?_ ?_ ?_
  · intro c x hx
    by_cases hcc : c0 = c
    · subst hcc
      rw [h0] at hx; injection hx with hx; subst hx
      exact ⟨ch', List.getElem?_set_self hlt, hp, hself, fun p hpm d hd => .inl (hparts p hpm d hd)⟩
    · exact ⟨x, (List.getElem?_set_ne hcc).trans hx, rfl, (hi.each c x hx).other (he c (fun e => hcc e.symm)), fun p hp d hd => .inl ⟨p, hp, hd⟩⟩
  · intro c x hn hx
    rw [List.getElem?_eq_none (by simpa [Reg.setChain] using hn)] at hx; cases hx
  · intro c hc
    refine he c ?_
    simp only [Reg.setChain, List.length_set] at hc
    omega
  · intro w c hw; rw [ho] at hw; cases hw

theorem told_snoc {h : History Ctx} {c k : Nat} {e : Event Ctx} (h1 : repeats c k e = []) (h2 : hides c k e = []) :
    (h ++ [e]).flatMap (repeats c k) = h.flatMap (repeats c k) ∧ (h ++ [e]).flatMap (hides c k) = h.flatMap (hides c k) := by
  rw [flatMap_snoc, flatMap_snoc, h1, h2, List.append_nil, List.append_nil]
  exact ⟨rfl, rfl⟩

/-- Adding a part. -/
theorem ChainIs.add {h : History Ctx} {c : Nat} {ch : ChainRec Ctx} {e : Event Ctx} {p : PRef Ctx} (hc : ChainIs h c ch) (ho : opens c e = [])
    (ha : addsTo c e = [p]) (hr : ∀ k, repeats c k e = []) (hh : ∀ k, hides c k e = []) : ChainIs (h ++ [e]) c (ch.add p) := by
  refine ⟨?_, ?_, ?_, ?_⟩
  · rw [flatMap_snoc, ho, List.append_nil]; exact hc.opened
  · rw [flatMap_snoc, ha]; simp [ChainRec.add, hc.parts]
  · intro k q hq
    obtain ⟨e1, e2⟩ := told_snoc (h := h) (hr k) (hh k)
    rw [e1, e2]
    by_cases hk : k < ch.parts.length
    · exact hc.told k q (by simpa [ChainRec.add, List.getElem?_append_left hk] using hq)
    · obtain ⟨u1, u2⟩ := hc.untold k (Nat.le_of_not_lt hk)
      rw [u1, u2]
      simp only [ChainRec.add, List.getElem?_append_right (Nat.le_of_not_lt hk)] at hq
      cases hz : k - ch.parts.length with
      | zero => rw [hz] at hq; injection hq with hq; subst hq; exact ⟨rfl, rfl, rfl⟩
      | succ n => rw [hz] at hq; cases hq
  · intro k hk
    obtain ⟨e1, e2⟩ := told_snoc (h := h) (hr k) (hh k)
    rw [e1, e2]
    refine hc.untold k ?_
    simp only [ChainRec.add, List.length_append, List.length_singleton] at hk
    omega

theorem chainsInv_addPart {reg reg' : Reg Ctx} {h : History Ctx} (hi : ChainsInv reg h) {op : ROp Ctx} {ret : RRet} {c : Nat} {p : PatternObj Ctx}
    (hs : reg.addPart c p = some (reg', ret)) (hop : op = .add c p ∨ ∃ k, op = .partAdd c k p) : ChainsInv reg' (h ++ [(op, ret)]) := by
  unfold Reg.addPart at hs
  split at hs
  · cases hs
  · next ch hch =>
    injection hs with hs; injection hs with h1 h2; subst h1
    have hparts : ∀ q ∈ (ch.add (.leaf p)).parts, ∀ d, q.pattern = .chain d → ∃ q ∈ ch.parts, q.pattern = .chain d := by
      intro q hq d hd
      rcases List.mem_append.1 hq with hq | hq
      · exact ⟨q, hq, hd⟩
      · rw [List.mem_singleton] at hq; subst hq; cases hd
    rcases hop with rfl | ⟨k, rfl⟩
    · refine chainsInv_set hi hch rfl ((hi.each c ch hch).add (p := .leaf p) ?_ ?_ (fun _ => rfl) (fun _ => rfl)) hparts ?_ rfl
      · rfl
      · simp [addsTo]
      · intro c' hne; exact ⟨rfl, by simp [addsTo]; exact fun e => hne e.symm, fun _ => rfl, fun _ => rfl⟩
    · refine chainsInv_set hi hch rfl ((hi.each c ch hch).add (p := .leaf p) ?_ ?_ (fun _ => rfl) (fun _ => rfl)) hparts ?_ rfl
      · rfl
      · simp [addsTo]
      · intro c' hne; exact ⟨rfl, by simp [addsTo]; exact fun e => hne e.symm, fun _ => rfl, fun _ => rfl⟩

theorem flatMap_nil_of {α β : Type} {f : α → List β} {l : List α} (h : ∀ x ∈ l, f x = []) : l.flatMap f = [] := by
  rw [List.flatMap_eq_nil_iff]; exact h

/-- A chain just opened. -/
theorem chainIs_new {reg : Reg Ctx} {h : History Ctx} (hi : ChainsInv reg h) {c : Nat} (hc : reg.chains.length ≤ c) {e : Event Ctx} {args : ChainArgs Ctx} {w : Owner}
    (ho : opens c e = [args]) (ha : addsTo c e = []) (hr : ∀ k, repeats c k e = []) (hh : ∀ k, hides c k e = []) :
    ChainIs (h ++ [e]) c { parent := w, args := args } := by
  have hf := hi.fresh c hc
  refine ⟨?_, ?_, ?_, ?_⟩
  · rw [flatMap_snoc, flatMap_nil_of (fun x hx => (hf x hx).opens), ho]; rfl
  · rw [flatMap_snoc, flatMap_nil_of (fun x hx => (hf x hx).addsTo), ha]; rfl
  · intro k p hp; simp at hp
  · intro k _
    rw [flatMap_snoc, flatMap_snoc, flatMap_nil_of (fun x hx => (hf x hx).repeats k), flatMap_nil_of (fun x hx => (hf x hx).hides k), hr, hh]
    exact ⟨rfl, rfl⟩

theorem chainsInv_nest {reg reg' : Reg Ctx} {h : History Ctx} (hi : ChainsInv reg h) {op : ROp Ctx} {ret : RRet} {c : Nat} {args : ChainArgs Ctx}
    (hs : reg.nestChain c args = some (reg', ret)) (hop : op = .nest c args ∨ ∃ k, op = .partChain c k args) : ChainsInv reg' (h ++ [(op, ret)]) := by
  unfold Reg.nestChain at hs
  split at hs
  · cases hs
  · next ch hch =>
    injection hs with hs; injection hs with h1 h2; subst h1 h2
    have hlt : c < reg.chains.length := (List.getElem?_eq_some_iff.1 hch).1
    have hrep : ∀ c' k, repeats c' k ((op, RRet.builder reg.chains.length) : Event Ctx) = [] := by rcases hop with rfl | ⟨k, rfl⟩ <;> exact fun _ _ => rfl
    have hhid : ∀ c' k, hides c' k ((op, RRet.builder reg.chains.length) : Event Ctx) = [] := by rcases hop with rfl | ⟨k, rfl⟩ <;> exact fun _ _ => rfl
    have hops : ∀ c', opens c' ((op, RRet.builder reg.chains.length) : Event Ctx) = if reg.chains.length = c' then [args] else [] := by
      rcases hop with rfl | ⟨k, rfl⟩ <;> exact fun _ => rfl
    have hadd : ∀ c', addsTo c' ((op, RRet.builder reg.chains.length) : Event Ctx) = if c = c' then [.chain reg.chains.length] else [] := by
      rcases hop with rfl | ⟨k, rfl⟩ <;> exact fun _ => rfl
    have hund : opensUnder ((op, RRet.builder reg.chains.length) : Event Ctx) = some (.chain c, reg.chains.length) := by
      rcases hop with rfl | ⟨k, rfl⟩ <;> rfl
    have hget : ∀ i, i < reg.chains.length →
        (reg.chains.set c (ch.add (.chain reg.chains.length)) ++ [{ parent := .chain c, args := args }])[i]? = (reg.chains.set c (ch.add (.chain reg.chains.length)))[i]? := by
      intro i hi'
      exact List.getElem?_append_left (by simpa using hi')
    have hlast : (reg.chains.set c (ch.add (.chain reg.chains.length)) ++ [({ parent := .chain c, args := args } : ChainRec Ctx)])[reg.chains.length]? =
        some { parent := .chain c, args := args } := by
      rw [List.getElem?_append_right (by simp)]
      simp
    refine chainsInv_general hi (Nat.le_refl _) (by simp) ?_ ?_ ?_ ?_
    · intro i x hx
      have hil : i < reg.chains.length := (List.getElem?_eq_some_iff.1 hx).1
      by_cases hci : c = i
      · subst hci
        rw [hch] at hx; injection hx with hx; subst hx
        refine ⟨ch.add (.chain reg.chains.length), (hget c hlt).trans (List.getElem?_set_self hlt), rfl, ?_, ?_⟩
        · refine (hi.each c ch hch).add ?_ ?_ (hrep c) (hhid c)
          · rw [hops, if_neg (by omega)]
          · rw [hadd, if_pos rfl]
        · intro p hp d hd
          rcases List.mem_append.1 hp with hp | hp
          · exact .inl ⟨p, hp, hd⟩
          · rw [List.mem_singleton] at hp; subst hp
            injection hd with hd
            exact .inr (by simp; omega)
      · refine ⟨x, ((hget i hil).trans (List.getElem?_set_ne hci)).trans hx, rfl, (hi.each i x hx).other ⟨?_, ?_, hrep i, hhid i⟩, fun p hp d hd => .inl ⟨p, hp, hd⟩⟩
        · rw [hops, if_neg (by omega)]
        · rw [hadd, if_neg hci]
    · intro i x hn hx
      have hil := (List.getElem?_eq_some_iff.1 hx).1
      simp only [List.length_append, List.length_set, List.length_singleton] at hil
      have : i = reg.chains.length := by omega
      subst this
      rw [hlast] at hx; injection hx with hx; subst hx
      refine ⟨chainIs_new hi hn ?_ ?_ (hrep _) (hhid _), rfl, hund, hlt⟩
      · rw [hops, if_pos rfl]
      · rw [hadd, if_neg (by omega)]
    · intro i hn
      simp only [List.length_append, List.length_set, List.length_singleton] at hn
      refine ⟨?_, ?_, hrep i, hhid i⟩
      · rw [hops, if_neg (by omega)]
      · rw [hadd, if_neg (by omega)]
    · intro w i hw
      rw [hund] at hw; injection hw with hw; injection hw with h1 h2; subst h1 h2
      exact ⟨_, hlast, rfl⟩

/-- Changing a part. -/
theorem chainsInv_part {reg reg' : Reg Ctx} {h : History Ctx} (hi : ChainsInv reg h) {e : Event Ctx} {ret : RRet} {c k : Nat} {f : PartRec Ctx → PartRec Ctx}
    (hs : reg.changePart c k f = some (reg', ret)) (ho : ∀ c, opens c e = []) (ha : ∀ c, addsTo c e = []) (hu : opensUnder e = none)
    (hr : ∀ c' k', ¬ (c' = c ∧ k' = k) → repeats c' k' e = []) (hh : ∀ c' k', ¬ (c' = c ∧ k' = k) → hides c' k' e = [])
    (hpat : ∀ p, (f p).pattern = p.pattern)
    (hf : ∀ p, p.start = (repeatedPart (h.flatMap (repeats c k))).start → p.stop = (repeatedPart (h.flatMap (repeats c k))).stop →
      p.hidden = lastOr false (h.flatMap (hides c k)) →
      (f p).start = (repeatedPart ((h ++ [e]).flatMap (repeats c k))).start ∧ (f p).stop = (repeatedPart ((h ++ [e]).flatMap (repeats c k))).stop ∧
        (f p).hidden = lastOr false ((h ++ [e]).flatMap (hides c k))) : ChainsInv reg' (h ++ [e]) := by
  unfold Reg.changePart at hs
  split at hs
  · cases hs
  · next ch hch =>
    split at hs
    · cases hs
    · next p hp =>
      injection hs with hs; injection hs with h1 h2; subst h1
      have hlt : k < ch.parts.length := (List.getElem?_eq_some_iff.1 hp).1
      have hc := hi.each c ch hch
      refine chainsInv_set hi hch rfl ⟨?_, ?_, ?_, ?_⟩ ?_ ?_ hu
      · rw [flatMap_snoc, ho, List.append_nil]; exact hc.opened
      · rw [flatMap_snoc, ha, List.append_nil, ← hc.parts]
        simp only [List.map_set, hpat]
        apply List.ext_getElem?
        intro i
        by_cases hik : k = i
        · subst hik
          rw [List.getElem?_set_self (by simpa using hlt), List.getElem?_map, hp]; rfl
        · rw [List.getElem?_set_ne hik]
      · intro i q hq
        rcases get_set_cases hq with ⟨rfl, rfl, _⟩ | ⟨hne, hq⟩
        · obtain ⟨t1, t2, t3⟩ := hc.told k p hp
          exact hf p t1 t2 t3
        · obtain ⟨e1, e2⟩ := told_snoc (h := h) (hr c i (fun x => hne x.2.symm)) (hh c i (fun x => hne x.2.symm))
          rw [e1, e2]
          exact hc.told i q hq
      · intro i hik
        simp only [List.length_set] at hik
        have hne : ¬ (c = c ∧ i = k) := fun x => by omega
        obtain ⟨e1, e2⟩ := told_snoc (h := h) (hr c i hne) (hh c i hne)
        rw [e1, e2]
        exact hc.untold i hik
      · intro q hq d hd
        rcases List.mem_or_eq_of_mem_set hq with hq | rfl
        · exact ⟨q, hq, hd⟩
        · rw [hpat] at hd
          exact ⟨p, List.mem_of_getElem? hp, hd⟩
      · intro c' hne
        exact ⟨ho c', ha c', fun i => hr c' i (fun x => hne x.1), fun i => hh c' i (fun x => hne x.1)⟩

theorem repeater_start_stop (p q : Part) (v : RepeaterArg) (h1 : p.start = q.start) (h2 : p.stop = q.stop) :
    (p.repeater v).start = (q.repeater v).start ∧ (p.repeater v).stop = (q.repeater v).stop := by
  obtain ⟨ps, pa, pe, ph⟩ := p
  obtain ⟨qs, qa, qe, qh⟩ := q
  simp only at h1 h2
  subst h1 h2
  cases v with
  | int n => exact ⟨rfl, rfl⟩
  | str s =>
    simp only [Part.repeater]
    cases pyInt? s with
    | some n => exact ⟨rfl, rfl⟩
    | none =>
      simp only [Part.repeaterStr]
      generalize repeaterMatch s = m
      by_cases h0 : s = ['+']
      · rw [if_pos h0, if_pos h0]
        repeat' split
        all_goals first | exact ⟨rfl, rfl⟩ | simp_all
      · rw [if_neg h0, if_neg h0]
        repeat' split
        all_goals first | exact ⟨rfl, rfl⟩ | simp_all

theorem chainsInv_step {reg reg' : Reg Ctx} {h : History Ctx} (hi : ChainsInv reg h) {op : ROp Ctx} {ret : RRet}
    (hs : reg.step op = some (reg', ret)) : ChainsInv reg' (h ++ [(op, ret)]) := by
  cases op with
  | new disabled dr =>
    unfold Reg.step at hs
    injection hs with hs; injection hs with h1 h2; subst h1 h2
    exact chainsInv_same hi rfl (by simp) (fun _ => ⟨rfl, rfl, fun _ => rfl, fun _ => rfl⟩) rfl
  | pattern r ps =>
    simp only [Reg.step] at hs
    split at hs
    · obtain ⟨o, ho, hx⟩ := onRebulk_some hs
      injection hx with h1 h2; subst h1 h2
      exact chainsInv_same hi rfl (by simp [Reg.setRebulk]) (fun _ => ⟨rfl, rfl, fun _ => rfl, fun _ => rfl⟩) rfl
    · cases hs
  | rules r args =>
    simp only [Reg.step] at hs
    obtain ⟨o, ho, hx⟩ := onRebulk_some hs
    injection hx with h1 h2; subst h1; clear h2
    exact chainsInv_same hi rfl (by simp [Reg.setRebulk]) (fun _ => ⟨rfl, rfl, fun _ => rfl, fun _ => rfl⟩) rfl
  | rebulk r rs =>
    simp only [Reg.step] at hs
    split at hs
    · obtain ⟨o, ho, hx⟩ := onRebulk_some hs
      injection hx with h1 h2; subst h1 h2
      exact chainsInv_same hi rfl (by simp [Reg.setRebulk]) (fun _ => ⟨rfl, rfl, fun _ => rfl, fun _ => rfl⟩) rfl
    · cases hs
  | declareKeys r ks =>
    simp only [Reg.step] at hs
    obtain ⟨o, ho, hx⟩ := onRebulk_some hs
    injection hx with h1 h2; subst h1 h2
    exact chainsInv_same hi rfl (by simp [Reg.setRebulk]) (fun _ => ⟨rfl, rfl, fun _ => rfl, fun _ => rfl⟩) rfl
  | reset r =>
    simp only [Reg.step] at hs
    obtain ⟨o, ho, hx⟩ := onRebulk_some hs
    injection hx with h1 h2; subst h1 h2
    exact chainsInv_same hi rfl (by simp [Reg.setRebulk]) (fun _ => ⟨rfl, rfl, fun _ => rfl, fun _ => rfl⟩) rfl
  | chain r args =>
    simp only [Reg.step] at hs
    obtain ⟨o, ho, hx⟩ := onRebulk_some hs
    injection hx with h1 h2; subst h1 h2
    have hlast : (reg.chains ++ [({ parent := .rebulk r, args := args } : ChainRec Ctx)])[reg.chains.length]? = some { parent := .rebulk r, args := args } := by
      rw [List.getElem?_append_right (Nat.le_refl _)]; simp
    have hrl : r < reg.rebulks.length := (List.getElem?_eq_some_iff.1 ho).1
    refine chainsInv_general hi (by simp [Reg.setRebulk]) (by simp) ?_ ?_ ?_ ?_
    · intro i x hx
      have hil : i < reg.chains.length := (List.getElem?_eq_some_iff.1 hx).1
      refine ⟨x, (List.getElem?_append_left hil).trans hx, rfl, (hi.each i x hx).other ⟨?_, rfl, fun _ => rfl, fun _ => rfl⟩, fun p hp d hd => .inl ⟨p, hp, hd⟩⟩
      exact if_neg (by omega)
    · intro i x hn hx
      have hil := (List.getElem?_eq_some_iff.1 hx).1
      simp only [List.length_append, List.length_singleton] at hil
      have : i = reg.chains.length := by omega
      subst this
      rw [hlast] at hx; injection hx with hx; subst hx
      exact ⟨chainIs_new hi hn (if_pos rfl) rfl (fun _ => rfl) (fun _ => rfl), rfl, rfl, by simpa [OwnerBefore, Reg.setRebulk] using hrl⟩
    · intro i hn
      simp only [List.length_append, List.length_singleton] at hn
      exact ⟨if_neg (by omega), rfl, fun _ => rfl, fun _ => rfl⟩
    · intro w i hw
      injection hw with hw; injection hw with h1 h2; subst h1 h2
      exact ⟨_, hlast, rfl⟩
  | add c p => exact chainsInv_addPart hi hs (.inl rfl)
  | nest c args => exact chainsInv_nest hi hs (.inl rfl)
  | close c =>
    simp only [Reg.step, Reg.closeChain] at hs
    split at hs
    · cases hs
    · rw [Option.map_eq_some_iff] at hs
      obtain ⟨x, _, hs⟩ := hs
      injection hs with h1 h2; subst h1 h2
      exact chainsInv_same hi rfl (Nat.le_refl _) (fun _ => ⟨rfl, rfl, fun _ => rfl, fun _ => rfl⟩) rfl
  | partAdd c k p =>
    simp only [Reg.step] at hs
    split at hs
    · exact chainsInv_addPart hi hs (.inr ⟨k, rfl⟩)
    · cases hs
  | partChain c k args =>
    simp only [Reg.step] at hs
    split at hs
    · exact chainsInv_nest hi hs (.inr ⟨k, rfl⟩)
    · cases hs
  | repeater c k v =>
    simp only [Reg.step] at hs
    refine chainsInv_part hi hs (fun _ => rfl) (fun _ => rfl) rfl ?_ (fun _ _ _ => rfl) (fun _ => rfl) ?_
    · intro c' k' hn
      exact if_neg (fun x => hn ⟨x.1.symm, x.2.symm⟩)
    · intro p t1 t2 t3
      have e1 : (h ++ [((ROp.repeater c k v, ret) : Event Ctx)]).flatMap (repeats c k) = h.flatMap (repeats c k) ++ [v] := by
        rw [flatMap_snoc]; simp [repeats]
      have e2 : (h ++ [((ROp.repeater c k v, ret) : Event Ctx)]).flatMap (hides c k) = h.flatMap (hides c k) := by
        rw [flatMap_snoc]; simp [hides]
      rw [e1, e2]
      have e3 : repeatedPart (h.flatMap (repeats c k) ++ [v]) = (repeatedPart (h.flatMap (repeats c k))).repeater v := by
        unfold repeatedPart; rw [List.foldl_append]; rfl
      rw [e3]
      obtain ⟨a1, a2⟩ := repeater_start_stop { search := fun _ => .ok ([], []), start := p.start, stop := p.stop } (repeatedPart (h.flatMap (repeats c k))) v t1 t2
      exact ⟨a1, a2, t3⟩
  | hidden c k b =>
    simp only [Reg.step] at hs
    refine chainsInv_part hi hs (fun _ => rfl) (fun _ => rfl) rfl (fun _ _ _ => rfl) ?_ (fun _ => rfl) ?_
    · intro c' k' hn
      exact if_neg (fun x => hn ⟨x.1.symm, x.2.symm⟩)
    · intro p t1 t2 t3
      have e1 : (h ++ [((ROp.hidden c k b, ret) : Event Ctx)]).flatMap (repeats c k) = h.flatMap (repeats c k) := by
        rw [flatMap_snoc]; simp [repeats]
      have e2 : (h ++ [((ROp.hidden c k b, ret) : Event Ctx)]).flatMap (hides c k) = h.flatMap (hides c k) ++ [b] := by
        rw [flatMap_snoc]; simp [hides]
      rw [e1, e2]
      exact ⟨t1, t2, by simp [lastOr]⟩
  | partClose c k =>
    simp only [Reg.step, Reg.closeChain] at hs
    split at hs
    · split at hs
      · cases hs
      · rw [Option.map_eq_some_iff] at hs
        obtain ⟨x, _, hs⟩ := hs
        injection hs with h1 h2; subst h1 h2
        exact chainsInv_same hi rfl (Nat.le_refl _) (fun _ => ⟨rfl, rfl, fun _ => rfl, fun _ => rfl⟩) rfl
    · cases hs

/-! ## Histories from nothing -/

theorem run_inv : ∀ (ops : List (ROp Ctx)) (reg reg' : Reg Ctx) (h log : History Ctx), RebulksInv reg h → ChainsInv reg h →
    reg.run ops = some (reg', log) → RebulksInv reg' (h ++ log) ∧ ChainsInv reg' (h ++ log)
  | [], reg, reg', h, log, h1, h2, hr => by
    unfold Reg.run at hr
    injection hr with hr; injection hr with a b; subst a b
    rw [List.append_nil]; exact ⟨h1, h2⟩
  | op :: ops, reg, reg', h, log, h1, h2, hr => by
    unfold Reg.run at hr
    split at hr
    · cases hr
    · next reg1 ret hs =>
      split at hr
      · cases hr
      · next reg2 log2 hr2 =>
        injection hr with hr; injection hr with a b; subst a b
        have := run_inv ops reg1 reg2 (h ++ [(op, ret)]) log2 (rebulksInv_step h1 hs) (chainsInv_step h2 hs) hr2
        rwa [List.append_assoc, List.singleton_append] at this

/-- What holds after any sequence of calls. -/
theorem built_inv {ops : List (ROp Ctx)} {reg : Reg Ctx} {h : History Ctx} (hr : Reg.run {} ops = some (reg, h)) : RebulksInv reg h ∧ ChainsInv reg h := by
  have := run_inv ops {} reg [] h ⟨fun r o ho => by simp at ho, fun r o ho => by simp at ho, fun r o ho => by simp at ho⟩
    ⟨fun c ch hc => by simp at hc, fun c _ e he => (by cases he), fun c ch hc => (by simp at hc), fun c ch hc => (by simp at hc), fun e he => (by cases he)⟩ hr
  simpa using this

end Rebulk
