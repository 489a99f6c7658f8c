import Verif.Props.Registry
import Verif.Props.Chain
/-!
# Registration: repeaters, default rules, `reset` (`C92`, `C94`, and `C50`, `C71`, `C74` for what calls have built)
-/
namespace Rebulk
open Spec
variable {Ctx : Type}

/-- A part is repeated as the last call of `repeater` says, in every notation but `{n}` (`C50_refuted`), whatever was said before; exactly once if it never was called. -/
theorem C92_repeater (calls : List RepeaterArg) :
    ((repeatedPart []).start = 1 ∧ (repeatedPart []).stop = some 1) ∧
    ∀ v lo hi, Repeats v lo hi → (∀ n, v ≠ .str ('{' :: digits n ++ ['}'])) →
      (repeatedPart (calls ++ [v])).start = lo ∧ (repeatedPart (calls ++ [v])).stop = hi := by
  refine ⟨⟨rfl, rfl⟩, ?_⟩
  intro v lo hi h hne
  unfold repeatedPart
  rw [List.foldl_append, List.foldl_cons, List.foldl_nil]
  exact C50_repeater_partial _ h hne

example : (repeatedPart [.str "*".toList, .int 4, .str ['?']]).start = 0 ∧ (repeatedPart [.str "*".toList, .int 4, .str ['?']]).stop = some 1 :=
  (C92_repeater [.str "*".toList, .int 4]).2 _ _ _ Repeats.question (by intro n h; injection h with h; simp at h)

/-! ## `C94`: `reset()` -/

theorem readParts_congr {rd rd' : PRef Ctx → Option (PatternObj Ctx)} (h : ∀ p, rd' p = rd p) : ∀ (ps : List (PartRec Ctx)),
    Reg.readParts rd' ps = Reg.readParts rd ps
  | [] => rfl
  | p :: ps => by
    unfold Reg.readParts
    rw [h, readParts_congr h ps]

theorem read_congr {reg reg' : Reg Ctx} (h : reg'.chains = reg.chains) : ∀ (fuel : Nat) (p : PRef Ctx), reg'.read fuel p = reg.read fuel p
  | fuel, .leaf p => by cases fuel <;> rfl
  | 0, .chain c => rfl
  | fuel + 1, .chain c => by
    unfold Reg.read
    rw [h]
    cases reg.chains[c]? with
    | none => rfl
    | some ch => simp only; rw [readParts_congr (read_congr h fuel)]

theorem mapM_congr_fun {α β : Type} {f g : α → Option β} (h : ∀ a, f a = g a) (l : List α) : l.mapM f = l.mapM g := by
  rw [funext h]

/-- **C94**, what holds: `reset()` leaves a `Rebulk` object as `Rebulk()` makes it. Every other object, and the chains opened on this one, stay as they are. Missing: what
was registered on it is lost too (`C94_refuted`). -/
theorem C94_partial {reg reg' : Reg Ctx} {r : Nat} {ret : RRet} (hs : reg.step (.reset r) = some (reg', ret)) :
    (∃ a, reg'.readRebulk r = some { disabled := fun _ => false, patterns := [], rules := [conflictSolverRule a, privateRemoverRule (a + 1)], keys := [], children := [] }) ∧
    (∀ r', r' ≠ r → reg'.readAlone r' = reg.readAlone r') ∧ reg'.chains = reg.chains ∧ ret = .nothing := by
  simp only [Reg.step] at hs
  obtain ⟨o, ho, hx⟩ := onRebulk_some hs
  injection hx with x y
  subst x y
  have hlt : r < reg.rebulks.length := (List.getElem?_eq_some_iff.1 ho).1
  have hget : (reg.setRebulk r (RObj.init (fun _ => false) true reg.nextRule)).rebulks[r]? = some (RObj.init (fun _ => false) true reg.nextRule) := by
    unfold Reg.setRebulk
    simp [hlt]
  refine ⟨⟨reg.nextRule, ?_⟩, ?_, rfl, rfl⟩
  · unfold Reg.readRebulk Reg.readAlone
    simp only [hget]
    rfl
  · intro r' hne
    unfold Reg.readAlone Reg.setRebulk
    simp only [List.getElem?_set_ne (Ne.symm hne)]
    cases reg.rebulks[r']? with
    | none => rfl
    | some o' =>
      refine congrArg (Option.map _) (mapM_congr_fun (fun p => ?_) _)
      apply read_congr; rfl

/-- **C94** does not hold ("Reset all defaults"): the patterns, keys, rules and children are lost, an object disabled is enabled, and one made without the default
rules gets them. -/
theorem C94_refuted : ∃ (ops : List (ROp Unit)) (reg reg' : Reg Unit) (h : History Unit) (ret : RRet) (x x' : RebulkObj Unit),
    Reg.run {} ops = some (reg, h) ∧ reg.step (.reset 0) = some (reg', ret) ∧ reg.readRebulk 0 = some x ∧ reg'.readRebulk 0 = some x' ∧
    (x.patterns.length = 1 ∧ x'.patterns.length = 0) ∧ (x.children.length = 1 ∧ x'.children.length = 0) ∧
    (x.keys.map (·.1) = ["k"] ∧ x'.keys.map (·.1) = []) ∧ (x.rules.length = 0 ∧ x'.rules.length = 2) ∧
    (x.disabled () = true ∧ x'.disabled () = false) :=
  ⟨[.new (fun _ => true) false, .new (fun _ => false) true, .pattern 0 [.leaf (exPattern 1 {} ["a"])], .rebulk 0 [1],
    .declareKeys 0 [{ name := "k", valueType := 1 }]], _, _, _, _, _, _, rfl, rfl, rfl, rfl, ⟨rfl, rfl⟩, ⟨rfl, rfl⟩, ⟨rfl, rfl⟩, ⟨rfl, rfl⟩, ⟨rfl, rfl⟩⟩

/-! ## Default rules -/

/-- Objects on which `rules()` was not called (since they were made or reset), the main one with the default rules, and the attached ones, have the default rules
only: `C74` applies to them. -/
theorem C74_built {ops : List (ROp Ctx)} {reg : Reg Ctx} {h : History Ctx} (hr : Reg.run {} ops = some (reg, h)) {r : Nat} {d : Ctx → Bool} {b : Bool}
    (hm : (ROp.new d b, RRet.rebulk r) ∈ h) {d' : Ctx → Bool} (hdef : startOf r h = some (d', true)) (hno : (life r h).flatMap (loads r) = [])
    (hkids : ∀ c ∈ (life r h).flatMap (attaches r), (life c h).flatMap (loads c) = []) :
    ∃ x, reg.readRebulk r = some x ∧ DepictsRebulk h r x ∧ DefaultRulesOnly x := by
  obtain ⟨x, h1, h2⟩ := C92 hr hm
  refine ⟨x, h1, h2, ?_, ?_⟩
  · obtain ⟨dr, a, s1, s2⟩ := h2.alone.start
    rw [hdef] at s1
    injection s1 with s1
    injection s1 with _ s1
    subst s1
    refine ⟨a, a + 1, ?_⟩
    rw [s2, hno]
    rfl
  · have hc := h2.children
    generalize (life r h).flatMap (attaches r) = l at hc hkids
    generalize x.children = cs at hc
    induction hc with
    | nil => intro c hc; cases hc
    | @cons i c is cs ha _ ih =>
      intro c' hc' u hu
      rcases List.mem_cons.1 hc' with rfl | hc'
      · obtain ⟨dr, a, s1, s2⟩ := ha.start
        rw [s2, hkids i List.mem_cons_self] at hu
        cases dr with
        | false => simp [loaded] at hu
        | true =>
          simp only [loaded, List.flatMap_nil, List.append_nil, if_true] at hu
          rcases List.mem_cons.1 hu with rfl | hu
          · left; rfl
          · rw [List.mem_singleton] at hu; subst hu; right; rfl
      · exact ih (fun c hc => hkids c (List.mem_cons_of_mem _ hc)) c' hc' u hu

/-! ## An example -/

/-- Two `Rebulk` objects; on the first one a string, then a chain with a part repeated and hidden, and in it a nested chain with one part; a key declared twice; the
second one attached to the first one, then given its pattern. -/
def exOps : List (ROp Unit) :=
  [.new (fun _ => false) true, .new (fun _ => false) true,
   .pattern 0 [.leaf (exPattern 1 {} ["a"])],
   .reset 0,
   .pattern 0 [.leaf (exPattern 2 {} ["b"])],
   .chain 0 ⟨{}, Pattern.init 3 {}, none⟩,
   .add 0 (exPattern 4 {} ["c"]), .repeater 0 0 (.str ['*']), .repeater 0 0 (.str ['+']), .hidden 0 0 true,
   .partChain 0 0 ⟨{}, Pattern.init 5 {}, none⟩, .add 1 (exPattern 6 {} ["d"]), .partClose 1 0,
   .declareKeys 0 [{ name := "k", valueType := 1 }, { name := "k", valueType := 2 }],
   .rebulk 0 [1], .pattern 1 [.leaf (exPattern 7 {} ["e"])]]

/-- The parts of a chain: identity, bounds, hidden, and the parts of nested ones. -/
def exParts : PartObjs Unit → List (Nat × Int × Option Int × Bool)
  | .nil => []
  | .cons p a b hid ps => (p.id, a, b, hid) :: exParts ps

/-- What the example looks at in a pattern. -/
def exPat : PatternObj Unit → Nat × List (Nat × Int × Option Int × Bool)
  | .chain _ b _ ps => (b.id, exParts ps)
  | p => (p.id, [])

/-- The calls are possible; **C92**, **C93** and `C74_built` apply, and this is what they say. -/
example : ∃ reg h x, Reg.run {} exOps = some (reg, h) ∧ (ROp.new (fun _ => false) true, RRet.rebulk 0) ∈ h ∧ reg.readRebulk 0 = some x ∧
    x.patterns.map exPat = [(2, []), (3, [(4, 1, none, true), (5, 1, some 1, false)])] ∧
    (x.keys.get? "k").map (fun k => k.valueType) = some 2 ∧ x.children.map (fun c => c.patterns.map exPat) = [[(7, [])]] ∧
    OpenedOn h 1 0 ∧ startOf 0 h = some (fun _ => false, true) ∧ (life 0 h).flatMap (loads 0) = [] ∧ (life 0 h).flatMap (attaches 0) = [1] ∧
    h.map (·.2) = [.rebulk 0, .rebulk 1, .rebulk 0, .nothing, .rebulk 0, .builder 0, .part 0 0, .part 0 0, .part 0 0, .part 0 0, .builder 1, .part 1 0, .rebulk 0,
      .rebulk 0, .rebulk 0, .rebulk 1] :=
  ⟨_, _, _, rfl, .head _, rfl, rfl, rfl, rfl,
    .ofPart (d := 0) (k := 0) (args := ⟨{}, Pattern.init 5 {}, none⟩) (List.mem_of_getElem? (i := 10) rfl) (.direct (args := ⟨{}, Pattern.init 3 {}, none⟩) (List.mem_of_getElem? (i := 5) rfl)), rfl, rfl, rfl, rfl⟩

end Rebulk
