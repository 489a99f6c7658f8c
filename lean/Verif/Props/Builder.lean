import Verif.Lemmas.Builder
/-!
# Properties C39, C77: building patterns
-/
namespace Rebulk
open Spec

/-! ## C39 -/

/-- No abbreviation expansion (for the examples). -/
def noExpand : List Val → HV → HV := fun _ v => v

/-- `D1 = {"x": f1}; D2 = {"y": f2}; b.regex_defaults(formatter=D1); b.defaults(formatter=D2)`. -/
def exampleDefaults : List BOp :=
  [.dict [("x", .atom (.obj 1))], .dict [("y", .atom (.obj 2))], .builder,
   .defaults 0 .regex [("formatter", .ref 0)], .defaults 0 .base [("formatter", .ref 1)]]

/-- **C39 is false.** (1) Building a regex pattern adds an entry to the caller's dict `D1`, which also is in the builder's regex
defaults. (2) Calling `defaults(formatter=D3)` after building a pattern adds an entry to the formatters of that pattern.
(3) Building a regex given as a dict, with abbreviations, changes the caller's dict. -/
theorem C39_building_pure_refuted :
    (∃ w w', runB noExpand 9 World.init exampleDefaults = some w ∧
      stepB noExpand 9 w (.build 0 .regex .absent [] []) = some w' ∧ w'.heap.at_ 0 ≠ w.heap.at_ 0) ∧
    (∃ w w' p, runB noExpand 9 World.init
        [.dict [("x", .atom (.obj 1))], .dict [("y", .atom (.obj 2))], .builder,
         .defaults 0 .base [("formatter", .ref 0)], .build 0 .string .absent [] []] = some w ∧
      w.patterns = [p] ∧ stepB noExpand 9 w (.defaults 0 .base [("formatter", .ref 1)]) = some w' ∧
      w'.heap.at_ p.formatters ≠ w.heap.at_ p.formatters) ∧
    (∃ w w', runB (fun _ _ => .atom (.int 9)) 9 World.init [.dict [("pattern", .atom (.str "a-b".toList))], .builder] = some w ∧
      stepB (fun _ _ => .atom (.int 9)) 9 w (.build 0 .regex .absent [.ref 0] [("abbreviations", .list [.int 1])]) = some w' ∧
      w'.heap.at_ 0 ≠ w.heap.at_ 0) := by
  refine ⟨⟨_, _, rfl, rfl, ?_⟩, ⟨_, _, _, rfl, rfl, rfl, ?_⟩, ⟨_, _, rfl, rfl, ?_⟩⟩
  · decide
  · decide
  · decide

/-- **C39, partial**: in a reachable world, an operation that merges no dict-valued option into another dict-valued option leaves
every existing dict object as it was, except the dict of defaults the call is about: so the caller's dicts and everything earlier
patterns hold stay the same, and so do all other defaults of all builders; earlier patterns are kept, and builders too except by
`declare_keys` and `reset`. (Missing: operations that do merge a dict-valued option into another one, or give a regular
expression as a dict; then the property is false.) -/
theorem C39_building_pure_partial {expand : List Val → HV → HV} {fuel : Nat} {w w' : World} {op : BOp} (hw : ReachableB expand w)
    (hv : BOp.Valid op) (hs : NoShared w op) (he : stepB expand fuel w op = some w') :
    (∀ a, a < w.heap.length → ¬ Target w op a → w'.heap[a]? = w.heap[a]?) ∧
    (w.patterns <+: w'.patterns) ∧
    (∀ f fac, w.factories[f]? = some fac → ¬ TargetBuilder op f → w'.factories[f]? = some fac) ∧
    (∀ f fac s, w.factories[f]? = some fac → (∀ kw, op ≠ .defaults f s kw) → w'.heap.at_ (fac.slot s) = w.heap.at_ (fac.slot s)) := by
  have i := InvB.reachable hw
  -- the fourth part follows from the first one
  suffices key : (∀ a, a < w.heap.length → ¬ Target w op a → w'.heap[a]? = w.heap[a]?) ∧ (w.patterns <+: w'.patterns) ∧
      (∀ f fac, w.factories[f]? = some fac → ¬ TargetBuilder op f → w'.factories[f]? = some fac) by
    refine ⟨key.1, key.2.1, key.2.2, ?_⟩
    intro f fac s hf hne
    refine DHeap.at_congr (key.1 _ (i.good f fac hf s).1 ?_)
    cases op with
    | defaults g t kw =>
      rintro ⟨gac, hg, e⟩
      have := i.inj f g fac gac s t hf hg e
      exact hne kw (by rw [this.1, this.2])
    | _ => exact id
  cases op with
  | dict d =>
    simp only [stepB, Option.some.injEq] at he; subst he
    exact ⟨fun a ha _ => (Ext.alloc w.heap d).2 a ha, List.prefix_rfl, fun f fac hf _ => hf⟩
  | builder =>
    simp only [stepB, Option.some.injEq] at he; subst he
    refine ⟨fun a ha _ => (Ext.append w.heap _).2 a ha, List.prefix_rfl, fun f fac hf _ => ?_⟩
    show (w.factories ++ _)[f]? = _
    rw [List.getElem?_append_left (List.getElem?_eq_some_iff.1 hf).1]; exact hf
  | defaults f slot kw =>
    simp only [stepB] at he
    split at he
    · simp at he
    · next fac hfac =>
      simp only [Option.map_eq_some_iff] at he
      obtain ⟨h, e1, e2⟩ := he
      subst e2
      refine ⟨?_, List.prefix_rfl, fun f fac hf _ => hf⟩
      intro a ha ht
      have hk := (i.good f fac hfac slot).1
      have x := Ext.alloc w.heap kw
      have hnew : (w.heap.alloc kw).1.at_ (w.heap.alloc kw).2 = kw := by rw [DHeap.at_eq]; simp [DHeap.alloc]
      have := setDefaultsH_frame2 (d := w.heap.length) (k := fac.slot slot) (by omega) (by rw [show (w.heap.alloc kw).1.at_ w.heap.length = kw from hnew]; exact hv) (by
        intro key hx
        rw [show (w.heap.alloc kw).1.at_ w.heap.length = kw from hnew, x.at hk] at hx
        exact hs fac hfac key hx) e1
      show h[a]? = _
      rw [this.2 a (fun e => ht ⟨fac, hfac, e⟩) (by omega), x.2 a ha]
  | build f slot key args kw =>
    simp only [stepB] at he
    split at he
    · simp at he
    · next fac hfac =>
      split at he
      · simp at he
      · next kw' h ek =>
        simp only [Option.map_eq_some_iff] at he
        obtain ⟨r, e1, e2⟩ := he
        subst e2
        have x := applyKey_ext ek
        have hin := i.good f fac hfac
        have hns := hs.2 fac hfac
        have opt := fun o => applyKey_options ek o
        have hin' : ∀ s, fac.slot s < h.length ∧ Good (h.at_ (fac.slot s)) := fun s =>
          ⟨Nat.lt_of_lt_of_le (hin s).1 x.1, by rw [x.at (hin s).1]; exact (hin s).2⟩
        have ns' : NoSharedOptions h kw' fac slot := by
          intro o
          rw [x.at (hin slot).1, show h.at_ fac.base = w.heap.at_ fac.base from x.at (hin .base).1]
          have := hns o
          exact ⟨fun hh => this.1 ⟨opt o hh.1, hh.2⟩, fun hh => this.2.1 ⟨opt o hh.1, hh.2⟩, this.2.2⟩
        have y := x.trans (buildPattern_ext e1 hin' ns' hs.1)
        exact ⟨fun a ha _ => y.2 a ha, List.prefix_append _ _, fun f fac hf _ => hf⟩
  | chain f kw =>
    simp only [stepB] at he
    split at he
    · simp at he
    · next fac hfac =>
      split at he
      · simp at he
      · next h p eb =>
        simp only [Option.map_eq_some_iff] at he
        obtain ⟨r, e1, e2⟩ := he
        subst e2
        have hin := i.good f fac hfac
        have x := buildPattern_ext eb hin (hs fac hfac) (by simp)
        have hin' : ∀ s, fac.slot s < h.length ∧ Good (h.at_ (fac.slot s)) := fun s =>
          ⟨Nat.lt_of_lt_of_le (hin s).1 x.1, by rw [x.at (hin s).1]; exact (hin s).2⟩
        have y := x.trans (inheritDefaults_spec e1 hin').1
        refine ⟨fun a ha _ => y.2 a ha, List.prefix_append _ _, fun f fac hf _ => ?_⟩
        show (w.factories ++ _)[f]? = _
        rw [List.getElem?_append_left (List.getElem?_eq_some_iff.1 hf).1]; exact hf
  | declareKeys f ks =>
    simp only [stepB] at he
    split at he
    · simp at he
    · simp only [Option.some.injEq] at he; subst he
      refine ⟨fun a _ _ => rfl, List.prefix_rfl, fun g fac hf ht => ?_⟩
      show (w.factories.set f _)[g]? = _
      rw [List.getElem?_set, if_neg (fun e => ht e.symm)]; exact hf
  | reset f =>
    simp only [stepB] at he
    split at he
    · simp at he
    · simp only [Option.some.injEq] at he; subst he
      refine ⟨fun a ha _ => (Ext.append w.heap _).2 a ha, List.prefix_rfl, fun g fac hf ht => ?_⟩
      show (w.factories.set f _)[g]? = _
      rw [List.getElem?_set, if_neg (fun e => ht e.symm)]; exact hf

/-- **C39, partial**, regular expressions given as dicts: when no dict-valued option is merged into another one, building a pattern changes nothing in
existing dicts but the entry `pattern` of the dicts given as regular expressions. -/
theorem C39_regex_dict_partial {expand : List Val → HV → HV} {fuel : Nat} {w w' : World} {f : Nat} {slot : Slot} {key : KeyArg} {args : List HV} {kw : HDict}
    (hw : ReachableB expand w) (hs : ∀ fac, w.factories[f]? = some fac → NoSharedOptions w.heap (withKeys key kw) fac slot)
    (he : stepB expand fuel w (.build f slot key args kw) = some w') {a : Addr} (ha : a < w.heap.length) :
    w'.heap[a]? = w.heap[a]? ∨
      (slot = .regex ∧ HV.ref a ∈ args ∧ ∀ o, o ≠ "pattern" → (w'.heap.at_ a).get? o = (w.heap.at_ a).get? o) := by
  have i := InvB.reachable hw
  simp only [stepB] at he
  split at he
  · simp at he
  · next fac hfac =>
    split at he
    · simp at he
    · next kw' h ek =>
      simp only [Option.map_eq_some_iff] at he
      obtain ⟨r, e1, e2⟩ := he
      subst e2
      have x := applyKey_ext ek
      have hin := i.good f fac hfac
      have hns := hs fac hfac
      have opt := fun o => applyKey_options ek o
      have hin' : ∀ s, fac.slot s < h.length ∧ Good (h.at_ (fac.slot s)) := fun s =>
        ⟨Nat.lt_of_lt_of_le (hin s).1 x.1, by rw [x.at (hin s).1]; exact (hin s).2⟩
      have ns' : NoSharedOptions h kw' fac slot := by
        intro o
        rw [x.at (hin slot).1, show h.at_ fac.base = w.heap.at_ fac.base from x.at (hin .base).1]
        have := hns o
        exact ⟨fun hh => this.1 ⟨opt o hh.1, hh.2⟩, fun hh => this.2.1 ⟨opt o hh.1, hh.2⟩, this.2.2⟩
      obtain ⟨h3, ab, x3, x4⟩ := buildPattern_split e1 hin' ns'
      have y := x.trans x3
      by_cases hr : slot = .regex
      · rw [if_pos hr] at x4
        have hl : a < (args.foldl (expandPatternDict expand ab) h3).length := by
          rw [(expandFold_keeps expand ab args h3).1]; exact Nat.lt_of_lt_of_le ha y.1
        rcases expandFold_given expand ab args h3 a with g | ⟨g1, g2⟩
        · exact Or.inl (by show r.1[a]? = _; rw [x4.2 a hl, g, y.2 a ha])
        · refine Or.inr ⟨hr, g1, fun o ho => ?_⟩
          show (r.1.at_ a).get? o = _
          rw [x4.at hl, g2 o ho, y.at ha]
      · rw [if_neg hr] at x4
        exact Or.inl ((y.trans x4).2 a ha)

/-- A dict given as a regular expression, with abbreviations: its `pattern` changes, its `flags` do not. -/
example : ∃ w w', runB (fun _ _ => .atom (.int 9)) 9 World.init
      [.dict [("pattern", .atom (.str "a-b".toList)), ("flags", .atom (.int 2))], .builder] = some w ∧
    stepB (fun _ _ => .atom (.int 9)) 9 w (.build 0 .regex .absent [.ref 0] [("abbreviations", .list [.int 1])]) = some w' ∧
    w'.heap.at_ 0 = [("pattern", .atom (.int 9)), ("flags", .atom (.int 2))] := ⟨_, _, rfl, rfl, rfl⟩

/-- The hypotheses are met: with a dict in the general defaults only, a build with a list and a dict of its own. -/
example : ∃ w w', runB noExpand 9 World.init
      [.dict [("x", .atom (.obj 1))], .builder, .defaults 0 .base [("formatter", .ref 0), ("tags", .list [.int 1])]] = some w ∧
    stepB noExpand 9 w (.build 0 .string .absent [] [("validator", .ref 0), ("tags", .list [.int 2])]) = some w' ∧
    w'.patterns.length = 1 ∧ NoShared w (.build 0 .string .absent [] [("validator", .ref 0), ("tags", .list [.int 2])]) := by
  refine ⟨⟨[[("x", .atom (.obj 1))], [("formatter", .ref 0), ("tags", .list [.int 1])], [], [], [], [],
    [("formatter", .ref 0), ("tags", .list [.int 1])]], [⟨1, 2, 3, 4, 5, []⟩], []⟩, _, rfl, rfl, rfl, by simp, ?_⟩
  intro fac hfac
  injection hfac with hfac
  subst hfac
  intro key
  refine ⟨?_, ?_, ?_⟩
  · rintro ⟨_, b, hb⟩; simp [Factory.slot, DHeap.at_, Dict.get?] at hb
  · rintro ⟨⟨a, ha⟩, b, hb⟩
    simp only [withKeys, Dict.get?] at ha
    split at ha
    · next e =>
      simp only [beq_iff_eq] at e
      subst e
      simp [DHeap.at_, Dict.get?] at hb
    · split at ha <;> simp at ha
  · rintro ⟨⟨a, ha⟩, _⟩; simp [Factory.slot, DHeap.at_, Dict.get?] at ha

/-! ## C77 -/

/-- **C77, one key**: `key=k` gives `name` and `formatter` exactly when they are absent; nothing else changes. -/
theorem C77_single_key (k : BKey) (kw : HDict) (h : DHeap) :
    ∃ kw', applyKey (.one k) kw h = .ok (kw', h) ∧
      ∀ o, kw'.get? o = match kw.get? o with
        | some v => some v
        | none => if o = "name" then some (.atom (.str k.name.toList)) else if o = "formatter" then some (.atom (.obj k.converter)) else none := by
  refine ⟨_, rfl, ?_⟩
  intro o
  have sd : ∀ (d : HDict) (n : String) (v : HV), (Dict.setDefault d n v).get? o =
      match d.get? o with | some x => some x | none => if o = n then some v else none := by
    intro d n v
    unfold Dict.setDefault
    by_cases hc : d.contains n = true
    · rw [if_pos hc]
      cases ho : d.get? o with
      | some x => rfl
      | none =>
        have : o ≠ n := by rintro rfl; rw [Dict.contains, ho] at hc; simp at hc
        simp [this]
    · rw [if_neg hc, Dict.get?_set]
      by_cases ho : n = o
      · subst ho
        have : d.get? n = none := by
          cases e : d.get? n with
          | none => rfl
          | some x => exact absurd (by rw [Dict.contains, e]; rfl) hc
        simp [this]
      · have : ¬ o = n := fun e => ho e.symm
        simp only [ho, this, if_false]
        cases d.get? o <;> rfl
  rw [sd, sd]
  cases kw.get? o with
  | some v => rfl
  | none => by_cases h1 : o = "name" <;> simp [h1, BKey.conv]

/-- The converter of the first key with that name. -/
def Spec.converterFor (ks : List BKey) (name : String) : Option HV := (ks.find? (fun k => k.name == name)).map (fun k => .atom (.obj k.converter))

theorem addConverters_get? (d : HDict) (ks : List BKey) (n : String) :
    (addConverters d ks).get? n = match d.get? n with | some v => some v | none => Spec.converterFor ks n := by
  unfold addConverters
  induction ks generalizing d with
  | nil => cases h : Dict.get? d n <;> simp [Spec.converterFor, h]
  | cons k ks ih =>
    rw [List.foldl_cons, ih]
    unfold Dict.setDefault
    by_cases hc : d.contains k.name = true
    · rw [if_pos hc]
      cases h : d.get? n with
      | some v => rfl
      | none =>
        have : k.name ≠ n := by rintro rfl; rw [Dict.contains, h] at hc; simp at hc
        have hb : (k.name == n) = false := by simpa using this
        simp [Spec.converterFor, List.find?_cons, hb]
    · rw [if_neg hc, Dict.get?_set]
      by_cases hk : k.name = n
      · subst hk
        have : d.get? k.name = none := by
          cases e : d.get? k.name with
          | none => rfl
          | some x => exact absurd (by rw [Dict.contains, e]; rfl) hc
        simp [this, Spec.converterFor, BKey.conv]
      · have hb : (k.name == n) = false := by simpa using hk
        simp [hk, Spec.converterFor, List.find?_cons, hb]

/-- **C77, a sequence of keys**: it is refused iff a formatter is given that is neither `None` nor a dict. Otherwise every other
option is kept, `formatter` becomes a new dict, in which an entry of the given formatter wins over the key's converter; no existing
dict changes. -/
theorem C77_key_sequence (k : BKey) (ks : List BKey) (kw : HDict) (h : DHeap) :
    ((∃ e, applyKey (.many (k :: ks)) kw h = .error e) ↔
      ∃ v, kw.get? "formatter" = some v ∧ v ≠ .atom .none ∧ ∀ a, v ≠ .ref a) ∧
    (∀ kw' h', applyKey (.many (k :: ks)) kw h = .ok (kw', h') →
      (∀ o, o ≠ "formatter" → kw'.get? o = kw.get? o) ∧
      (∀ a, a < h.length → h'[a]? = h[a]?) ∧
      (∃ a, h.length ≤ a ∧ kw'.get? "formatter" = some (.ref a) ∧
        ∀ n, (h'.at_ a).get? n =
          match (match kw.get? "formatter" with | some (.ref b) => (h.at_ b).get? n | _ => none) with
          | some v => some v
          | none => Spec.converterFor (k :: ks) n)) := by
  constructor
  · unfold applyKey keysBase
    constructor
    · rintro ⟨e, he⟩
      cases hf : kw.get? "formatter" with
      | none => rw [hf] at he; simp at he
      | some v =>
        rw [hf] at he
        refine ⟨v, rfl, ?_, ?_⟩
        · rintro rfl; simp at he
        · rintro a rfl; simp at he
    · rintro ⟨v, hv, h1, h2⟩
      rw [hv]
      refine ⟨.typeError, ?_⟩
      cases v with
      | ref a => exact absurd rfl (h2 a)
      | list l => rfl
      | atom x => cases x <;> first | rfl | exact absurd rfl h1
  · intro kw' h' e
    refine ⟨?_, fun a ha => (applyKey_ext e).2 a ha, ?_⟩
    · intro o ho
      unfold applyKey at e
      simp only at e
      split at e
      · simp at e
      · simp only [Except.ok.injEq, Prod.mk.injEq] at e
        rw [← e.1, Dict.get?_set, if_neg (fun x => ho x.symm)]
    · unfold applyKey at e
      simp only at e
      split at e
      · simp at e
      · next base hb =>
        simp only [Except.ok.injEq, Prod.mk.injEq] at e
        refine ⟨h.length, Nat.le_refl _, ?_, ?_⟩
        · rw [← e.1, Dict.get?_set, if_pos rfl]; rfl
        · intro n
          have hat : h'.at_ h.length = addConverters base (k :: ks) := by
            rw [← e.2, DHeap.at_eq]; simp [DHeap.alloc]
          rw [hat, addConverters_get?]
          have hbase : base.get? n = (match kw.get? "formatter" with | some (.ref b) => (h.at_ b).get? n | _ => none) := by
            unfold keysBase at hb
            split at hb
            · next hf => simp only [Except.ok.injEq] at hb; subst hb; rw [hf]; rfl
            · next hf => simp only [Except.ok.injEq] at hb; subst hb; rw [hf]; rfl
            · next b hf => simp only [Except.ok.injEq] at hb; subst hb; rw [hf]
            · simp at hb
          rw [hbase]

example : applyKey (.many [⟨"a", 1⟩, ⟨"b", 2⟩, ⟨"a", 3⟩]) [("formatter", .ref 0)] [[("b", .atom (.obj 9))]] =
    .ok ([("formatter", .ref 1)], [[("b", .atom (.obj 9))], [("b", .atom (.obj 9)), ("a", .atom (.obj 1))]]) := by rfl
example : applyKey (.many [⟨"a", 1⟩]) [("formatter", .atom (.obj 4))] [] = .error .typeError := by rfl

/-- **C77, declaring keys**: the last key declared with a name is the one in force; other names keep theirs. -/
theorem C77_declare_keys (expand : List Val → HV → HV) (fuel : Nat) (w : World) (f : Nat) (fac : Factory) (ks : List BKey)
    (hf : w.factories[f]? = some fac) :
    ∃ w' fac', stepB expand fuel w (.declareKeys f ks) = some w' ∧ w'.factories[f]? = some fac' ∧ w'.heap = w.heap ∧
      ∀ n, fac'.keys.get? n = match ks.reverse.find? (fun k => k.name == n) with
        | some k => some k.converter
        | none => fac.keys.get? n := by
  refine ⟨{ w with factories := w.factories.set f { fac with keys := ks.foldl (fun d k => Dict.set d k.name k.converter) fac.keys } },
    { fac with keys := ks.foldl (fun d k => Dict.set d k.name k.converter) fac.keys }, by simp only [stepB, hf], ?_, rfl, ?_⟩
  · show (w.factories.set f _)[f]? = _
    rw [List.getElem?_set, if_pos rfl, if_pos (List.getElem?_eq_some_iff.1 hf).1]
  · intro n
    show Dict.get? (ks.foldl (fun d k => Dict.set d k.name k.converter) fac.keys) n = _
    generalize fac.keys = d
    induction ks generalizing d with
    | nil => rfl
    | cons k ks ih =>
      rw [List.foldl_cons, ih, List.reverse_cons, List.find?_append]
      cases hfind : ks.reverse.find? (fun k => k.name == n) with
      | some k' => rfl
      | none =>
        simp only [Dict.get?_set, List.find?_cons, List.find?_nil, Option.none_or]
        by_cases hk : k.name = n
        · simp [hk]
        · have hb : (k.name == n) = false := by simpa using hk
          simp [hk, hb]

/-- **C77, inherited keys**: with `kw` the final keyword arguments of the built pattern, its formatter for the name `n` is: the one
of a formatter dict if it has one, else the converter of the declared key, if any; with a single callable formatter, only that
callable (under the empty name), whatever keys are declared. -/
theorem C77_inherited_keys {expand : List Val → HV → HV} {fuel : Nat} {f : Factory} {slot : Slot} {args : List HV} {kw0 : HDict}
    {h : DHeap} {r : DHeap × PatCfg} (e : buildPattern expand fuel f slot args kw0 h = some r)
    (hin : ∀ a, (r.1.at_ r.2.kwargs).get? "formatter" = some (.ref a) → a < h.length) (n : String) :
    let kw := r.1.at_ r.2.kwargs
    let declared : Option HV := (f.keys.get? n).map (fun c => .atom (.obj c))
    (r.1.at_ r.2.formatters).get? n = match kw.get? "formatter" with
      | some (.ref a) => (match (r.1.at_ a).get? n with | some v => some v | none => declared)
      | some v => if IsTrueHV r.1 v then (if n = "" then some v else none) else declared
      | none => declared := by
  intro kw declared
  simp only [← isTrueHV_iff]
  obtain ⟨h4, kw1, h5, p, hl, e1, e2⟩ := buildPattern_last e
  have hkw : kw = kw1 := by
    have := (newPattern_inherit f.keys h4 kw1).1
    rw [e1] at this
    simp only [kw]; rw [e2]; exact this
  have hin' : ∀ a, kw1.get? "formatter" = some (.ref a) → a < h4.length := by
    intro a ha
    have := hin a (by have := hkw; simp only [kw] at this; rw [this]; exact ha)
    omega
  have := (newPattern_inherit f.keys h4 kw1).2 hin' n
  rw [e1] at this
  simp only at this
  rw [← e2] at this
  rw [this, hkw]
  cases kw1.get? "formatter" with
  | none => rfl
  | some v => cases v <;> rfl

/-- `D = {"y": f}; b.declare_keys(BKey "x", BKey "y")`, then a build with `formatter=D`. -/
example : (buildPattern noExpand 9 ⟨1, 2, 3, 4, 5, [("x", 7), ("y", 8)]⟩ .string [] [("formatter", .ref 0)]
    [[("y", .atom (.obj 1))], [], [], [], [], []]).map (fun r => r.1.at_ r.2.formatters) =
    some [("y", .atom (.obj 1)), ("x", .atom (.obj 7))] := by rfl

end Rebulk
