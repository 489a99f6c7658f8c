import Verif.Spec.GroupSearch
import Verif.Props.ConfiguredSearch
/-!
# C119: the search for groups of regular expressions
-/
namespace Rebulk
open Spec
variable {Ctx : Type}

/-! ## One match object -/

/-- The part of a match that configuration does not touch. -/
structure RawCapture (input : Str) (g : GroupConfig) (span : Int × Int) (name : Option String) (m : Match) : Prop where
  span : m.span = span
  name : m.name = name
  tags : m.tags = g.tags
  isPublic : m.priv = false
  noMarker : m.marker = false
  noSolver : m.solver = none
  noValue : m.lit = .none
  input : m.inputString = some input
  raw : m.rawStart = none ∧ m.rawStop = none

theorem captured {input : Str} {g : GroupConfig} (hne : input ≠ []) {rank : Nat} {origin : Option (Int × Int)}
    {span : Int × Int} {name : Option String} {m m' : Match} (hr : RawCapture input g span name m) (h0 : 0 ≤ span.1) (hlt : span.1 < span.2)
    (hform : origin.isSome = false → m.formatter = none) (h : ConfiguredMatch g.opts rank origin.isSome m m')
    (ha : m'.ancestors.map (fun p => (p.start, p.stop)) = origin.toList) :
    Captures input (g.capture input rank origin span name) m' := by
  have hs : m'.span = span := h.span.trans hr.span
  have e1 : m'.start = span.1 := congrArg Prod.fst hs
  have e2 : m'.stop = span.2 := congrArg Prod.snd hs
  have hin : m'.inputString = some input := h.input.trans hr.input
  have hraw : m'.rawStart = none ∧ m'.rawStop = none := ⟨h.raw.1.trans hr.raw.1, h.raw.2.trans hr.raw.2⟩
  have htext : m'.raw = .str (textAt input span.1 span.2) := by
    have := raw_text hin hne hraw (by rw [e1]; exact h0) (by rw [e1, e2]; exact hlt)
    rw [this, e1, e2]
  refine ⟨hs, h.index, ?_, h.name.trans hr.name, h.tags.trans hr.tags, ?_, h.marker.trans hr.noMarker, ha, h.solver.trans hr.noSolver, hin, hraw⟩
  · show m'.value = g.valueOf origin.isSome name _
    have hval : m'.value = if m'.lit.truthy = true then m'.lit else (match m'.formatter with | some f => f m'.raw | none => m'.raw) := rfl
    rw [hval]
    unfold GroupConfig.valueOf
    by_cases ht : IsTrue (chosen g.value .none name origin.isSome)
    · have hl : m'.lit = chosen g.value .none name origin.isSome := by
        have := h.value (by rw [hr.name]; exact ht)
        rw [this, hr.name]; rfl
      rw [if_pos ht, hl, if_pos (isTrue_iff.2 ht)]
    · have hl : m'.lit = .none := (h.noValue (by rw [hr.name]; exact ht)).trans hr.noValue
      rw [if_neg ht, hl, if_neg (by decide), htext]
      by_cases hi : (origin.isSome || g.every) = true
      · rw [if_pos hi]
        have hf := h.formatter (.inl (by
          cases hc : origin.isSome with
          | true => show ChildrenIncluded g.opts; unfold ChildrenIncluded GroupConfig.opts; cases g.every <;> simp
          | false =>
            rw [hc] at hi
            exact .inr hi))
        rw [hf, hr.name, show g.opts.formatter = g.formatter from rfl]
        cases chosen g.formatter (some fun v => v) name origin.isSome <;> rfl
      · rw [if_neg hi]
        have hc : origin.isSome = false := by cases hc : origin.isSome with | false => rfl | true => rw [hc] at hi; simp at hi
        have he : g.every = false := by cases hc : g.every with | false => rfl | true => rw [hc] at hi; simp at hi
        have hf := h.noFormatter (by
          rw [hc]
          rintro (h | h)
          · rcases h with h | h
            · simp [GroupConfig.opts, he] at h
            · rw [show g.opts.every = g.every from rfl, he] at h; cases h
          · cases h)
        rw [hf, hform hc]
  · show m'.priv = (decide _ || _)
    rw [Bool.eq_iff_iff, Bool.or_eq_true, decide_eq_true_eq, h.priv]
    constructor
    · rintro (hp | ⟨n, hn, hne', hm⟩ | ⟨hc, hp⟩ | ⟨hc, hp⟩)
      · rw [hr.isPublic] at hp; cases hp
      · exact .inl ⟨n, hr.name.symm.trans hn, hne', hm⟩
      · exact .inr (by rw [hc]; exact hp)
      · exact .inr (by rw [hc]; exact hp)
    · rintro (⟨n, hn, hne', hm⟩ | hp)
      · exact .inr (.inl ⟨n, hr.name.trans hn, hne', hm⟩)
      · cases hc : origin.isSome with
        | true => rw [hc] at hp; exact .inr (.inr (.inr ⟨rfl, hp⟩))
        | false => rw [hc] at hp; exact .inr (.inr (.inl ⟨rfl, hp⟩))

theorem each_of_map {α β γ : Type} {R : α → β → Prop} (f : β → γ) (k : α → γ → Prop) : ∀ {as : List α} {bs : List β}, as.length = bs.length →
    (∀ (i : Nat) a b, as[i]? = some a → bs[i]? = some b → R a b) → Each R as bs
  | [], [], _, _ => .nil
  | [], _ :: _, h, _ => by cases h
  | _ :: _, [], h, _ => by cases h
  | a :: as, b :: bs, h, hi => .cons (hi 0 a b rfl rfl) (each_of_map f k (Nat.succ.inj h) (fun i => hi (i + 1)))

theorem participation_span {rc : Bool} {gr : ReGroup} (h : EngineGroup gr) {sp : Int × Int} (hs : sp ∈ participations rc gr) : 0 ≤ sp.1 ∧ sp.1 ≤ sp.2 := by
  unfold participations at hs
  cases rc with
  | true => simp only [if_true] at hs; exact h.2 sp hs
  | false =>
    simp only [Bool.false_eq_true, if_false] at hs
    split at hs
    · cases hs
    · rw [List.mem_singleton] at hs; subst hs
      rcases h.1 with h | h
      · contradiction
      · exact h

theorem expected_span {rc : Bool} {pn : Option String} {names : List (Option String)} {groups : List ReGroup} (h : ∀ g ∈ groups, EngineGroup g)
    {x : (Int × Int) × Option String} (hx : x ∈ expectedChildren rc pn names groups) : 0 ≤ x.1.1 ∧ x.1.1 < x.1.2 := by
  unfold expectedChildren at hx
  obtain ⟨ng, h1, h2⟩ := List.mem_flatMap.1 hx
  obtain ⟨sp, h3, rfl⟩ := List.mem_map.1 h2
  obtain ⟨h4, h5⟩ := List.mem_filter.1 h3
  have hne : sp.1 ≠ sp.2 := of_decide_eq_true h5
  have := participation_span (h ng.2 (List.of_mem_zip h1).2) h4
  exact ⟨this.1, by show sp.1 < sp.2; omega⟩

theorem no_processor {u : MTree} {r : Option MTree} (h : After none u r) : r = some u := by
  cases h with
  | absent _ => rfl
  | unchanged _ h => cases h
  | replaced _ _ h => cases h
  | dropped _ h => cases h

/-- The configured match of a match object: the whole match and its groups are the captures expected. -/
theorem configured_groups {id : Nat} {input : Str} {g : GroupConfig} {rc : Bool} {names : List (Option String)} {o : ReObj} {t V T : MTree} {rank : Nat}
    (hm : RegexMatch id g.opts.opts rc names input o t) (ho : 0 ≤ o.start ∧ o.start < o.stop ∧ o.stop ≤ input.length)
    (he : ∀ gr ∈ o.groups, EngineGroup gr) (h1 : ParentConfigured g.opts rank t V) (h2 : ChildrenConfigured g.opts rank V T) :
    Captures input (g.whole input rank o) V.root ∧ Each (Captures input) (g.parts rc names input rank o) (T.children.map MTree.root) := by
  have hne : input ≠ [] := by
    rintro rfl
    simp at ho
    omega
  have hspan : V.root.span = (o.start, o.stop) := h1.root.span.trans hm.main.span
  have hanc : V.root.ancestors = [] := h1.rootLink.trans hm.main.noParent
  have hlinkV : Linked V := h1.linked hm.parent
  have hlen : (expectedChildren rc g.name names o.groups).length = t.children.length := by
    have := congrArg List.length hm.children
    rw [List.length_map] at this
    exact this.symm
  refine ⟨?_, ?_⟩
  · refine captured (origin := none) hne ⟨hm.main.span, hm.main.name, hm.main.tags, hm.main.priv, hm.main.marker, hm.main.solver, hm.main.noValue,
      hm.main.input, hm.main.noRaw⟩ ho.1 ho.2.1 (fun _ => hm.main.noFormatter) h1.root ?_
    rw [hanc]; rfl
  · refine each_of_map (γ := Unit) (fun _ => ()) (fun _ _ => True) (by unfold GroupConfig.parts; rw [List.length_map, List.length_map, h2.count, h1.count, hlen]) ?_
    intro i a b ha hb
    unfold GroupConfig.parts at ha
    rw [List.getElem?_map] at ha hb
    cases hx : (expectedChildren rc g.name names o.groups)[i]? with
    | none => rw [hx] at ha; cases ha
    | some x =>
      rw [hx] at ha; cases ha
      cases hC : T.children[i]? with
      | none => rw [hC] at hb; cases hb
      | some C =>
        rw [hC] at hb; cases hb
        have hil : i < t.children.length := by
          rw [← hlen]
          rcases Nat.lt_or_ge i (expectedChildren rc g.name names o.groups).length with h | h
          · exact h
          · rw [List.getElem?_eq_none h] at hx; cases hx
        have hiV : V.children[i]? = some (V.children[i]'(by rw [h1.count]; exact hil)) := List.getElem?_eq_getElem _
        have hit : t.children[i]? = some (t.children[i]) := List.getElem?_eq_getElem _
        obtain ⟨k1, k2⟩ := h2.child i _ _ hiV hC
        have k3 := h1.child i _ _ hit hiV
        have k4 := hlinkV _ (List.mem_of_getElem? hiV)
        have k5 := hm.child _ (List.mem_of_getElem? hit)
        have k6 : (t.children[i].root.span, t.children[i].root.name) = x := by
          have := congrArg (fun l => l[i]?) hm.children
          simp only [List.getElem?_map, hit, Option.map_some] at this
          have : some _ = some x := this.trans hx
          exact Option.some.inj this
        have hspanx := expected_span he (List.mem_of_getElem? hx)
        generalize hc : (V.children[i]'(by rw [h1.count]; exact hil)) = c at k1 k2 k3 k4
        generalize t.children[i] = c0 at k3 k5 k6
        obtain ⟨_, q2, q3, q4, q5, _, q7, q8, q9, q10⟩ := k5
        have hfields : c0.root = { c.root with ancestors := c0.root.ancestors } := by
          have k3 : ({ c0.root with ancestors := [] } : Match) = { c.root with ancestors := [] } := k3
          cases h0 : c0.root; cases h' : c.root
          rw [h0, h'] at k3
          simp only [Match.mk.injEq] at k3 ⊢
          obtain ⟨p1, p2, p3, p4, p5, p6, p7, p8, p9, p10, p11, p12, p13, p14, p15, _⟩ := k3
          exact ⟨p1, p2, p3, p4, p5, p6, p7, p8, p9, p10, p11, p12, p13, p14, p15, trivial⟩
        have hraw : RawCapture input g x.1 x.2 c.root := by
          rw [hfields] at q2 q3 q4 q5 q7 q8 q9 q10 k6
          subst k6
          exact ⟨rfl, rfl, q2, q3, q5, q4, q8, q7, q9, q10⟩
        refine captured (origin := some (o.start, o.stop)) hne hraw hspanx.1 hspanx.2 (fun h => by cases h) k1 ?_
        rw [k2, k4, hanc]
        simp only [List.map_cons, List.map_nil, Match.core, Option.toList_some]
        rw [show V.root.start = o.start from congrArg Prod.fst hspan, show V.root.stop = o.stop from congrArg Prod.snd hspan]

theorem agrees_iff {input : Str} {g : GroupConfig} (hj : g.Judging input) {x : Capture} {t : MTree} (h : Captures input x t.root) :
    g.Agrees input x ↔ ∀ v, chosen g.validator (some (fun _ => true)) t.root.name x.origin.isSome = some v → v t = true := by
  rw [h.name]
  constructor
  · intro ha v hv
    exact ha v hv t h
  · intro ha v hv t' ht'
    rw [hj x v hv t' t ht' h]
    exact ha v hv

theorem whole_origin {g : GroupConfig} {input : Str} {rank : Nat} {o : ReObj} : (g.whole input rank o).origin = none := rfl

theorem parts_origin {g : GroupConfig} {rc : Bool} {names : List (Option String)} {input : Str} {rank : Nat} {o : ReObj} {x : Capture}
    (h : x ∈ g.parts rc names input rank o) : x.origin = some (o.start, o.stop) := by
  obtain ⟨y, _, rfl⟩ := List.mem_map.1 h
  rfl

theorem accepted_groups {input : Str} {g : GroupConfig} (hj : g.Judging input) {rc : Bool} {names : List (Option String)} {o : ReObj} {V T : MTree} {rank : Nat}
    (hV : Captures input (g.whole input rank o) V.root) (hT : Each (Captures input) (g.parts rc names input rank o) (T.children.map MTree.root)) :
    Accepted g.opts V T ↔ (g.every = true → g.Agrees input (g.whole input rank o)) ∧ ∀ x ∈ g.parts rc names input rank o, g.Agrees input x := by
  have hch : ChildrenIncluded g.opts := by unfold ChildrenIncluded GroupConfig.opts; cases g.every <;> simp
  constructor
  · rintro ⟨ha, hb⟩
    refine ⟨fun hev => (agrees_iff hj hV).2 ?_, ?_⟩
    · intro v hv
      exact ha (.inl (.inr hev)) v hv
    · intro x hx
      obtain ⟨m, hm, hc⟩ := each_mem_left hT x hx
      obtain ⟨C, hC, rfl⟩ := List.mem_map.1 hm
      refine (agrees_iff hj hc).2 ?_
      rw [parts_origin hx]
      intro v hv
      exact hb C hC (.inl hch) v hv
  · rintro ⟨ha, hb⟩
    refine ⟨?_, ?_⟩
    · intro hi v hv
      have hev : g.every = true := by
        rcases hi with h | h
        · rcases h with h | h
          · simpa [GroupConfig.opts] using h
          · exact h
        · cases h
      exact (agrees_iff hj hV).1 (ha hev) v hv
    · intro C hC hi v hv
      obtain ⟨x, hx, hc⟩ := each_mem_right hT C.root (List.mem_map.2 ⟨C, hC, rfl⟩)
      have := (agrees_iff hj hc).1 (hb x hx)
      rw [parts_origin hx] at this
      exact this v hv

open Classical in
theorem emits_groups {id : Nat} {input : Str} {g : GroupConfig} (hg : g.Judging input) {rc : Bool} {names : List (Option String)} {o : ReObj} {t : MTree} {rank : Nat} {l : List MTree}
    (h : Emits g.opts rank t l) (hm : RegexMatch id g.opts.opts rc names input o t) (ho : 0 ≤ o.start ∧ o.start < o.stop ∧ o.stop ≤ input.length)
    (he : ∀ gr ∈ o.groups, EngineGroup gr) :
    Each (Captures input) (g.capturesOf rc names input rank o) (l.map MTree.root) := by
  have hs1 : t.root.start = o.start := congrArg Prod.fst hm.main.span
  have hs2 : t.root.stop = o.stop := congrArg Prod.snd hm.main.span
  cases h with
  | dropped h => have := no_processor h; cases this
  | emptied h he => have := no_processor h; cases this; omega
  | refused h _ h1 h2 hn =>
    have := no_processor h; cases this
    obtain ⟨c1, c2⟩ := configured_groups hm ho he h1 h2
    unfold GroupConfig.capturesOf
    rw [if_neg (fun hx => hn ((accepted_groups hg c1 c2).2 hx))]
    exact .nil
  | droppedAfter _ _ _ _ _ h => have := no_processor h; cases this
  | emptiedAfter h _ h1 h2 _ h3 he =>
    have := no_processor h; cases this
    have := no_processor h3; cases this
    rw [h2.root] at he
    have e1 : _ = t.root.start := congrArg Prod.fst h1.root.span
    have e2 : _ = t.root.stop := congrArg Prod.snd h1.root.span
    simp only [Match.span] at e1 e2
    omega
  | @emitted t1 V T r h _ h1 h2 ha h3 _ =>
    have := no_processor h; cases this
    have := no_processor h3; cases this
    obtain ⟨hroot, hkids⟩ := configured_groups hm ho he h1 h2
    have hroot' : Captures input (g.whole input rank o) T.root := by rw [h2.root]; exact hroot
    have hname : ∀ {x : Capture} {m : Match}, Captures input x m → (∀ n, x.hit.name = some n → n ∉ g.ignored) = NotIgnored g.opts m := by
      intro x m hx
      unfold NotIgnored
      rw [hx.name]
      rfl
    have hinc : ((ParentIncluded g.opts ∨ g.opts.privateParent = true)) ↔ (g.every || g.hiddenParent) = true := by
      unfold ParentIncluded GroupConfig.opts
      simp
    unfold emission GroupConfig.capturesOf
    rw [if_pos ((accepted_groups hg hroot hkids).1 ha),
      if_pos (c := ChildrenIncluded g.opts ∨ _) (.inl (by unfold ChildrenIncluded GroupConfig.opts; cases g.every <;> simp)), List.map_append, List.filter_append]
    refine each_append ?_ ?_
    · by_cases hev : (g.every || g.hiddenParent) = true
      · rw [if_pos hev]
        by_cases hni : NotIgnored g.opts T.root
        · rw [if_pos ⟨hinc.2 hev, hni⟩, List.filter_cons, if_pos (by rw [decide_eq_true_eq, hname hroot']; exact hni)]
          exact .cons hroot' .nil
        · rw [if_neg (fun h => hni h.2), List.filter_cons, if_neg (by rw [decide_eq_true_eq, hname hroot']; exact hni)]
          exact .nil
      · rw [if_neg hev, if_neg (fun h => hev (hinc.1 h.1))]
        exact .nil
    · have e : (T.children.filter (fun c => decide (NotIgnored g.opts c.root))).map MTree.root =
          (T.children.map MTree.root).filter (fun m => decide (NotIgnored g.opts m)) := by
        rw [List.filter_map]; rfl
      rw [e]
      exact each_filter hkids (fun x _ y _ hxy => decide_eq_decide.2 (by rw [hname hxy]))

/-! ## The whole pattern -/

/-- A capture that is not empty, as the whole match. -/
def Solid (x : Capture) : Prop := x.hit.start < x.hit.stop ∧ ∀ o, x.origin = some o → o.1 < o.2

theorem solid_capturesOf {g : GroupConfig} {rc : Bool} {names : List (Option String)} {input : Str} {rank : Nat} {o : ReObj} (ho : o.start < o.stop)
    (he : ∀ gr ∈ o.groups, EngineGroup gr) : ∀ x ∈ g.capturesOf rc names input rank o, Solid x := by
  intro x hx
  unfold GroupConfig.capturesOf at hx
  split at hx
  case isFalse => cases hx
  rcases List.mem_append.1 (List.mem_filter.1 hx).1 with hx | hx
  · split at hx
    · rw [List.mem_singleton] at hx; subst hx
      exact ⟨ho, fun _ h => by cases h⟩
    · cases hx
  · obtain ⟨y, hy, rfl⟩ := List.mem_map.1 hx
    exact ⟨(expected_span he hy).2, fun _ h => by cases h; exact ho⟩

theorem emitsAll_groups {id : Nat} {input : Str} {g : GroupConfig} (hg : g.Judging input) {rc : Bool} {names : List (Option String)} :
    ∀ {objs : List ReObj} {ts l : List MTree} {i : Nat}, Each (RegexMatch id g.opts.opts rc names input) objs ts →
    (∀ o ∈ objs, (0 ≤ o.start ∧ o.start < o.stop ∧ o.stop ≤ input.length) ∧ ∀ gr ∈ o.groups, EngineGroup gr) → EmitsAll g.opts i ts l →
    Each (Captures input) (objs.mapIdx (fun k o => g.capturesOf rc names input (k + i) o)).flatten (l.map MTree.root)
  | _, _, _, _, .nil, _, .nil => .nil
  | o :: objs, _, _, i, .cons hm ht, ho, .cons h1 h2 => by
    have ih := emitsAll_groups hg (i := i + 1) ht (fun o h => ho o (List.mem_cons_of_mem _ h)) h2
    rw [List.mapIdx_cons, List.flatten_cons, List.map_append]
    refine each_append ?_ ?_
    · rw [Nat.zero_add]
      exact emits_groups hg h1 hm (ho o (by simp)).1 (ho o (by simp)).2
    · have e : (fun k o => g.capturesOf rc names input (k + 1 + i) o) = fun k o => g.capturesOf rc names input (k + (i + 1)) o := by
        funext k o; rw [Nat.add_assoc, Nat.add_comm 1 i]
      rw [e]; exact ih

theorem returns_groups {id : Nat} {input : Str} {g : GroupConfig} (hg : g.Judging input) {rc : Bool} : ∀ {regexes : List Regex} {raws parts : List (List MTree)},
    (∀ re ∈ regexes, ∀ o ∈ re.finditer input, 0 ≤ o.start ∧ o.start ≤ o.stop ∧ o.stop ≤ input.length ∧ ∀ g ∈ o.groups, EngineGroup g) →
    Each (RegexRaws id g.opts rc input) regexes raws → Each (fun rs l => EmitsAll g.opts 0 rs l) raws parts →
    Each (Captures input) (regexes.flatMap (g.captures rc input)) (parts.flatten.map MTree.root)
  | _, _, _, _, .nil, .nil => .nil
  | re :: res, _, _, hr, .cons h ht, .cons k kt => by
    rw [List.flatMap_cons, List.flatten_cons, List.map_append]
    refine each_append (emitsAll_groups hg h ?_ k) (returns_groups hg (fun r h => hr r (List.mem_cons_of_mem _ h)) ht kt)
    intro o ho
    obtain ⟨h1, h2⟩ := List.mem_filter.1 ho
    have hne : o.start ≠ o.stop := of_decide_eq_true h2
    obtain ⟨a, b, c, d⟩ := hr re (by simp) o h1
    exact ⟨⟨a, by omega, c⟩, d⟩

theorem solid_captures {g : GroupConfig} {rc : Bool} {input : Str} {re : Regex}
    (hr : ∀ o ∈ re.finditer input, o.start ≤ o.stop ∧ ∀ g ∈ o.groups, EngineGroup g) : ∀ x ∈ g.captures rc input re, Solid x := by
  intro x hx
  unfold GroupConfig.captures at hx
  obtain ⟨l, hl, hx⟩ := List.mem_flatten.1 hx
  obtain ⟨i, hi, rfl⟩ := List.mem_mapIdx.1 hl
  have hm := List.getElem_mem hi
  obtain ⟨h1, h2⟩ := List.mem_filter.1 hm
  have hne := of_decide_eq_true h2
  obtain ⟨a, b⟩ := hr _ h1
  exact solid_capturesOf (by omega) b x hx

/-- What one pattern returns. -/
theorem group_matches {lower : Str → Str} {input : Str} {ctx : Ctx} {p : PatternObj Ctx} (h : GroupPattern lower input ctx p)
    (hd : p.info.disabled ctx = false) :
    ∃ xs out, FindsOf lower input ctx p xs ∧ p.matches_ lower input = .ok out ∧ Each (Captures input) xs (out.map MTree.root) ∧ ∀ x ∈ xs, Solid x := by
  cases h with
  | plain h =>
    obtain ⟨xs, out, h1, h2, h3, h4⟩ := conf_matches h hd
    refine ⟨_, out, .plain h1, h2, ?_, ?_⟩
    · clear h1 h2 h4
      generalize out.map MTree.root = ms at h3
      induction h3 with
      | nil => exact .nil
      | cons hx _ ih =>
        refine .cons ⟨hx.span, hx.rank, hx.value, hx.name, hx.tags, hx.isPublic, hx.noMarker, ?_, hx.noSolver, hx.input, hx.raw⟩ ih
        rw [hx.noParent]; rfl
    · intro x hx
      obtain ⟨y, hy, rfl⟩ := List.mem_map.1 hx
      exact ⟨h4 y hy, fun _ h => by cases h⟩
  | @groups info id g rc regexes hf hv hg hr =>
    obtain ⟨raws, out, h1, h2, parts, h3, h4⟩ := C106_regexes id g.opts info lower rc regexes input
      hf hv keepsOrder_none keepsOrder_none rfl (fun re hre o ho => by
        obtain ⟨_, b, _, c⟩ := hr re hre o ho; exact ⟨b, c⟩)
    have h4 : out = parts.flatten := h4
    subst h4
    refine ⟨_, _, .groups id g rc hd, h1, returns_groups hg hr h2 h3, ?_⟩
    intro x hx
    obtain ⟨re, hre, hx⟩ := List.mem_flatMap.1 hx
    exact solid_captures (fun o ho => by obtain ⟨_, b, _, d⟩ := hr re hre o ho; exact ⟨b, d⟩) x hx

theorem group_collects {lower : Str → Str} {ctx : Ctx} {input : Str} : ∀ {ps : List (PatternObj Ctx)}, (∀ p ∈ ps, GroupPattern lower input ctx p) →
    ∃ xss ts, Each (FindsOf lower input ctx) ps xss ∧ Collects lower ctx input ps ts ∧ Each (Captures input) xss.flatten (ts.map MTree.root) ∧
      ∀ x ∈ xss.flatten, Solid x
  | [], _ => ⟨[], [], .nil, .nil, .nil, by simp⟩
  | p :: ps, h => by
    obtain ⟨xss, ts, g1, g2, g3, g4⟩ := group_collects (ps := ps) (fun p hp => h p (List.mem_cons_of_mem _ hp))
    cases hd : p.info.disabled ctx with
    | true => exact ⟨[] :: xss, ts, .cons (.plain (.disabled hd)) g1, .disabled hd g2, g3, g4⟩
    | false =>
      obtain ⟨xs, out, k1, k2, k3, k4⟩ := group_matches (h p (by simp)) hd
      refine ⟨xs :: xss, out ++ ts, .cons k1 g1, .enabled hd k2 g2, ?_, ?_⟩
      · rw [List.flatten_cons, List.map_append]
        exact each_append k3 g3
      · intro x hx
        rw [List.flatten_cons] at hx
        rcases List.mem_append.1 hx with hx | hx
        · exact k4 x hx
        · exact g4 x hx

/-! ## From matches to captures -/

theorem captures_weight {input : Str} {x : Capture} {m : Match} (h : Captures input x m) (hs : Solid x) : m.initLen = x.weight := by
  have e1 : m.start = x.hit.start := congrArg Prod.fst h.span
  have e2 : m.stop = x.hit.stop := congrArg Prod.snd h.span
  have hp := h.parents
  unfold Match.initLen Match.initiator Capture.weight
  cases ho : x.origin with
  | none =>
    rw [ho] at hp
    simp only [Option.toList_none, List.map_eq_nil_iff] at hp
    rw [hp]
    show m.stop - m.start = _
    rw [e1, e2]
  | some o =>
    rw [ho] at hp
    simp only [Option.toList_some] at hp
    cases ha : m.ancestors with
    | nil => rw [ha] at hp; cases hp
    | cons p ps =>
      rw [ha, List.map_cons] at hp
      obtain ⟨h1, h2⟩ := List.cons.inj hp
      have := List.map_eq_nil_iff.1 h2
      subst this
      have hlt := hs.2 o ho
      have q1 : p.start = o.1 := congrArg Prod.fst h1
      have q2 : p.stop = o.2 := congrArg Prod.snd h1
      unfold Match.initiatorFrom
      rw [if_neg (by rw [q1, q2, beq_iff_eq]; omega)]
      show p.stop - p.start = _
      rw [q1, q2]

theorem captures_meets {input : Str} {x y : Capture} {m n : Match} (hx : Captures input x m) (hy : Captures input y n) (sx : Solid x) (sy : Solid y) :
    Overlap m n ↔ x.Meets y := by
  have e1 : m.start = x.hit.start := congrArg Prod.fst hx.span
  have e2 : m.stop = x.hit.stop := congrArg Prod.snd hx.span
  have e3 : n.start = y.hit.start := congrArg Prod.fst hy.span
  have e4 : n.stop = y.hit.stop := congrArg Prod.snd hy.span
  have := sx.1
  have := sy.1
  rw [overlap_iff (by omega) (by omega), e1, e2, e3, e4]
  rfl

theorem captures_alike {input : Str} {x y : Capture} {m n : Match} (hx : Captures input x m) (hy : Captures input y n) (h : m.eqv n = true) : x.Alike y := by
  rw [Match.eqv_iff] at h
  simp only [Match.eqKey, Match.EqKey.mk.injEq] at h
  obtain ⟨h1, h2, h3, h4⟩ := h
  have hs : (x.hit.start, x.hit.stop) = (y.hit.start, y.hit.stop) := by rw [← hx.span, ← hy.span, h1]
  have ho : x.origin.toList = y.origin.toList := by rw [← hx.parents, ← hy.parents, h4]
  refine ⟨congrArg Prod.fst hs, congrArg Prod.snd hs, by rw [← hx.value, ← hy.value, h2], by rw [← hx.name, ← hy.name, h3], ?_⟩
  cases hxo : x.origin with
  | none =>
    cases hyo : y.origin with
    | none => rfl
    | some b => rw [hxo, hyo] at ho; cases ho
  | some a =>
    cases hyo : y.origin with
    | none => rw [hxo, hyo] at ho; cases ho
    | some b => rw [hxo, hyo] at ho; cases ho; rfl

theorem each_sublist {α β : Type} {R : α → β → Prop} {as : List α} {bs ks : List β} (h : Each R as bs) (hs : ks.Sublist bs) : ∃ js, js.Sublist as ∧ Each R js ks := by
  induction h generalizing ks with
  | nil => cases hs; exact ⟨[], .slnil, .nil⟩
  | cons hab _ ih =>
    cases hs with
    | cons _ h =>
      obtain ⟨js, h1, h2⟩ := ih h
      exact ⟨js, h1.cons _, h2⟩
    | cons_cons _ h =>
      obtain ⟨js, h1, h2⟩ := ih h
      exact ⟨_ :: js, h1.cons_cons _, .cons hab h2⟩

theorem each_pairwise {α β : Type} {R : α → β → Prop} {P : α → α → Prop} {Q : β → β → Prop} {as : List α} {bs : List β} (h : Each R as bs)
    (hpq : ∀ a b a' b', R a b → R a' b' → P a a' → Q b b') (hp : as.Pairwise P) : bs.Pairwise Q := by
  induction h with
  | nil => exact .nil
  | cons hab ht ih =>
    obtain ⟨h1, h2⟩ := List.pairwise_cons.1 hp
    refine List.pairwise_cons.2 ⟨?_, ih h2⟩
    intro b' hb'
    obtain ⟨a', ha', hr⟩ := each_mem_right ht b' hb'
    exact hpq _ _ _ _ hab hr (h1 a' ha')

theorem each_content_any {α : Type} {R : α → Match → Prop} (hR : ∀ x m m', content m = content m' → R x m → R x m') : ∀ {a : List α} {b b' : List Match},
    Each R a b → b'.map content = b.map content → Each R a b'
  | _, _, [], .nil, _ => .nil
  | _, _, _ :: _, .nil, h => by cases h
  | _, _, [], .cons _ _, h => by cases h
  | _, _, _ :: _, .cons hx ht, h => by
    rw [List.map_cons, List.map_cons] at h
    obtain ⟨h1, h2⟩ := List.cons.inj h
    exact .cons (hR _ _ _ h1.symm hx) (each_content_any hR ht h2)

theorem captures_content {input : Str} {x : Capture} {m m' : Match} (h : content m = content m') (hs : Captures input x m) : Captures input x m' := by
  have e : m' = { m with id := m'.id } := by
    cases m; cases m'
    simp only [content, Match.mk.injEq] at h
    obtain ⟨_, h1, h2, h3, h4, h5, h6, h7, h8, h9, h10, h11, h12, h13, h14, h15⟩ := h
    subst h1 h2 h3 h4 h5 h6 h7 h8 h9 h10 h11 h12 h13 h14 h15
    rfl
  rw [e]
  exact ⟨hs.span, hs.rank, hs.value, hs.name, hs.tags, hs.priv, hs.noMarker, hs.parents, hs.noSolver, hs.input, hs.raw⟩

theorem alike_refl (x : Capture) : x.Alike x := ⟨rfl, rfl, rfl, rfl, rfl⟩
theorem Spec.Capture.Alike.symm {x y : Capture} (h : x.Alike y) : y.Alike x := ⟨h.1.symm, h.2.1.symm, h.2.2.1.symm, h.2.2.2.1.symm, h.2.2.2.2.symm⟩

theorem pairwise_mem {α : Type} {P : α → α → Prop} (hs : ∀ {a b}, P a b → P b a) {l : List α} (h : l.Pairwise P) : ∀ a ∈ l, ∀ b ∈ l, a ≠ b → P a b := by
  induction h with
  | nil => intro a ha; cases ha
  | cons h _ ih =>
    intro a ha b hb hne
    rcases List.mem_cons.1 ha with e1 | ha2
    · rcases List.mem_cons.1 hb with e2 | hb2
      · exact absurd (e1.trans e2.symm) hne
      · rw [e1]; exact h b hb2
    · rcases List.mem_cons.1 hb with e2 | hb2
      · rw [e2]; exact hs (h a ha2)
      · exact ih a ha2 b hb2 hne

/-! ## The theorems -/

/-- From the captures of the patterns to what the search answers. -/
theorem captures_found {env : Env (List Match)} (henv : DefaultEnv env) {r : RebulkObj Ctx} (hr : DefaultRulesOnly r) (input : Str) (ctx : Ctx)
    (hd : r.disabled ctx = false) {ts : List MTree} {xs : List Capture} (h1 : Collects env.lower ctx input (r.effectivePatterns ctx) ts)
    (g2 : Each (Captures input) xs (ts.map MTree.root)) (g3 : ∀ x ∈ xs, Solid x) (hdist : xs.Pairwise (fun x y => ¬ x.Alike y)) :
    ∃ f kept, r.matches_ env input ctx = .ok f ∧ HeaviestKept xs kept ∧ Each (Captures input) kept f.found.delegate ∧ f.markers.delegate = [] ∧
      LookupsRight f.found ∧ LookupsRight f.markers := by
  have hmark : ∀ m ∈ ts.map MTree.root, m.marker = false := by
    intro m hm
    obtain ⟨x, _, hx⟩ := each_mem_right g2 m hm
    exact hx.noMarker
  have e0 : rootsOf false ts = ts.map MTree.root := by
    unfold rootsOf
    rw [List.filter_eq_self]
    intro m hm
    rw [hmark m hm]; rfl
  have e1 : rootsOf true ts = [] := by
    unfold rootsOf
    rw [List.filter_eq_nil_iff]
    intro m hm
    rw [hmark m hm]; decide
  have hfound : DistinctFound (rootsOf false ts) := by
    rw [e0]
    refine ⟨?_, ?_, ?_, ?_⟩
    · refine each_pairwise g2 ?_ hdist
      intro a b a' b' ha hb hn
      cases he : b.eqv b' with
      | false => rfl
      | true => exact absurd (captures_alike ha hb he) hn
    · intro m hm _
      obtain ⟨x, hx, hc⟩ := each_mem_right g2 m hm
      have e1 : m.start = x.hit.start := congrArg Prod.fst hc.span
      have e2 : m.stop = x.hit.stop := congrArg Prod.snd hc.span
      rw [e1, e2]; exact (g3 x hx).1
    · intro m hm _
      obtain ⟨x, hx, hc⟩ := each_mem_right g2 m hm
      exact hc.noSolver
    · intro m hm _
      obtain ⟨x, hx, hc⟩ := each_mem_right g2 m hm
      rw [captures_weight hc (g3 x hx)]
      unfold Capture.weight
      cases ho : x.origin with
      | none => have := (g3 x hx).1; simp only; omega
      | some o => have := (g3 x hx).2 o ho; simp only; omega
  obtain ⟨f, kept, h2, h3, h4, h5, h6, h7⟩ := C74_distinct henv hr input ctx hd h1 hfound
  rw [e0] at h3
  obtain ⟨ks, k1, k2⟩ := each_sublist g2 h3.order
  refine ⟨f, ks, h2, ⟨k1, ?_, ?_, ?_⟩, each_content_any (R := Captures input) (fun x m m' h hs => captures_content h hs) k2 h4, ?_, h6, h7⟩
  · intro x hx
    obtain ⟨m, hm, hc⟩ := each_mem_left k2 x hx
    rw [← hc.priv]; exact h3.isPublic m hm
  · intro x hx y hy hmt
    obtain ⟨m, hm, hc⟩ := each_mem_left k2 x hx
    obtain ⟨n, hn, hc'⟩ := each_mem_left k2 y hy
    rw [← captures_weight hc (g3 x (k1.subset hx)), ← captures_weight hc' (g3 y (k1.subset hy))]
    exact h3.settled m hm n hn ((captures_meets hc hc' (g3 x (k1.subset hx)) (g3 y (k1.subset hy))).2 hmt)
  · intro x hx hnk hpub
    obtain ⟨m, hm, hc⟩ := each_mem_left g2 x hx
    have hnm : m ∉ kept := by
      intro hmk
      obtain ⟨y, hy, hcy⟩ := each_mem_right k2 m hmk
      have hal : x.Alike y := captures_alike hc hcy (Match.eqv_refl m)
      have : x = y := by
        apply Classical.byContradiction
        intro hne
        exact pairwise_mem (fun h h' => h h'.symm) hdist x hx y (k1.subset hy) hne hal
      subst this
      exact hnk hy
    obtain ⟨c, hcm, p1, p2, p3⟩ := h3.dropped m hm hnm (hc.priv.trans hpub)
    obtain ⟨y, hy, hcy⟩ := each_mem_right g2 c hcm
    refine ⟨y, hy, hcy.priv.symm.trans p1, (captures_meets hc hcy (g3 x hx) (g3 y hy)).1 p2, ?_⟩
    rw [← captures_weight hc (g3 x hx), ← captures_weight hcy (g3 y hy)]
    exact p3
  · rw [e1] at h5
    exact List.map_eq_nil_iff.1 h5

/-- **C119**: a rebulk that has only the default rules, whose patterns are regular expressions searched for their groups, or patterns of `C116`, and which finds no two
captures alike. What is found are the public captures, in the order of the patterns, but for those that share a character with one whose whole match is longer (among which a
choice may have to be made). -/
theorem C119_group_search {env : Env (List Match)} (henv : DefaultEnv env) {r : RebulkObj Ctx} (hr : DefaultRulesOnly r) (input : Str) (ctx : Ctx)
    (hd : r.disabled ctx = false) (hp : ∀ p ∈ r.effectivePatterns ctx, GroupPattern env.lower input ctx p) :
    ∃ xss, Each (FindsOf env.lower input ctx) (r.effectivePatterns ctx) xss ∧ (xss.flatten.Pairwise (fun x y => ¬ x.Alike y) →
      ∃ f kept, r.matches_ env input ctx = .ok f ∧ HeaviestKept xss.flatten kept ∧ Each (Captures input) kept f.found.delegate ∧ f.markers.delegate = [] ∧
        LookupsRight f.found ∧ LookupsRight f.markers) := by
  obtain ⟨xss, ts, g1, h1, g2, g3⟩ := group_collects hp
  exact ⟨xss, g1, captures_found henv hr input ctx hd h1 g2 g3⟩

theorem sublist_all {α : Type} {p : α → Bool} {l k : List α} (h : k.Sublist l) (hn : l.Nodup) (hk : ∀ x ∈ k, p x = true) (hall : ∀ x ∈ l, p x = true → x ∈ k) :
    k = l.filter p := by
  induction h with
  | slnil => rfl
  | @cons k l a hs ih =>
    obtain ⟨h1, h2⟩ := List.nodup_cons.1 hn
    have ha : ¬ p a = true := fun hp => h1 (hs.subset (hall a (by simp) hp))
    rw [List.filter_cons, if_neg ha]
    exact ih h2 hk (fun x hx hp => hall x (List.mem_cons_of_mem _ hx) hp)
  | @cons_cons k l a hs ih =>
    obtain ⟨h1, h2⟩ := List.nodup_cons.1 hn
    rw [List.filter_cons, if_pos (hk a (by simp))]
    congr 1
    refine ih h2 (fun x hx => hk x (List.mem_cons_of_mem _ hx)) (fun x hx hp => ?_)
    rcases List.mem_cons.1 (hall x (List.mem_cons_of_mem _ hx) hp) with rfl | h
    · exact absurd hx h1
    · exact h

theorem captures_all {xs kept : List Capture} (k2 : HeaviestKept xs kept) (hdist : xs.Pairwise (fun x y => ¬ x.Alike y))
    (hw : ∀ x ∈ xs, ∀ y ∈ xs, x.Meets y → x.weight = y.weight) : kept = xs.filter (fun x => !x.hidden) := by
  refine sublist_all k2.order ?_ (fun x hx => by rw [k2.isPublic x hx]; rfl) ?_
  · exact hdist.imp (fun {a b} h (e : a = b) => h (by rw [e]; exact alike_refl b))
  · intro x hx hpub
    apply Classical.byContradiction
    intro hnk
    obtain ⟨c, hc, _, hm, hlt⟩ := k2.lost x hx hnk (by simpa using hpub)
    have := hw x hx c hc hm
    omega

/-- **C119** when captures that share a character belong to whole matches of the same length: all public captures are found. -/
theorem C119_no_conflict {env : Env (List Match)} (henv : DefaultEnv env) {r : RebulkObj Ctx} (hr : DefaultRulesOnly r) (input : Str) (ctx : Ctx)
    (hd : r.disabled ctx = false) (hp : ∀ p ∈ r.effectivePatterns ctx, GroupPattern env.lower input ctx p) :
    ∃ xss, Each (FindsOf env.lower input ctx) (r.effectivePatterns ctx) xss ∧ (xss.flatten.Pairwise (fun x y => ¬ x.Alike y) →
      (∀ x ∈ xss.flatten, ∀ y ∈ xss.flatten, x.Meets y → x.weight = y.weight) →
      ∃ f, r.matches_ env input ctx = .ok f ∧ Each (Captures input) (xss.flatten.filter (fun x => !x.hidden)) f.found.delegate ∧ f.markers.delegate = [] ∧
        LookupsRight f.found ∧ LookupsRight f.markers) := by
  obtain ⟨xss, h1, h2⟩ := C119_group_search henv hr input ctx hd hp
  refine ⟨xss, h1, fun hdist hw => ?_⟩
  obtain ⟨f, kept, k1, k2, k3, k4⟩ := h2 hdist
  exact ⟨f, k1, by rw [← captures_all k2 hdist hw]; exact k3, k4⟩

/-- A regular expression with two named groups, as `S(?P<season>\d+)E(?P<episode>\d+)` on `S03E07 S04E99`. -/
def seasonRegex : Regex :=
  { names := [some "season", some "episode"], finditer := fun _ => [⟨0, 6, [⟨(1, 3), []⟩, ⟨(4, 6), []⟩]⟩, ⟨7, 13, [⟨(8, 10), []⟩, ⟨(11, 13), []⟩]⟩] }

/-- Its options: the season is private, the episode is formatted. -/
def seasonConfig : GroupConfig := { tags := ["t"], formatter := .dict [(some "episode", some (fun _ => .int 7))], hidden := ["season"] }

/-- `every=True`: the whole match too, but no season, and no episode 99. -/
def everyConfig : GroupConfig :=
  { name := some "whole", every := true, value := .dict [(some "__parent__", .int 9)], ignored := ["season"],
    validator := .dict [(some "episode", some (fun t => decide (t.root.value ≠ .str "99".toList)))] }

theorem season_judging (input : Str) : seasonConfig.Judging input := by
  intro x v hv t t' h h'
  rw [show seasonConfig.validator = .absent from rfl, chosen_absent] at hv
  cases hv
  rfl

theorem get_mem {κ α : Type} [BEq κ] : ∀ {d : Dict κ α} {k : κ} {a : α}, d.get? k = some a → a ∈ d.map (fun x => x.2)
  | [], _, _, h => by cases h
  | (k', v) :: d, k, a, h => by
    unfold Dict.get? at h
    rw [List.map_cons]
    split at h
    · cases h; simp
    · exact List.mem_cons_of_mem _ (get_mem h)

theorem getD_among {α : Type} {o : Option α} {a : α} {l : List α} (h : ∀ y, o = some y → y ∈ l) : o.getD a ∈ a :: l := by
  cases o with
  | none => simp
  | some y => exact List.mem_cons_of_mem _ (h y rfl)

/-- What is chosen is one of the things given, or the default. -/
theorem chosen_mem {α : Type} (d : Dict (Option String) α) (a : α) (name : Option String) (child : Bool) :
    chosen (.dict d) a name child ∈ a :: d.map (fun x => x.2) := by
  unfold chosen
  refine getD_among ?_
  intro y hx
  rw [Option.or_eq_some_iff] at hx
  rcases hx with hx | ⟨_, hx⟩
  · rw [Option.or_eq_some_iff] at hx
    rcases hx with hx | ⟨_, hx⟩
    · cases name with
      | none => cases hx
      | some n =>
        simp only at hx
        split at hx
        · cases hx
        · exact get_mem hx
    · exact get_mem hx
  · exact get_mem hx

theorem every_judging (input : Str) : everyConfig.Judging input := by
  intro x v hv t t' h h'
  have hm := chosen_mem [(some "episode", some (fun t : MTree => decide (t.root.value ≠ .str "99".toList)))] (some (fun _ => true)) x.hit.name x.origin.isSome
  rw [show (DictArg.dict [(some "episode", some (fun t : MTree => decide (t.root.value ≠ .str "99".toList)))]) = everyConfig.validator from rfl, hv] at hm
  rcases List.mem_cons.1 hm with hm | hm
  · cases hm; rfl
  · have hm := List.mem_singleton.1 hm
    cases hm
    show decide _ = decide _
    rw [h.value, h'.value]

theorem season_pattern (id : Nat) (g : GroupConfig) (hf : Proper g.formatter) (hv : Proper g.validator) (h : g.Judging "S03E07 S04E99".toList) :
    GroupPattern exEnv.lower "S03E07 S04E99".toList () (.regex {} (Pattern.init id g.opts) false [seasonRegex]) := by
  refine .groups id g false hf hv h ?_
  intro re hre o ho
  rw [List.mem_singleton] at hre; subst hre
  rcases List.mem_cons.1 ho with rfl | ho
  · refine ⟨by decide, by decide, by decide, ?_⟩
    intro x hx
    rcases List.mem_cons.1 hx with rfl | hx
    · exact ⟨by decide, by decide⟩
    · rw [List.mem_singleton] at hx; subst hx; exact ⟨by decide, by decide⟩
  · have ho := List.mem_singleton.1 ho
    subst ho
    refine ⟨by decide, by decide, by decide, ?_⟩
    intro x hx
    rcases List.mem_cons.1 hx with rfl | hx
    · exact ⟨by decide, by decide⟩
    · rw [List.mem_singleton] at hx; subst hx; exact ⟨by decide, by decide⟩

/-- The hypotheses are met, and the search answers so: the season is private in the first pattern and left out in the second, whose second match is not valid. -/
example : let r : RebulkObj Unit := exRebulk [.regex {} (Pattern.init 1 seasonConfig.opts) false [seasonRegex]] [.regex {} (Pattern.init 2 everyConfig.opts) false [seasonRegex]];
    (∀ p ∈ r.effectivePatterns (), GroupPattern exEnv.lower "S03E07 S04E99".toList () p) ∧
    ∃ f, r.matches_ exEnv "S03E07 S04E99".toList () = .ok f ∧ f.found.delegate.map Match.span = [(4, 6), (11, 13), (0, 6), (4, 6)] ∧
      f.found.delegate.map Match.value = [.int 7, .int 7, .int 9, .str "07".toList] := by
  refine ⟨?_, _, rfl, by decide, by decide⟩
  intro p hp
  rcases List.mem_cons.1 hp with rfl | hp
  · exact season_pattern 1 seasonConfig (by intro a h; cases h) (by intro a h; cases h) (season_judging _)
  · have hp := List.mem_singleton.1 hp
    subst hp
    exact season_pattern 2 everyConfig (by intro a h; cases h) (by intro a h; cases h) (every_judging _)

end Rebulk
