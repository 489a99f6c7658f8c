import Verif.Spec.PartSearch
import Verif.Props.GroupSearch
import Verif.Props.RepeatValid
/-!
# C123: the search for the parts of chains of repeated strings
-/
namespace Rebulk
open Spec
variable {Ctx : Type}

/-! ## One match of the chain -/

theorem each_length {α β : Type} {R : α → β → Prop} : ∀ {as : List α} {bs : List β}, Each R as bs → as.length = bs.length
  | _, _, .nil => rfl
  | _, _, .cons _ h => congrArg (· + 1) (each_length h)

theorem each_getElem {α β : Type} {R : α → β → Prop} : ∀ {as : List α} {bs : List β}, Each R as bs → ∀ (i : Nat) a b, as[i]? = some a → bs[i]? = some b → R a b
  | _, _, .nil, _, _, _, h, _ => by cases h
  | _, _, .cons h _, 0, _, _, ha, hb => by cases ha; cases hb; exact h
  | _, _, .cons _ h, i + 1, a, b, ha, hb => each_getElem h i a b (by simpa using ha) (by simpa using hb)

/-- The options that configure a match do not include name and tags. -/
theorem configured_tags {g : GroupConfig} {tags : List String} {rank : Nat} {child : Bool} {m m' : Match} (h : ConfiguredMatch g.opts rank child m m') :
    ConfiguredMatch { g with tags := tags }.opts rank child m m' :=
  ⟨h.index, h.priv, h.value, h.noValue, h.formatter, h.noFormatter, h.span, h.name, h.tags, h.marker, h.input, h.raw, h.solver, h.pattern⟩

/-- The configured match of a chain: the whole match and its copies are the captures expected. -/
theorem configured_run {id : Nat} {input : Str} {g : GroupConfig} {run : List Placed} {t V T : MTree} {rank : Nat} (hne : input ≠ [])
    (hm : MadeBy id g.opts.opts input t.root.start t.root.stop t.root) (h0 : 0 ≤ t.root.start) (hlt : t.root.start < t.root.stop) (hlink : Linked t)
    (hrun : RunMatch input run t) (hin : ∀ x ∈ visible run, x.start < x.stop) (h1 : ParentConfigured g.opts rank t V) (h2 : ChildrenConfigured g.opts rank V T) :
    Captures input (g.runWhole input rank run) V.root ∧ Each (Captures input) ((visible run).map (g.copyCapture input rank run)) (T.children.map MTree.root) := by
  obtain ⟨hext, hkids⟩ := hrun
  have hspan : V.root.span = extent (visible run) := h1.root.span.trans hext
  have hanc : V.root.ancestors = [] := h1.rootLink.trans hm.noParent
  have e1 : t.root.start = (extent (visible run)).1 := congrArg Prod.fst hext
  have e2 : t.root.stop = (extent (visible run)).2 := congrArg Prod.snd hext
  have hlinkV : Linked V := h1.linked hlink
  refine ⟨?_, ?_⟩
  · refine captured (origin := none) hne ⟨hext, hm.name, hm.tags, hm.priv, hm.marker, hm.solver, hm.noValue, hm.input, hm.noRaw⟩ (by omega) (by omega)
      (fun _ => hm.noFormatter) h1.root ?_
    rw [hanc]; rfl
  · have hlen := each_length hkids
    refine each_of_map (γ := Unit) (fun _ => ()) (fun _ _ => True) (by rw [List.length_map, List.length_map, h2.count, h1.count, hlen]) ?_
    intro i a b ha hb
    rw [List.getElem?_map] at ha hb
    cases hx : (visible run)[i]? with
    | none => rw [hx] at ha; cases ha
    | some x =>
      rw [hx] at ha; cases ha
      cases hC : T.children[i]? with
      | none => rw [hC] at hb; cases hb
      | some C =>
        rw [hC] at hb; cases hb
        have hil : i < t.children.length := by
          rw [← hlen]
          rcases Nat.lt_or_ge i (visible run).length with h | h
          · exact h
          · rw [List.getElem?_eq_none h] at hx; cases hx
        have hiV : V.children[i]? = some (V.children[i]'(by rw [h1.count]; exact hil)) := List.getElem?_eq_getElem _
        have hit : t.children[i]? = some (t.children[i]) := List.getElem?_eq_getElem _
        obtain ⟨k1, k2⟩ := h2.child i _ _ hiV hC
        have k4 := hlinkV _ (List.mem_of_getElem? hiV)
        have k5 : CopyOf input x _ := (each_getElem hkids i x _ hx hit).links (h1.child i _ _ hit hiV)
        have hpos := hin x (List.mem_of_getElem? hx)
        generalize (V.children[i]'(by rw [h1.count]; exact hil)) = c at k1 k2 k4 k5
        refine captured (g := { g with tags := x.part.word.tags }) (origin := some (extent (visible run))) hne
          ⟨k5.span, k5.name, k5.tags, k5.isPublic, k5.noMarker, k5.noSolver, k5.noValue, k5.input, k5.raw⟩ (by show (0 : Int) ≤ x.start; omega)
          (by show (x.start : Int) < x.stop; omega) (fun h => by cases h) (configured_tags k1) ?_
        rw [k2, k4, hanc]
        simp only [List.map_cons, List.map_nil, Match.core, Option.toList_some]
        rw [show V.root.start = (extent (visible run)).1 from congrArg Prod.fst hspan, show V.root.stop = (extent (visible run)).2 from congrArg Prod.snd hspan]

open Classical in
theorem emits_run {id : Nat} {input : Str} {g : GroupConfig} (hv : g.validator = .absent) {run : List Placed} {t : MTree} {rank : Nat} {l : List MTree} (hne : input ≠ [])
    (h : Emits g.opts rank t l) (hm : MadeBy id g.opts.opts input t.root.start t.root.stop t.root) (h0 : 0 ≤ t.root.start) (hlt : t.root.start < t.root.stop) (hlink : Linked t)
    (hrun : RunMatch input run t) (hin : ∀ x ∈ visible run, x.start < x.stop) :
    Each (Captures input) (g.runParts input rank run) (l.map MTree.root) := by
  have hacc : ∀ V T : MTree, Accepted g.opts V T := by
    intro V T
    refine ⟨?_, ?_⟩
    · intro _ v h
      rw [show g.opts.validator = .absent from hv, chosen_absent] at h
      cases h; rfl
    · intro C _ _ v h
      rw [show g.opts.validator = .absent from hv, chosen_absent] at h
      cases h; rfl
  cases h with
  | dropped h => have := no_processor h; cases this
  | emptied h he => have := no_processor h; cases this; omega
  | refused _ _ _ _ hn => exact absurd (hacc _ _) hn
  | droppedAfter _ _ _ _ _ h => have := no_processor h; cases this
  | emptiedAfter h _ h1 h2 _ h3 he =>
    have := no_processor h; cases this
    have := no_processor h3; cases this
    rw [h2.root] at he
    have e1 : _ = t.root.start := congrArg Prod.fst h1.root.span
    have e2 : _ = t.root.stop := congrArg Prod.snd h1.root.span
    simp only [Match.span] at e1 e2
    omega
  | @emitted t1 V T r h _ h1 h2 ha h3 _ =>
    have := no_processor h; cases this
    have := no_processor h3; cases this
    obtain ⟨hroot, hkids⟩ := configured_run hne hm h0 hlt hlink hrun hin h1 h2
    have hroot' : Captures input (g.runWhole input rank run) T.root := by rw [h2.root]; exact hroot
    have hname : ∀ {x : Capture} {m : Match}, Captures input x m → (∀ n, x.hit.name = some n → n ∉ g.ignored) = NotIgnored g.opts m := by
      intro x m hx
      unfold NotIgnored
      rw [hx.name]
      rfl
    have hinc : ((ParentIncluded g.opts ∨ g.opts.privateParent = true)) ↔ (g.every || g.hiddenParent) = true := by
      unfold ParentIncluded GroupConfig.opts
      simp
    unfold emission GroupConfig.runParts
    rw [if_pos (c := ChildrenIncluded g.opts ∨ _) (.inl (by unfold ChildrenIncluded GroupConfig.opts; cases g.every <;> simp)), List.map_append, List.filter_append]
    refine each_append ?_ ?_
    · by_cases hev : (g.every || g.hiddenParent) = true
      · rw [if_pos hev]
        by_cases hni : NotIgnored g.opts T.root
        · rw [if_pos ⟨hinc.2 hev, hni⟩, List.filter_cons, if_pos (by rw [decide_eq_true_eq, hname hroot']; exact hni)]
          exact .cons hroot' .nil
        · rw [if_neg (fun h => hni h.2), List.filter_cons, if_neg (by rw [decide_eq_true_eq, hname hroot']; exact hni)]
          exact .nil
      · rw [if_neg hev, if_neg (fun h => hev (hinc.1 h.1))]
        exact .nil
    · have e : (T.children.filter (fun c => decide (NotIgnored g.opts c.root))).map MTree.root =
          (T.children.map MTree.root).filter (fun m => decide (NotIgnored g.opts m)) := by
        rw [List.filter_map]; rfl
      rw [e]
      exact each_filter hkids (fun x _ y _ hxy => decide_eq_decide.2 (by rw [hname hxy]))

/-! ## The whole pattern -/

theorem emitsAll_runs {id : Nat} {input : Str} {g : GroupConfig} (hv : g.validator = .absent) (hne : input ≠ []) :
    ∀ {l : List (List Placed)} {ts out : List MTree} {i : Nat}, Each (RunMatch input) l ts →
    (∀ t ∈ ts, MadeBy id g.opts.opts input t.root.start t.root.stop t.root ∧ 0 ≤ t.root.start ∧ t.root.start < t.root.stop ∧ Linked t) →
    (∀ run ∈ l, ∀ x ∈ visible run, x.start < x.stop) → EmitsAll g.opts i ts out →
    Each (Captures input) (l.mapIdx (fun k run => g.runParts input (k + i) run)).flatten (out.map MTree.root)
  | _, _, _, _, .nil, _, _, .nil => .nil
  | run :: l, _, _, i, .cons hr ht, hm, hin, .cons h1 h2 => by
    have ih := emitsAll_runs hv hne (i := i + 1) ht (fun t h => hm t (List.mem_cons_of_mem _ h)) (fun r h => hin r (List.mem_cons_of_mem _ h)) h2
    rw [List.mapIdx_cons, List.flatten_cons, List.map_append]
    refine each_append ?_ ?_
    · rw [Nat.zero_add]
      obtain ⟨m1, m2, m3, m4⟩ := hm _ List.mem_cons_self
      exact emits_run hv hne h1 m1 m2 m3 m4 hr (hin run List.mem_cons_self)
    · have e : (fun k run => g.runParts input (k + 1 + i) run) = fun k run => g.runParts input (k + (i + 1)) run := by
        funext k o; rw [Nat.add_assoc, Nat.add_comm 1 i]
      rw [e]; exact ih

theorem extent_solid {xs : List Repeated} (hw : ∀ x ∈ xs, x.word.text ≠ []) {input text : Str} {pos : Nat} {l : List (List Placed)} (h : RepeatScan xs input text pos l) :
    ∀ run ∈ l, (extent (visible run)).1 < (extent (visible run)).2 ∧ ∀ x ∈ visible run, x.start < x.stop ∧ (extent (visible run)).1 ≤ x.start ∧ (x.stop : Int) ≤ (extent (visible run)).2 := by
  intro run hrun
  obtain ⟨_, hne, a, b, ho⟩ := scan_runs hw h run hrun
  obtain ⟨p, hp⟩ : ∃ p, (visible run).head? = some p := ⟨_, List.head?_eq_some_head hne⟩
  obtain ⟨q, hq⟩ : ∃ q, (visible run).getLast? = some q := ⟨_, List.getLast?_eq_some_getLast hne⟩
  have e1 : (extent (visible run)).1 = p.start := by unfold extent; rw [hp]; rfl
  have e2 : (extent (visible run)).2 = q.stop := by unfold extent; rw [hq]; rfl
  have hl : ∀ z ∈ visible run, z.start < z.stop := fun z hz => (ho.inside z hz).2.1
  have bounds : ∀ x ∈ visible run, p.start ≤ x.start ∧ x.stop ≤ q.stop := by
    intro x hx
    refine ⟨?_, ordered_last hl ho.ordered hq hx⟩
    cases hv : visible run with
    | nil => exact absurd hv hne
    | cons y ys =>
      rw [hv] at hp hx
      cases hp
      rcases List.mem_cons.1 hx with rfl | hx
      · exact Nat.le_refl _
      · have := ho.ordered
        rw [hv] at this
        have := (List.pairwise_cons.1 this).1 x hx
        have := hl p (by rw [hv]; simp)
        omega
  have b1 := bounds p (List.mem_of_head? hp)
  have b2 := hl p (List.mem_of_head? hp)
  refine ⟨by omega, fun x hx => ?_⟩
  have := bounds x hx
  exact ⟨hl x hx, by omega, by omega⟩

/-- The captures of a run: the whole match, or one of its copies. -/
theorem runParts_mem {g : GroupConfig} {input : Str} {rank : Nat} {run : List Placed} {y : Capture} (h : y ∈ g.runParts input rank run) :
    y = g.runWhole input rank run ∨ ∃ x ∈ visible run, y = g.copyCapture input rank run x := by
  unfold GroupConfig.runParts at h
  rcases List.mem_append.1 (List.mem_filter.1 h).1 with h | h
  · split at h
    · exact .inl (List.mem_singleton.1 h)
    · cases h
  · obtain ⟨x, hx, rfl⟩ := List.mem_map.1 h
    exact .inr ⟨x, hx, rfl⟩

theorem solid_runs {g : GroupConfig} {xs : List Repeated} (hw : ∀ x ∈ xs, x.word.text ≠ []) {input text : Str} {pos : Nat} {l : List (List Placed)} (h : RepeatScan xs input text pos l) :
    ∀ y ∈ g.runsParts input l, Solid y := by
  intro y hy
  unfold GroupConfig.runsParts at hy
  obtain ⟨k, hk, hy⟩ := List.mem_flatten.1 hy
  obtain ⟨i, hi, rfl⟩ := List.mem_mapIdx.1 hk
  obtain ⟨e1, e2⟩ := extent_solid hw h _ (List.getElem_mem hi)
  rcases runParts_mem hy with rfl | ⟨x, hx, rfl⟩
  · exact ⟨e1, fun _ h => by cases h⟩
  · exact ⟨by have := (e2 x hx).1; show (x.start : Int) < x.stop; omega, fun _ h => by cases h; exact e1⟩

theorem parts_matches {lower : Str → Str} {input : Str} (info : PatternInfo Ctx) (id : Nat) {g : GroupConfig} (hv : g.validator = .absent) (hf : Proper g.formatter)
    {parts : PartObjs Ctx} {xs : List Repeated} (hparts : RepeatedParts parts xs) (hw : ∀ x ∈ xs, x.word.text ≠ []) :
    ∃ l out, RepeatScan xs input input 0 l ∧ PatternObj.matches_ lower (.chain info (Pattern.init id g.opts) none parts) input = .ok out ∧
      Each (Captures input) (g.runsParts input l) (out.map MTree.root) := by
  have hrun := repeated_parts (lower := lower) hparts
  have hgood : ∀ p ∈ PatternObj.runParts lower parts, RegularPart p ∧ Answers p ∧ PlainPart p := by
    intro p hp
    obtain ⟨x, hx, rfl⟩ := each_mem_right hrun p hp
    exact ⟨repeatedPart_regular _ (hw x hx), repeatedPart_answers _ (hw x hx), repeatedPart_plain _ (hw x hx)⟩
  obtain ⟨ts, out, raws, h1, h0, h2, pieces, h3, h4⟩ := returned_raw
    (c := { pattern := Pattern.init id g.opts, parts := PatternObj.runParts lower parts, breaker := none }) id g.opts rfl input
    (fun p hp => (hgood p hp).1) (fun p hp => (hgood p hp).2.1) hv hf keepsOrder_none keepsOrder_none
  obtain ⟨l, l1, l2⟩ := scans_repeated hw (by rfl) hrun h2 0 rfl
  have hleaf := rawMatches_leafy (fun p hp => (hgood p hp).2.2) h0
  have l3 : Each (RunMatch input) l ts := each_imp_mem l2 (fun run t ht h => h.ordered (hleaf t ht))
  have hmade := scans_made (fun p hp => (hgood p hp).1) h2 (Int.le_refl 0)
  have h4 : out = pieces.flatten := h4
  subst h4
  refine ⟨l, pieces.flatten, l1, ?_, ?_⟩
  · show (match Chain.run _ input with | .error e => Except.error e | .ok (ms, _) => .ok ms) = _
    rw [h1]
  · cases h3 with
    | cons h3 h5 =>
      cases h5
      rw [List.flatten_cons, List.flatten_nil, List.append_nil]
      by_cases hne : input = []
      · cases l3 with
        | nil => cases h3 with | nil => exact .nil
        | cons _ _ => exact absurd hne (hmade _ List.mem_cons_self).2.2.1
      · exact emitsAll_runs (i := 0) hv hne l3 (fun t ht => ⟨(hmade t ht).2.2.2, (hmade t ht).1, (hmade t ht).2.1, (hleaf t ht).linked⟩)
          (fun run hr x hx => ((extent_solid hw l1 run hr).2 x hx).1) h3

/-- What one pattern returns. -/
theorem piece_matches {lower : Str → Str} {input : Str} {ctx : Ctx} {p : PatternObj Ctx} (h : PiecePattern lower input ctx p) (hd : p.info.disabled ctx = false) :
    ∃ xs out, PiecesOf lower input ctx p xs ∧ p.matches_ lower input = .ok out ∧ Each (Captures input) xs (out.map MTree.root) ∧ ∀ x ∈ xs, Solid x := by
  cases h with
  | other h =>
    obtain ⟨xs, out, h1, h2⟩ := group_matches h hd
    exact ⟨xs, out, .other h1, h2⟩
  | @parts info id g parts xs hv hf hparts hw =>
    obtain ⟨l, out, h1, h2, h3⟩ := parts_matches (lower := lower) (input := input) info id hv hf hparts hw
    exact ⟨_, out, .parts id g hd hv hparts h1, h2, h3, solid_runs hw h1⟩

theorem piece_collects {lower : Str → Str} {ctx : Ctx} {input : Str} : ∀ {ps : List (PatternObj Ctx)}, (∀ p ∈ ps, PiecePattern lower input ctx p) →
    ∃ xss ts, Each (PiecesOf lower input ctx) ps xss ∧ Collects lower ctx input ps ts ∧ Each (Captures input) xss.flatten (ts.map MTree.root) ∧
      ∀ x ∈ xss.flatten, Solid x
  | [], _ => ⟨[], [], .nil, .nil, .nil, by simp⟩
  | p :: ps, h => by
    obtain ⟨xss, ts, g1, g2, g3, g4⟩ := piece_collects (ps := ps) (fun p hp => h p (List.mem_cons_of_mem _ hp))
    cases hd : p.info.disabled ctx with
    | true => exact ⟨[] :: xss, ts, .cons (.other (.plain (.disabled hd))) g1, .disabled hd g2, g3, g4⟩
    | false =>
      obtain ⟨xs, out, k1, k2, k3, k4⟩ := piece_matches (h p (by simp)) hd
      refine ⟨xs :: xss, out ++ ts, .cons k1 g1, .enabled hd k2 g2, ?_, ?_⟩
      · rw [List.flatten_cons, List.map_append]
        exact each_append k3 g3
      · intro x hx
        rw [List.flatten_cons] at hx
        rcases List.mem_append.1 hx with hx | hx
        · exact k4 x hx
        · exact g4 x hx

/-! ## One chain alone -/

/-- A capture lies inside its match of the chain, and weighs as much. -/
theorem runParts_inside {g : GroupConfig} {xs : List Repeated} (hw : ∀ x ∈ xs, x.word.text ≠ []) {input text : Str} {pos : Nat} {l : List (List Placed)}
    (h : RepeatScan xs input text pos l) {run : List Placed} (hr : run ∈ l) {rank : Nat} {y : Capture} (hy : y ∈ g.runParts input rank run) :
    (extent (visible run)).1 ≤ y.hit.start ∧ y.hit.start < y.hit.stop ∧ y.hit.stop ≤ (extent (visible run)).2 ∧
      y.weight = (extent (visible run)).2 - (extent (visible run)).1 := by
  obtain ⟨e1, e2⟩ := extent_solid hw h run hr
  rcases runParts_mem hy with rfl | ⟨x, hx, rfl⟩
  · exact ⟨Int.le_refl _, e1, Int.le_refl _, rfl⟩
  · obtain ⟨k1, k2, k3⟩ := e2 x hx
    exact ⟨k2, by show (x.start : Int) < x.stop; omega, k3, rfl⟩

theorem runs_distinct {g : GroupConfig} {xs : List Repeated} (hw : ∀ x ∈ xs, x.word.text ≠ []) {input : Str} {l : List (List Placed)} (h : RepeatScan xs input input 0 l) :
    (g.runsParts input l).Pairwise (fun x y => ¬ x.Alike y) := by
  unfold GroupConfig.runsParts
  rw [List.pairwise_flatten]
  constructor
  · intro k hk
    obtain ⟨i, hi, rfl⟩ := List.mem_mapIdx.1 hk
    obtain ⟨_, _, a, b, ho⟩ := scan_runs hw h _ (List.getElem_mem hi)
    unfold GroupConfig.runParts
    refine List.Pairwise.filter _ (List.pairwise_append.2 ⟨?_, ?_, ?_⟩)
    · split
      · exact List.pairwise_singleton _ _
      · exact .nil
    · rw [List.pairwise_map]
      refine List.Pairwise.imp_of_mem ?_ ho.ordered
      intro x y hx hy hxy hal
      have e : (x.start : Int) = y.start := hal.1
      have := (ho.inside x hx).2.1
      omega
    · intro x hx y hy hal
      split at hx
      · rw [List.mem_singleton] at hx; subst hx
        obtain ⟨z, _, rfl⟩ := List.mem_map.1 hy
        have : (none : Option (Int × Int)) = some _ := hal.2.2.2.2
        cases this
      · cases hx
  · rw [List.pairwise_iff_getElem]
    intro i j hi hj hij x hx y hy hal
    rw [List.length_mapIdx] at hi hj
    rw [List.getElem_mapIdx] at hx hy
    have h1 := runParts_inside hw h (List.getElem_mem hi) hx
    have h2 := runParts_inside hw h (List.getElem_mem hj) hy
    have h3 := List.pairwise_iff_getElem.1 (repeat_ahead hw h).2 i j hi hj hij
    have : x.hit.start = y.hit.start := hal.1
    omega

theorem runs_weight {g : GroupConfig} {xs : List Repeated} (hw : ∀ x ∈ xs, x.word.text ≠ []) {input : Str} {l : List (List Placed)} (h : RepeatScan xs input input 0 l) :
    ∀ x ∈ g.runsParts input l, ∀ y ∈ g.runsParts input l, x.Meets y → x.weight = y.weight := by
  intro x hx y hy hm
  unfold GroupConfig.runsParts at hx hy
  obtain ⟨_, hk, hx⟩ := List.mem_flatten.1 hx
  obtain ⟨i, hi, rfl⟩ := List.mem_mapIdx.1 hk
  obtain ⟨_, hk', hy⟩ := List.mem_flatten.1 hy
  obtain ⟨j, hj, rfl⟩ := List.mem_mapIdx.1 hk'
  obtain ⟨a1, a2, a3, a4⟩ := runParts_inside hw h (List.getElem_mem hi) hx
  obtain ⟨b1, b2, b3, b4⟩ := runParts_inside hw h (List.getElem_mem hj) hy
  have hp := List.pairwise_iff_getElem.1 (repeat_ahead hw h).2
  obtain ⟨m1, m2⟩ := hm
  rcases Nat.lt_trichotomy i j with hij | hij | hij
  · have := hp i j hi hj hij; omega
  · subst hij; rw [a4, b4]
  · have := hp j i hj hi hij; omega

/-! ## The theorems -/

/-- **C123**: a rebulk with the default rules and one chain of repeated strings searched for its parts (`children=True` or `every=True`, with any value, formatter, private and ignored names) ends
without exception and finds exactly the public captures of the matches of `RepeatScan`, in order: for each match the whole, if wanted, and its visible copies; none is removed as conflicting. -/
theorem C123_chain_parts {env : Env (List Match)} (henv : DefaultEnv env) {r : RebulkObj Ctx} (hr : DefaultRulesOnly r) (input : Str) (ctx : Ctx)
    (hd : r.disabled ctx = false) (info : PatternInfo Ctx) (hi : info.disabled ctx = false) (id : Nat) (g : GroupConfig) (hf : Proper g.formatter) (hv : g.validator = .absent)
    {parts : PartObjs Ctx} {xs : List Repeated} (hw : ∀ x ∈ xs, x.word.text ≠ []) (hparts : RepeatedParts parts xs)
    (hp : r.effectivePatterns ctx = [.chain info (Pattern.init id g.opts) none parts]) :
    ∃ l f, RepeatScan xs input input 0 l ∧ r.matches_ env input ctx = .ok f ∧ Each (Captures input) ((g.runsParts input l).filter (fun x => !x.hidden)) f.found.delegate ∧
      f.markers.delegate = [] ∧ LookupsRight f.found ∧ LookupsRight f.markers := by
  obtain ⟨l, out, h1, h2, h3⟩ := parts_matches (lower := env.lower) (input := input) info id hv hf hparts hw
  have hcol : Collects env.lower ctx input (r.effectivePatterns ctx) (out ++ []) := by
    rw [hp]
    exact .enabled hi h2 .nil
  rw [List.append_nil] at hcol
  obtain ⟨f, kept, k1, k2, k3, k4⟩ := captures_found henv hr input ctx hd hcol h3 (solid_runs hw h1) (runs_distinct hw h1)
  exact ⟨l, f, h1, k1, by rw [← captures_all k2 (runs_distinct hw h1) (runs_weight hw h1)]; exact k3, k4⟩

/-- **C123**, with other patterns: a rebulk that has only the default rules, whose patterns are such chains, or patterns of `C119`, and which finds no two captures alike. What is found are the public
captures, in the order of the patterns, but for those that share a character with one whose whole match is longer (among which a choice may have to be made). -/
theorem C123_with_others {env : Env (List Match)} (henv : DefaultEnv env) {r : RebulkObj Ctx} (hr : DefaultRulesOnly r) (input : Str) (ctx : Ctx)
    (hd : r.disabled ctx = false) (hp : ∀ p ∈ r.effectivePatterns ctx, PiecePattern env.lower input ctx p) :
    ∃ xss, Each (PiecesOf env.lower input ctx) (r.effectivePatterns ctx) xss ∧ (xss.flatten.Pairwise (fun x y => ¬ x.Alike y) →
      ∃ f kept, r.matches_ env input ctx = .ok f ∧ HeaviestKept xss.flatten kept ∧ Each (Captures input) kept f.found.delegate ∧ f.markers.delegate = [] ∧
        LookupsRight f.found ∧ LookupsRight f.markers) := by
  obtain ⟨xss, ts, g1, h1, g2, g3⟩ := piece_collects hp
  exact ⟨xss, g1, captures_found henv hr input ctx hd h1 g2 g3⟩

theorem reads_text {input : Str} {a b : Nat} {run : List Placed} (h : Reads input a run b) : ∀ x ∈ visible run, textAt input x.start x.stop = x.part.word.text := by
  induction h with
  | done => intro x hx; cases hx
  | skip x start _ ih =>
    intro y hy
    refine ih y ?_
    unfold visible at hy ⊢
    rw [List.flatMap_cons] at hy
    rcases List.mem_append.1 hy with hy | hy
    · unfold Placed.copies at hy
      simp at hy
    · exact hy
  | @copies a b run x k hk _ ih =>
    intro y hy
    unfold visible at hy
    rw [List.flatMap_cons] at hy
    rcases List.mem_append.1 hy with hy | hy
    · unfold Placed.copies at hy
      split at hy
      · cases hy
      · obtain ⟨j, hj, rfl⟩ := List.mem_map.1 hy
        have hj := List.mem_range.1 hj
        have h1 := (times_prefix.1 (times_mono hk (k := j + 1) (by have : j < k + 1 := hj; omega))).2
        rw [List.drop_drop] at h1
        have h2 := List.prefix_iff_eq_take.1 h1
        show (input.drop ((a + j * x.word.text.length : Nat) : Int).toNat).take (((a + j * x.word.text.length + x.word.text.length : Nat) : Int) - ((a + j * x.word.text.length : Nat) : Int)).toNat = x.word.text
        rw [show (((a + j * x.word.text.length + x.word.text.length : Nat) : Int) - ((a + j * x.word.text.length : Nat) : Int)).toNat = x.word.text.length by omega, Int.toNat_natCast]
        exact h2.symm
    · exact ih y hy

/-- **C123**: when only the first string is required, what is found of a string reads this string. -/
theorem C123_texts {xs : List Repeated} {input : Str} {l : List (List Placed)} (h : RepeatScan xs input input 0 l) (ho : ∀ x ∈ xs.tail, x.least = 0)
    (g : GroupConfig) (hg : g.value = .absent) (hf : g.formatter = .absent) (rank : Nat) :
    ∀ run ∈ l, ∀ x ∈ visible run, (g.copyCapture input rank run x).hit.value = .str x.part.word.text := by
  intro run hr x hx
  obtain ⟨_, _, a, b, _, h'⟩ := C121_real h rfl ho run hr
  show GroupConfig.valueOf { g with tags := x.part.word.tags } true _ (textAt input x.start x.stop) = _
  rw [reads_text h' x hx]
  have hno : ¬ IsTrue (chosen g.value .none x.part.word.name true) := by rw [hg, chosen_absent, ← isTrue_iff]; decide
  simp only [GroupConfig.valueOf, if_neg hno, hf, chosen_absent, Bool.true_or, if_true]

/-- `chain(children=True).string("a", name="x").string("xa", name="y").string("c", name="z").close()`. -/
def exThree : PatternObj Unit :=
  .chain {} (Pattern.init 0 ({} : GroupConfig).opts) none
    (.cons (.string {} (Pattern.init 1 (Word.opts ⟨"a".toList, some "x", []⟩)) {} ["a".toList]) 1 (some 1) false
      (.cons (.string {} (Pattern.init 2 (Word.opts ⟨"xa".toList, some "y", []⟩)) {} ["xa".toList]) 1 (some 1) false
        (.cons (.string {} (Pattern.init 3 (Word.opts ⟨"c".toList, some "z", []⟩)) {} ["c".toList]) 1 (some 1) false .nil)))

/-- **C123**, what one might expect but is false: that what is found of a string always reads this string. The chain of `"a"`, `"xa"` and `"c"`, all required, finds in `axayxac` an `"a"`
that reads `y`: after the first attempt failed at its third string, places are counted from behind the first one. -/
theorem C123_texts_refuted : (match (exRebulk [exThree] []).matches_ exEnv "axayxac".toList () with
    | .ok f => f.found.delegate.map (fun m => (m.name, m.value)) | .error _ => []) =
      [(some "x", .str "y".toList), (some "y", .str "xa".toList), (some "z", .str "c".toList)] := by
  decide +kernel

/-- `"ab"` named `x` repeated once or more. -/
def exPartOne : Repeated := { id := 1, word := ⟨"ab".toList, some "x", ["t"]⟩, least := 1, most := none }
/-- A hidden `"-"`, any number of times. -/
def exPartTwo : Repeated := { id := 2, word := ⟨"-".toList, none, []⟩, least := 0, most := none, hidden := true }
/-- `"c"` named `y` once or not at all. -/
def exPartThree : Repeated := { id := 3, word := ⟨"c".toList, some "y", []⟩, least := 0, most := some 1 }
/-- One after the other. -/
def exPartList : List Repeated := [exPartOne, exPartTwo, exPartThree]

/-- Their options: the whole match too, `"c"` is private, the value of the whole match is given. -/
def exPartConfig : GroupConfig := { name := some "n", every := true, hidden := ["y"], value := .dict [(some "__parent__", .int 9)] }

/-- `chain(name="n", every=True, private_names=["y"], value={"__parent__": 9}).string("ab", name="x", tags=["t"]).repeater("+").string("-").hidden().repeater("*").string("c", name="y").repeater("?").close()`. -/
def exPartChain : PatternObj Unit :=
  .chain {} (Pattern.init 0 exPartConfig.opts) none
    (.cons (.string {} (Pattern.init 1 (Word.opts ⟨"ab".toList, some "x", ["t"]⟩)) {} ["ab".toList]) 1 none false
      (.cons (.string {} (Pattern.init 2 (Word.opts ⟨"-".toList, none, []⟩)) {} ["-".toList]) 0 none true
        (.cons (.string {} (Pattern.init 3 (Word.opts ⟨"c".toList, some "y", []⟩)) {} ["c".toList]) 0 (some 1) false .nil)))

theorem exPartList_chain : ∃ parts : PartObjs Unit, exPartChain = .chain {} (Pattern.init 0 exPartConfig.opts) none parts ∧ RepeatedParts parts exPartList :=
  ⟨_, rfl, .cons {} exPartOne (.cons {} exPartTwo (.cons {} exPartThree .nil))⟩

theorem exPartList_words : ∀ x ∈ exPartList, x.word.text ≠ [] := by
  intro x hx
  simp only [exPartList, List.mem_cons, List.not_mem_nil, or_false] at hx
  rcases hx with rfl | rfl | rfl <;> simp [exPartOne, exPartTwo, exPartThree]

/-- The hypotheses are met: this chain on `abab--c.ab` is found with its parts. -/
example : (∃ l f, RepeatScan exPartList "abab--c.ab".toList "abab--c.ab".toList 0 l ∧ (exRebulk [exPartChain] []).matches_ exEnv "abab--c.ab".toList () = .ok f ∧
      Each (Captures "abab--c.ab".toList) ((exPartConfig.runsParts "abab--c.ab".toList l).filter (fun x => !x.hidden)) f.found.delegate) ∧
    (match (exRebulk [exPartChain] []).matches_ exEnv "abab--c.ab".toList () with | .ok f => f.found.delegate.map (fun m => (m.span, m.value)) | .error _ => []) =
      [((0, 7), .int 9), ((0, 2), .str "ab".toList), ((2, 4), .str "ab".toList), ((8, 10), .int 9), ((8, 10), .str "ab".toList)] := by
  refine ⟨?_, ?_⟩
  · obtain ⟨l, f, h1, h2, h3, _⟩ := C123_chain_parts (env := exEnv) exEnv_default (r := exRebulk [exPartChain] []) (exRebulk_default _ _) "abab--c.ab".toList () rfl {} rfl 0
      exPartConfig (by intro a h; cases h) rfl (xs := exPartList)
      exPartList_words (.cons {} exPartOne (.cons {} exPartTwo (.cons {} exPartThree .nil))) rfl
    exact ⟨l, f, h1, h2, h3⟩
  · decide +kernel

/-- The same chain together with a regular expression searched for its groups: the hypotheses of `C123_with_others` are met. -/
example : ∀ p ∈ (exRebulk [exPartChain] [.regex {} (Pattern.init 7 seasonConfig.opts) false [seasonRegex]]).effectivePatterns (),
    PiecePattern exEnv.lower "S03E07 S04E99".toList () p := by
  intro p hp
  rcases List.mem_cons.1 hp with rfl | hp
  · obtain ⟨parts, e, h⟩ := exPartList_chain
    rw [e]
    exact .parts 0 exPartConfig rfl (by intro a h; cases h) h exPartList_words
  · have hp := List.mem_singleton.1 hp
    subst hp
    exact .other (season_pattern 7 seasonConfig (by intro a h; cases h) (by intro a h; cases h) (season_judging _))

end Rebulk
