import Verif.Spec.TypedSearch
import Verif.Props.GroupSearch
import Verif.Props.Project
import Verif.Props.BuilderOptions
import Verif.Props.BuilderDicts
import Verif.Model.TypedKeys
/-!
# C120: typed keys from end to end
-/
namespace Rebulk
open Spec
variable {Ctx : Type}

/-- How the text is formattedAs does not depend on the way the options of the pattern were written. -/
def formattedAs (o : DictArg Formatter) (name : Option String) (child : Bool) (text : Str) : Val :=
  match chosen o (some (fun v => v)) name child with | none => .str text | some f => f (.str text)

/-- What the dict made by `ensure_dict` does. -/
def formattedBy (d : Dict (Option String) Formatter × Formatter) (name : Option String) (child : Bool) (text : Str) : Val :=
  match getFirstDefined d.1 (Pattern.configKeys { start := 0, stop := 0, name := name } child) d.2 with | none => .str text | some f => f (.str text)

theorem formatted_eq (o : DictArg Formatter) (name : Option String) (child : Bool) (text : Str) :
    formattedAs o name child text = formattedBy (ensureDict Option.isSome o (some (fun v => v))) name child text := by
  by_cases h : o = .one none
  · subst h
    have h1 : formattedAs (.one none) name child text = .str text := by
      unfold formattedAs
      have : chosen (.one (none : Formatter)) (some (fun v => v)) name child = none := by
        unfold chosen
        cases name with
        | none => simp [declared]
        | some n => by_cases h : n = "" <;> simp [declared, h]
      rw [this]
    rw [h1]
    unfold formattedBy
    rw [getFirstDefined_keys]
    cases name with
    | none => rfl
    | some n => by_cases h : n = "" <;> simp [ensureDict, Dict.get?, h]
  · unfold formattedAs formattedBy
    have := chosen_eq Option.isSome o (some (fun v => v)) { start := 0, stop := 0, name := name } child (by
      intro a ha ht
      cases a with
      | none => exact absurd ha h
      | some _ => cases ht)
    rw [this]

theorem formatted_init {id id' : Nat} {o o' : PatternOpts} (h : Pattern.init id o = Pattern.init id' o') (name : Option String) (child : Bool) (text : Str) :
    formattedAs o.formatter name child text = formattedAs o'.formatter name child text := by
  rw [formatted_eq, formatted_eq]
  have h1 := congrArg Pattern.formatters h
  have h2 := congrArg Pattern.defaultFormatter h
  have : ensureDict Option.isSome o.formatter (some (fun v => v)) = ensureDict Option.isSome o'.formatter (some (fun v => v)) := Prod.ext h1 h2
  rw [this]

theorem isTrue_init {id id' : Nat} {o o' : PatternOpts} (h : Pattern.init id o = Pattern.init id' o') (name : Option String) (child : Bool) :
    IsTrue (chosen o.value .none name child) ↔ IsTrue (chosen o'.value .none name child) := by
  have h1 := congrArg Pattern.values h
  have h2 := congrArg Pattern.defaultValue h
  have he : ensureDict Val.truthy o.value .none = ensureDict Val.truthy o'.value .none := Prod.ext h1 h2
  have a := (chosen_value o.value { start := 0, stop := 0, name := name } child).1
  have b := (chosen_value o'.value { start := 0, stop := 0, name := name } child).1
  rw [he] at a
  rw [← isTrue_iff, ← isTrue_iff]
  rw [show (chosen o.value .none name child).truthy = (chosen o'.value .none name child).truthy from a.symm.trans b]

theorem converts_formatted {input : Str} {name : String} {conv : Val → Val} {p : PatternObj Ctx} {id : Nat} {o : PatternOpts} (h : Converts input name conv p)
    (hb : p.base = Pattern.init id o) (child : Bool) (text : Str) :
    formattedAs o.formatter (some name) child text = conv (.str text) ∧ ¬ IsTrue (chosen o.value .none (some name) child) := by
  obtain ⟨id', o', h1, h2⟩ := h.options
  have he := hb.symm.trans h1
  refine ⟨?_, fun ht => (h2 child).2 ((isTrue_init he _ _).1 ht)⟩
  rw [formatted_init he]
  unfold formattedAs
  rw [(h2 child).1]

theorem config_converted {input : Str} {name : String} {conv : Val → Val} {p : PatternObj Ctx} {id : Nat} {c : Config} (h : Converts input name conv p)
    (hb : p.base = Pattern.init id c.opts) {own : Val} (ho : ¬ IsTrue own) (text : Str) : c.valueOf (some name) own text = conv (.str text) := by
  obtain ⟨h1, h2⟩ := converts_formatted h hb false text
  unfold Config.valueOf
  have h2 : ¬ IsTrue (chosen c.value .none (some name) false) := h2
  rw [if_neg h2, if_neg ho]
  exact h1

theorem not_isTrue_none : ¬ IsTrue Val.none := by rw [← isTrue_iff]; decide

theorem chainHits_at {c : Config} {input : Str} {i : Nat} {ts : List MTree} {hits : List Hit} (h : ChainHits c input i ts hits) :
    ∀ x ∈ hits, ∃ (k : Nat) (t : MTree), x = c.hitAt input k t := by
  induction h with
  | nil => simp
  | cons h1 _ ih =>
    intro x hx
    rcases List.mem_append.1 hx with hx | hx
    · cases h1 with
      | whole _ => rw [List.mem_singleton] at hx; exact ⟨_, _, hx⟩
      | shortened _ _ _ _ _ _ => rw [List.mem_singleton] at hx; exact ⟨_, _, hx⟩
      | refused _ _ => cases hx
    · exact ih x hx

/-- The hits of this name are converted. -/
theorem hits_converted {lower : Str → Str} {input : Str} {ctx : Ctx} {name : String} {conv : Val → Val} {p : PatternObj Ctx} {hits : List Hit}
    (h : HitsOf lower input ctx p hits) (hc : Converts input name conv p) : ∀ x ∈ hits, x.name = some name →
      x.value = conv (.str (textAt input x.start x.stop)) := by
  intro x hx hn
  cases h with
  | disabled _ => cases hx
  | string id c so _ he =>
    obtain ⟨l, hl, hxl⟩ := List.mem_flatten.1 (List.mem_filter.1 hx).1
    obtain ⟨w, _, ps, _, rfl⟩ := each_mem_right he l hl
    unfold Config.wordHits at hxl
    obtain ⟨i, hi, e⟩ := List.mem_mapIdx.1 hxl
    subst e
    have hn : c.name = some name := hn
    show c.valueOf c.name .none _ = _
    rw [hn]
    exact config_converted hc rfl not_isTrue_none _
  | regex id c rc _ =>
    obtain ⟨re, _, hxl⟩ := List.mem_flatMap.1 (List.mem_filter.1 hx).1
    unfold Config.regexHits at hxl
    obtain ⟨i, hi, e⟩ := List.mem_mapIdx.1 hxl
    subst e
    have hn : c.name = some name := hn
    show c.valueOf c.name .none _ = _
    rw [hn]
    exact config_converted hc rfl not_isTrue_none _
  | @functional info id c functions hits _ he =>
    obtain ⟨l, hl, hxl⟩ := List.mem_flatten.1 (List.mem_filter.1 hx).1
    obtain ⟨f, hf, rs, hrs, rfl⟩ := each_mem_right he l hl
    unfold Config.functionHits at hxl
    obtain ⟨i, hi, e⟩ := List.mem_mapIdx.1 hxl
    subst e
    have hm := (List.mem_filter.1 (List.getElem_mem hi)).1
    have := hc.results info (Pattern.init id c.opts) functions rfl f hf rs hrs _ hm hn
    simp only at hn ⊢
    rw [hn]
    exact config_converted hc rfl this _
  | chain id c br _ _ hs =>
    unfold Config.chainHits at hx
    obtain ⟨i, hi, e⟩ := List.mem_mapIdx.1 hx
    subst e
    have hn : c.name = some name := hn
    show c.valueOf c.name .none _ = _
    rw [hn]
    exact config_converted hc rfl not_isTrue_none _
  | @validated info id c br parts ts hits _ _ hs =>
    obtain ⟨i, t, e⟩ := chainHits_at hs x hx
    subst e
    have hn : c.name = some name := hn
    show c.valueOf c.name .none _ = _
    rw [hn]
    exact config_converted hc rfl not_isTrue_none _

theorem capture_converted {input : Str} {name : String} {conv : Val → Val} {p : PatternObj Ctx} {id : Nat} {g : GroupConfig} (hc : Converts input name conv p)
    (hb : p.base = Pattern.init id g.opts) {rank : Nat} {origin : Option (Int × Int)} {span : Int × Int} (hi : (origin.isSome || g.every) = true) :
    (g.capture input rank origin span (some name)).hit.value = (g.capture input rank origin span (some name)).converted input conv := by
  obtain ⟨h1, h2⟩ := converts_formatted hc hb origin.isSome (textAt input span.1 span.2)
  show g.valueOf origin.isSome (some name) _ = conv _
  unfold GroupConfig.valueOf
  have h2 : ¬ IsTrue (chosen g.value .none (some name) origin.isSome) := h2
  rw [if_neg h2, if_pos hi]
  exact h1

/-- The public captures of this name are converted. -/
theorem finds_converted {lower : Str → Str} {input : Str} {ctx : Ctx} {name : String} {conv : Val → Val} {p : PatternObj Ctx} {xs : List Capture}
    (h : FindsOf lower input ctx p xs) (hc : Converts input name conv p) : ∀ x ∈ xs, x.hit.name = some name → x.hidden = false →
      x.hit.value = x.converted input conv := by
  intro x hx hn hpub
  cases h with
  | plain hh =>
    obtain ⟨y, hy, rfl⟩ := List.mem_map.1 hx
    exact hits_converted hh hc y hy hn
  | groups id g rc _ =>
    obtain ⟨re, _, hx⟩ := List.mem_flatMap.1 hx
    unfold GroupConfig.captures at hx
    obtain ⟨l, hl, hx⟩ := List.mem_flatten.1 hx
    obtain ⟨i, hi, e⟩ := List.mem_mapIdx.1 hl
    subst e
    unfold GroupConfig.capturesOf at hx
    split at hx
    · have hx := (List.mem_filter.1 hx).1
      rcases List.mem_append.1 hx with hx | hx
      · split at hx
        · rename_i hw
          rw [List.mem_singleton] at hx
          subst hx
          have hn : g.name = some name := hn
          unfold GroupConfig.whole at hpub ⊢
          rw [hn] at hpub ⊢
          refine capture_converted hc rfl ?_
          have hpub : (decide _ || g.hiddenParent) = false := hpub
          rw [Bool.or_eq_false_iff] at hpub
          rw [hpub.2, Bool.or_false] at hw
          rw [hw]; rfl
        · cases hx
      · unfold GroupConfig.parts at hx
        obtain ⟨y, hy, rfl⟩ := List.mem_map.1 hx
        have hn : y.2 = some name := hn
        rw [hn]
        exact capture_converted hc rfl rfl
    · cases hx

theorem flatten_converted {lower : Str → Str} {input : Str} {ctx : Ctx} {name : String} {conv : Val → Val} {ps : List (PatternObj Ctx)} {xss : List (List Capture)}
    (h : Each (FindsOf lower input ctx) ps xss) (hc : AllConvert lower input ctx name conv ps) : ∀ x ∈ xss.flatten, x.hit.name = some name → x.hidden = false →
      x.hit.value = x.converted input conv := by
  intro x hx hn hp
  obtain ⟨xs, hxs, hx⟩ := List.mem_flatten.1 hx
  obtain ⟨p, hp', hf⟩ := each_mem_right h xs hxs
  exact finds_converted hf (hc p hp' xs hf ⟨x, hx, hn⟩) x hx hn hp

theorem each_find {α β γ : Type} {R : α → β → Prop} {p : α → Bool} {q : β → Bool} {f : α → γ} {g : β → γ} {as : List α} {bs : List β} (h : Each R as bs)
    (hpq : ∀ a b, R a b → p a = q b) (hfg : ∀ a ∈ as, ∀ b, R a b → p a = true → f a = g b) :
    (as.find? p).map f = (bs.find? q).map g ∧ (as.filter p).map f = (bs.filter q).map g := by
  induction h with
  | nil => exact ⟨rfl, rfl⟩
  | @cons a b as bs hab ht ih =>
    obtain ⟨i1, i2⟩ := ih (fun a' ha' => hfg a' (List.mem_cons_of_mem _ ha'))
    have e := hpq a b hab
    cases hp : p a with
    | true =>
      have hq : q b = true := e.symm.trans hp
      have hv := hfg a (by simp) b hab hp
      rw [List.find?_cons_of_pos hp, List.find?_cons_of_pos hq, List.filter_cons_of_pos hp, List.filter_cons_of_pos hq]
      exact ⟨congrArg some hv, by rw [List.map_cons, List.map_cons, hv, i2]⟩
    | false =>
      have hq : q b = false := e.symm.trans hp
      rw [List.find?_cons_of_neg (by simp [hp]), List.find?_cons_of_neg (by simp [hq]), List.filter_cons_of_neg (by simp [hp]), List.filter_cons_of_neg (by simp [hq])]
      exact ⟨i1, i2⟩

theorem lookups_typed {s : Matches} (h : LookupsRight s) (k : Key) (hk : k.name ≠ "") :
    (s.getKey k).2 = (s.delegate.find? (fun m => decide (m.name = some k.name))).map Match.value ∧
    (s.allKey k).2 = (s.delegate.filter (fun m => decide (m.name = some k.name))).map Match.value := by
  have hv : (s.lookName k.name).2 = named s.delegate k.name := by
    have := h.1 k.name hk
    have e : (s.step (.named [k.name])).2 = .list ([] ++ (s.lookName k.name).2) := rfl
    rw [e] at this
    exact Matches.Out.list.inj this
  constructor
  · show (s.lookName k.name).2.head?.map Match.value = _
    rw [hv]; unfold Spec.named
    rw [List.head?_filter]
  · show (s.lookName k.name).2.map Match.value = _
    rw [hv]; rfl

/-! ## The theorems -/

/-- **C120**: a search as in `C119`, whose patterns convert what they find under the name of a key: the key retrieves the converted text of the first match kept of that
name, and all of them in order. -/
theorem C120_typed_search {env : Env (List Match)} (henv : DefaultEnv env) {r : RebulkObj Ctx} (hr : DefaultRulesOnly r) (input : Str) (ctx : Ctx)
    (hd : r.disabled ctx = false) (hp : ∀ p ∈ r.effectivePatterns ctx, GroupPattern env.lower input ctx p) :
    ∃ xss, Each (FindsOf env.lower input ctx) (r.effectivePatterns ctx) xss ∧ (xss.flatten.Pairwise (fun x y => ¬ x.Alike y) →
      ∃ f kept, r.matches_ env input ctx = .ok f ∧ HeaviestKept xss.flatten kept ∧ Each (Captures input) kept f.found.delegate ∧
        ∀ (k : Key) (conv : Val → Val), k.name ≠ "" → AllConvert env.lower input ctx k.name conv (r.effectivePatterns ctx) →
          (f.found.getKey k).2 = (kept.find? (fun x => decide (x.hit.name = some k.name))).map (Capture.converted input conv) ∧
          (f.found.allKey k).2 = (kept.filter (fun x => decide (x.hit.name = some k.name))).map (Capture.converted input conv)) := by
  obtain ⟨xss, h1, h2⟩ := C119_group_search henv hr input ctx hd hp
  refine ⟨xss, h1, fun hdist => ?_⟩
  obtain ⟨f, kept, k1, k2, k3, _, k5, _⟩ := h2 hdist
  refine ⟨f, kept, k1, k2, k3, fun k conv hk hc => ?_⟩
  obtain ⟨l1, l2⟩ := lookups_typed k5 k hk
  have he := each_find (p := fun x : Capture => decide (x.hit.name = some k.name)) (q := fun m : Match => decide (m.name = some k.name))
    (f := Capture.converted input conv) (g := Match.value) k3 (fun x m hxm => by rw [hxm.name]) (fun x hx m hxm hn => by
      rw [hxm.value]
      exact (flatten_converted h1 hc x (k2.order.subset hx) (of_decide_eq_true hn) (k2.isPublic x hx)).symm)
  exact ⟨l1.trans he.1.symm, l2.trans he.2.symm⟩

theorem contradicts_content {isinstance : Val → Nat → Bool} {declared : Dict String Key} {m m' : Match} (h : content m = content m')
    (hs : Contradicts isinstance declared m) : Contradicts isinstance declared m' := by
  have e : m' = { m with id := m'.id } := by
    cases m; cases m'
    simp only [content, Match.mk.injEq] at h
    obtain ⟨_, h1, h2, h3, h4, h5, h6, h7, h8, h9, h10, h11, h12, h13, h14, h15⟩ := h
    subst h1 h2 h3 h4 h5 h6 h7 h8 h9 h10 h11 h12 h13 h14 h15
    rfl
  rw [e]
  exact hs

/-- **C120, with `CHECK_DECLARED_KEYS`**: `matches` raises `TypeError` exactly when a match that was found contradicts the declared keys; otherwise the flag changes nothing. -/
theorem C120_checking {ρ : Type} {env : Env ρ} (hk : env.checkKeys = true) {r : RebulkObj Ctx} (input : Str) (ctx : Ctx) (hd : r.disabled ctx = false)
    {ts : List MTree} (hc : Collects env.lower ctx input (r.effectivePatterns ctx) ts) :
    ((∃ m ∈ rootsOf false ts, Contradicts env.isinstance (r.effectiveKeys ctx) m) → r.matches_ env input ctx = .error .typeError) ∧
    ((∀ m ∈ rootsOf false ts, ¬ Contradicts env.isinstance (r.effectiveKeys ctx) m) →
      r.matches_ env input ctx = r.matches_ { env with checkKeys := false } input ctx) := by
  obtain ⟨f, h1, h2, h3, h4, h5⟩ := searchPatterns_collects hc (gathering_empty input (r.effectiveKeys ctx))
  have h4 : f.found.delegate.map content = (rootsOf false ts).map content := h4
  have h3 : f.keys = r.effectiveKeys ctx := h3
  obtain ⟨c1, c2⟩ := C25_check_declared_keys env.isinstance f.keys f.found
  have e1 : r.matches_ env input ctx = (match checkDeclaredKeys env.isinstance f.keys f.found.delegate with
      | some e => .error e
      | none => r.executeRules env ctx f) := by
    unfold RebulkObj.matches_ RebulkObj.matchesPatterns RebulkObj.checkFound
    simp only [hd, hk, h1, Bool.not_false, if_true]
    cases checkDeclaredKeys env.isinstance f.keys f.found.delegate <;> rfl
  have e2 : r.matches_ { env with checkKeys := false } input ctx = r.executeRules env ctx f := by
    unfold RebulkObj.matches_ RebulkObj.matchesPatterns RebulkObj.checkFound
    simp only [hd, h1, Bool.not_false, if_true, Bool.false_eq_true, if_false]
    rfl
  refine ⟨?_, ?_⟩
  · rintro ⟨m, hm, hcm⟩
    obtain ⟨m', hm', he⟩ := content_mem h4.symm hm
    obtain ⟨n, k, b1, b2, b3, b4⟩ := contradicts_content he.symm hcm
    have := c2.2 ⟨m', hm', n, k, b1, b2, by rw [h3]; exact b3, b4⟩
    rw [e1, this]
  · intro hall
    have hnone : checkDeclaredKeys env.isinstance f.keys f.found.delegate = none := by
      rcases c1 with c1 | c1
      · obtain ⟨m', hm', n, k, b1, b2, b3, b4⟩ := c2.1 c1
        obtain ⟨m, hm, he⟩ := content_mem h4 hm'
        exact absurd (contradicts_content he.symm ⟨n, k, b1, b2, by rw [← h3]; exact b3, b4⟩) (hall m hm)
      · exact c1
    rw [e1, e2, hnone]

/-- **C120**: if what is found under the name of a declared key is converted to an instance of its type (or `None`), then `CHECK_DECLARED_KEYS` changes nothing. -/
theorem C120_checked_search {ρ : Type} {env : Env ρ} (hk : env.checkKeys = true) {r : RebulkObj Ctx} (input : Str) (ctx : Ctx) (hd : r.disabled ctx = false)
    (hp : ∀ p ∈ r.effectivePatterns ctx, GroupPattern env.lower input ctx p)
    (hc : ∀ n k, (r.effectiveKeys ctx).get? n = some k → n ≠ "" → ∃ conv, AllConvert env.lower input ctx n conv (r.effectivePatterns ctx) ∧
      ∀ text, conv (.str text) = .none ∨ env.isinstance (conv (.str text)) k.valueType = true) :
    r.matches_ env input ctx = r.matches_ { env with checkKeys := false } input ctx := by
  obtain ⟨xss, ts, g1, h1, g2, g3⟩ := group_collects hp
  refine (C120_checking hk input ctx hd h1).2 ?_
  rintro m hm ⟨n, k, b1, b2, b3, b4, _, b6, b7⟩
  obtain ⟨x, hx, hxm⟩ := each_mem_right g2 m (List.mem_filter.1 hm).1
  obtain ⟨conv, c1, c2⟩ := hc n k b3 b2
  have := flatten_converted g1 c1 x hx (hxm.name.symm.trans b1) (hxm.priv.symm.trans b4)
  rw [hxm.value, this] at b6 b7
  rcases c2 (textAt input x.hit.start x.hit.stop) with h | h
  · exact b6 h
  · unfold Capture.converted at b7
    rw [h] at b7; cases b7

/-! ## The converters of the keys -/

/-- **C120, a key**: a key for a dataclass or a `TypedDict` is refused (`TypeError`), any other is made; it converts with its own formatter, else with its type. -/
theorem C120_key (structured : Nat → Bool) (calls constructs : Nat → Val → Val) (name : String) (t : Nat) (f : Option Nat) :
    (structured t = true → makeKey structured name t f = .error .typeError) ∧
    (structured t = false → ∃ k, makeKey structured name t f = .ok k ∧ k.name = name ∧ k.valueType = t ∧
      (∀ g, f = some g → k.converter calls constructs = calls g) ∧ (f = none → k.converter calls constructs = constructs t)) := by
  refine ⟨fun h => by unfold makeKey; rw [if_pos h], fun h => ⟨⟨name, t, f⟩, ?_, rfl, rfl, ?_, ?_⟩⟩
  · unfold makeKey; rw [h]; rfl
  · rintro g rfl; rfl
  · rintro rfl; rfl

theorem get?_read (fns : Nat → Val → Val) (n : String) : ∀ (d : HDict),
    Dict.get? (d.map (fun kv => (if kv.1 = "" then none else some kv.1, readFormatter fns kv.2))) (if n = "" then none else some n) =
      (d.get? n).map (readFormatter fns)
  | [] => rfl
  | (k, v) :: d => by
    rw [List.map_cons]
    simp only [Dict.get?]
    have hiff : ((if k = "" then none else some k) == (if n = "" then none else some n)) = (k == n) := by
      by_cases h1 : k = "" <;> by_cases h2 : n = ""
      · simp [h1, h2]
      · simp only [h1, h2, if_true, if_false]
        have : ("" == n) = false := by simpa using h2
        rw [this]; rfl
      · simp only [h1, h2, if_true, if_false]
        have : (k == "") = false := by simpa using h1
        rw [this]; rfl
      · simp only [h1, h2, if_false]; rfl
    rw [hiff]
    cases k == n with
    | true => rfl
    | false => exact get?_read fns n d

theorem chosen_read_name {fns : Nat → Val → Val} {d : HDict} {n : String} (hn : n ≠ "") {v : HV} (h : d.get? n = some v) (child : Bool) :
    chosen (readFormatters fns d) (some (fun v => v)) (some n) child = readFormatter fns v := by
  have := get?_read fns n d
  rw [if_neg hn, h] at this
  unfold chosen readFormatters
  simp only [declared, if_neg hn, this]
  rfl

theorem chosen_read_all {fns : Nat → Val → Val} {d : HDict} {v : HV} (h : d.get? "" = some v) (ho : ∀ n, n ≠ "" → d.get? n = none) (name : Option String)
    (child : Bool) : chosen (readFormatters fns d) (some (fun v => v)) name child = readFormatter fns v := by
  have h0 := get?_read fns "" d
  rw [if_pos rfl, h] at h0
  have h1 : ∀ n, n ≠ "" → Dict.get? (d.map (fun kv => (if kv.1 = "" then none else some kv.1, readFormatter fns kv.2))) (some n) = none := by
    intro n hn
    have := get?_read fns n d
    rw [if_neg hn, ho n hn] at this
    exact this
  unfold chosen readFormatters
  have hr : (if child = true then "__children__" else "__parent__") ≠ "" := by cases child <;> decide
  cases name with
  | none => simp only [declared, h0, h1 _ hr]; rfl
  | some n =>
    by_cases hn : n = ""
    · simp only [declared, if_pos hn, h0, h1 _ hr]; rfl
    · simp only [declared, if_neg hn, h0, h1 _ hr, h1 _ hn]; rfl

/-- **C120, `key=k`**: the pattern built has the name of the key, and formats everything with its converter, whatever the defaults and the declared keys. -/
theorem C120_built_with_key {expand : List Val → HV → HV} {fuel : Nat} {w w' : World} {f : Nat} {fac : Factory} {slot : Slot} {k : BKey}
    {args : List HV} {kw : HDict} (hw : ReachableB expand w) (hs : NoShared w (.build f slot (.one k) args kw)) (hf : w.factories[f]? = some fac)
    (hname : kw.get? "name" = none) (hform : kw.get? "formatter" = none)
    (he : stepB expand fuel w (.build f slot (.one k) args kw) = some w') (fns : Nat → Val → Val) :
    ∃ p, w'.patterns = w.patterns ++ [p] ∧ (w'.heap.at_ p.kwargs).get? "name" = some (.atom (.str k.name.toList)) ∧
      ∀ name child, chosen (readFormatters fns (w'.heap.at_ p.formatters)) (some (fun v => v)) name child = some (fns k.converter) := by
  obtain ⟨p, hp, _, hb⟩ := C101_build_partial hw hs (by intro _ _ h; cases h) hf he
  have hn : (w'.heap.at_ p.kwargs).get? "name" = some (.atom (.str k.name.toList)) := by
    have hg : optionsWithKey (.one k) kw "name" = some (.atom (.str k.name.toList)) := by simp [optionsWithKey, hname]
    by_cases ho : Overridden kw "name"
    · rw [(hb "name").1 ho, hg]
    · rw [(hb "name").2 ho, if_neg (by decide), hg]
      cases (w.heap.at_ (fac.slot slot)).get? "name" with
      | none => cases (w.heap.at_ fac.base).get? "name" with
        | none => rfl
        | some v => cases v <;> rfl
      | some v => cases v <;> (cases (w.heap.at_ fac.base).get? "name" with
        | none => rfl
        | some v => cases v <;> rfl)
  have hfm : (w'.heap.at_ p.kwargs).get? "formatter" = some k.conv := by
    have hg : optionsWithKey (.one k) kw "formatter" = some k.conv := by simp [optionsWithKey, hform, BKey.conv]
    by_cases ho : Overridden kw "formatter"
    · rw [(hb "formatter").1 ho, hg]
    · rw [(hb "formatter").2 ho, if_neg (by decide), hg]
      unfold BKey.conv
      cases (w.heap.at_ (fac.slot slot)).get? "formatter" with
      | none => cases (w.heap.at_ fac.base).get? "formatter" with
        | none => rfl
        | some v => cases v <;> rfl
      | some v => cases v <;> (cases (w.heap.at_ fac.base).get? "formatter" with
        | none => rfl
        | some v => cases v <;> rfl)
  refine ⟨p, hp, hn, ?_⟩
  -- the same pattern, for `C77_inherited_keys`
  simp only [stepB, hf, applyKey, Option.map_eq_some_iff] at he
  obtain ⟨r, e1, rfl⟩ := he
  have hpr : r.2 = p := by
    have := List.append_cancel_left hp
    exact List.cons.inj this |>.1
  subst hpr
  have key : ∀ n, (r.1.at_ r.2.formatters).get? n = if n = "" then some k.conv else none := by
    intro n
    have hfm : (r.1.at_ r.2.kwargs).get? "formatter" = some (.atom (.obj k.converter)) := hfm
    have := C77_inherited_keys e1 (by intro a ha; rw [hfm] at ha; cases ha) n
    simp only [hfm] at this
    rw [if_pos ((isTrueHV_iff ..).1 rfl)] at this
    exact this
  intro name child
  have := chosen_read_all (fns := fns) (key "") (fun n hn => by rw [key n, if_neg hn]) name child
  exact this

/-- **C120, `declare_keys(...)`**: a pattern built without formatter, the defaults having none, formats what has the name of a declared key with its converter. -/
theorem C120_built_declared {expand : List Val → HV → HV} {fuel : Nat} {w w' : World} {f : Nat} {fac : Factory} {slot : Slot}
    {args : List HV} {kw : HDict} (hw : ReachableB expand w) (hs : NoShared w (.build f slot .absent args kw)) (hf : w.factories[f]? = some fac)
    (hform : kw.get? "formatter" = none) (hkind : (w.heap.at_ (fac.slot slot)).get? "formatter" = none)
    (hgen : (w.heap.at_ fac.base).get? "formatter" = none) (hov : ¬ Overridden kw "formatter")
    (he : stepB expand fuel w (.build f slot .absent args kw) = some w') (fns : Nat → Val → Val) :
    ∃ p, w'.patterns = w.patterns ++ [p] ∧ ∀ n c, n ≠ "" → fac.keys.get? n = some c →
      ∀ child, chosen (readFormatters fns (w'.heap.at_ p.formatters)) (some (fun v => v)) (some n) child = some (fns c) := by
  obtain ⟨p, hp, _, hb⟩ := C101_build_partial hw hs (by intro _ _ h; cases h) hf he
  have hfm : (w'.heap.at_ p.kwargs).get? "formatter" = none := by
    rw [(hb "formatter").2 hov, if_neg (by decide), hkind, hgen]
    show combine none (combine none (kw.get? "formatter")) = none
    rw [hform]; rfl
  refine ⟨p, hp, ?_⟩
  simp only [stepB, hf, applyKey, Option.map_eq_some_iff] at he
  obtain ⟨r, e1, rfl⟩ := he
  have hpr : r.2 = p := by
    have := List.append_cancel_left hp
    exact List.cons.inj this |>.1
  subst hpr
  intro n c hn hc child
  have hfm : (r.1.at_ r.2.kwargs).get? "formatter" = none := hfm
  have := C77_inherited_keys e1 (by intro a ha; rw [hfm] at ha; cases ha) n
  simp only [hfm, hc] at this
  exact chosen_read_name hn this child

/-- **C120, `key=[k, ...]`**: what has a name is formatted by the formatter given for that name, else by the converter of the first key of that name, whatever the
defaults and the declared keys. -/
theorem C120_built_with_keys {expand : List Val → HV → HV} {fuel : Nat} {w w' : World} {f : Nat} {fac : Factory} {slot : Slot} {k : BKey} {ks : List BKey}
    {args : List HV} {kw : HDict} (hw : ReachableB expand w) (hf : w.factories[f]? = some fac)
    (hsep : SeparateDicts w.heap (HDict.pop kw "formatter") fac slot) (hargs : SeparateArgs w.heap (HDict.pop kw "formatter") fac slot args)
    (hform : ∀ a, kw.get? "formatter" = some (.ref a) → FlatDict (w.heap.at_ a)) (hclear : ∀ k' ∈ k :: ks, k'.name ≠ "clear")
    (he : stepB expand fuel w (.build f slot (.many (k :: ks)) args kw) = some w') (fns : Nat → Val → Val) :
    ∃ p, w'.patterns = w.patterns ++ [p] ∧ ∀ n, n ≠ "" → ∀ child,
      (∀ c, entry w.heap (kw.get? "formatter") n = some (.atom (.obj c)) →
        chosen (readFormatters fns (w'.heap.at_ p.formatters)) (some (fun v => v)) (some n) child = some (fns c)) ∧
      (entry w.heap (kw.get? "formatter") n = none → ∀ k', (k :: ks).find? (fun x => x.name == n) = some k' →
        chosen (readFormatters fns (w'.heap.at_ p.formatters)) (some (fun v => v)) (some n) child = some (fns k'.converter)) := by
  obtain ⟨p, hp, _, _, hfm, hn⟩ := C101_build_keys hw hf hsep hargs hform hclear he
  refine ⟨p, hp, ?_⟩
  simp only [stepB, hf] at he
  cases ek : applyKey (.many (k :: ks)) kw w.heap with
  | error e0 => rw [ek] at he; cases he
  | ok kh =>
    obtain ⟨kw', h'⟩ := kh
    have hl : h'.length = w.heap.length + 1 := by
      simp only [applyKey] at ek
      cases hb : keysBase kw w.heap with
      | error e0 => rw [hb] at ek; cases ek
      | ok base => rw [hb] at ek; cases ek; exact List.length_append
    rw [ek] at he
    simp only [Option.map_eq_some_iff] at he
    obtain ⟨r, e1, rfl⟩ := he
    have hpr : r.2 = p := by
      have := List.append_cancel_left hp
      exact List.cons.inj this |>.1
    subst hpr
    have hfm : (r.1.at_ r.2.kwargs).get? "formatter" = some (.ref w.heap.length) := hfm
    have main : ∀ n c, (entry w.heap (kw.get? "formatter") n).or (converterOf (k :: ks) n) = some (.atom (.obj c)) →
        (r.1.at_ r.2.formatters).get? n = some (.atom (.obj c)) := by
      intro n c hc
      have h1 := C77_inherited_keys e1 (by intro a ha; rw [hfm] at ha; cases ha; omega) n
      simp only [hfm] at h1
      have h2 : (r.1.at_ w.heap.length).get? n = _ := hn n
      have hcomb : ∀ u : Option HV, combine u (some (.atom (.obj c))) = some (.atom (.obj c)) := by
        intro u
        cases u with
        | none => rfl
        | some u => cases u <;> rfl
      rw [hc, hcomb, hcomb] at h2
      rw [h2] at h1
      exact h1
    intro n hne child
    refine ⟨fun c hc => ?_, fun hc k' hk' => ?_⟩
    · exact chosen_read_name hne (main n c (by rw [hc]; rfl)) child
    · exact chosen_read_name hne (main n k'.converter (by rw [hc]; simp [converterOf, hk'])) child

/-! ## The hypotheses are met -/

/-- Converts a text to its length. -/
def lengthOf : Val → Val
  | .str s => .int s.length
  | v => v

/-- Two groups, both converted, the season by name and the episode as any other group. -/
def typedConfig : GroupConfig := { formatter := .dict [(some "season", some lengthOf), (some "__children__", some (fun _ => .int 7))] }

theorem typedConfig_judging (input : Str) : typedConfig.Judging input := by
  intro x v hv t t' h h'
  rw [show typedConfig.validator = .absent from rfl, chosen_absent] at hv
  cases hv
  rfl

/-- The pattern converts seasons. -/
theorem typedConfig_converts (input : Str) : Converts (Ctx := Unit) input "season" lengthOf (.regex {} (Pattern.init 1 typedConfig.opts) false [seasonRegex]) :=
  ⟨⟨1, _, rfl, fun child => ⟨by cases child <;> rfl, by rw [← isTrue_iff]; cases child <;> decide⟩⟩, by intro _ _ _ h; cases h⟩

/-- A search with a typed key, checked or not. -/
example : let r : RebulkObj Unit := { exRebulk [.regex {} (Pattern.init 1 typedConfig.opts) false [seasonRegex]] [] with keys := [("season", ⟨"season", 3, none⟩)] };
    let env : Env (List Match) := { exEnv with isinstance := isinstanceSample, checkKeys := true };
    DefaultEnv exEnv ∧ (∀ p ∈ r.effectivePatterns (), GroupPattern exEnv.lower "S03E07 S04E99".toList () p) ∧
    AllConvert exEnv.lower "S03E07 S04E99".toList () "season" lengthOf (r.effectivePatterns ()) ∧
    (∃ f, r.matches_ exEnv "S03E07 S04E99".toList () = .ok f ∧ (f.found.getKey ⟨"season", 3, none⟩).2 = some (.int 2) ∧
      (f.found.allKey ⟨"season", 3, none⟩).2 = [.int 2, .int 2]) ∧
    (r.matches_ env "S03E07 S04E99".toList () matches .error .typeError) ∧
    ({ r with keys := [("season", ⟨"season", 1, none⟩)] } : RebulkObj Unit).matches_ env "S03E07 S04E99".toList () matches .ok _ := by
  refine ⟨exEnv_default, ?_, ?_, ⟨_, rfl, by decide, by decide⟩, rfl, rfl⟩
  · intro p hp
    have hp := List.mem_singleton.1 hp
    subst hp
    exact season_pattern 1 typedConfig (by intro a h; cases h) (by intro a h; cases h) (typedConfig_judging _)
  · intro p hp xs _ _
    have hp := List.mem_singleton.1 hp
    subst hp
    exact typedConfig_converts _

/-- Two builds, one with `key=`, one with declared keys. -/
def typedOps : List BOp := [.builder, .defaults 0 .base [("tags", .list [.int 1])], .declareKeys 0 [⟨"x", 4⟩, ⟨"y", 5⟩]]

example : ∃ w w1 w2 fac, runB noExpand 9 World.init typedOps = some w ∧ w.factories[0]? = some fac ∧ fac.keys.get? "y" = some 5 ∧
    NoShared w (.build 0 .string (.one ⟨"n", 6⟩) [] []) ∧ NoShared w (.build 0 .string .absent [] []) ∧
    stepB noExpand 9 w (.build 0 .string (.one ⟨"n", 6⟩) [] []) = some w1 ∧ stepB noExpand 9 w (.build 0 .string .absent [] []) = some w2 ∧
    w1.patterns.map (fun p => w1.heap.at_ p.formatters) = [[("", .atom (.obj 6))]] ∧
    w2.patterns.map (fun p => w2.heap.at_ p.formatters) = [[("x", .atom (.obj 4)), ("y", .atom (.obj 5))]] := by
  refine ⟨_, _, _, _, rfl, rfl, rfl, ?_, ?_, rfl, rfl, by rfl, by rfl⟩
  · refine ⟨(by intro a h; cases h), ?_⟩
    intro fac hf o
    cases hf
    refine ⟨?_, ?_, ?_⟩
    · rintro ⟨⟨a, h⟩, _⟩; cases h
    · rintro ⟨⟨a, h⟩, _⟩; cases h
    · rintro ⟨⟨a, h⟩, _⟩; cases h
  · refine ⟨(by intro a h; cases h), ?_⟩
    intro fac hf o
    cases hf
    refine ⟨?_, ?_, ?_⟩
    · rintro ⟨⟨a, h⟩, _⟩; cases h
    · rintro ⟨⟨a, h⟩, _⟩; cases h
    · rintro ⟨⟨a, h⟩, _⟩; cases h

/-- A build with a sequence of keys, `x` being declared with another converter and formatted explicitly, `n` occurring twice. -/
def keySeqOps : List BOp := typedOps ++ [.dict [("x", .atom (.obj 8))]]

example : ∃ w w1 fac, runB noExpand 9 World.init keySeqOps = some w ∧ w.factories[0]? = some fac ∧
    SeparateDicts w.heap (HDict.pop [("formatter", .ref 6)] "formatter") fac .regex ∧
    SeparateArgs w.heap (HDict.pop [("formatter", .ref 6)] "formatter") fac .regex [] ∧ FlatDict (w.heap.at_ 6) ∧
    entry w.heap (some (.ref 6)) "x" = some (.atom (.obj 8)) ∧ entry w.heap (some (.ref 6)) "n" = none ∧
    stepB noExpand 9 w (.build 0 .regex (.many [⟨"n", 6⟩, ⟨"x", 9⟩, ⟨"n", 7⟩]) [] [("formatter", .ref 6)]) = some w1 ∧
    w1.patterns.map (fun p => w1.heap.at_ p.formatters) = [[("x", .atom (.obj 8)), ("n", .atom (.obj 6)), ("y", .atom (.obj 5))]] := by
  have h0 : ∀ (h : DHeap) (g : HDict) (f : Factory) (s : Slot), dictsIn g ++ (dictsIn (h.at_ (f.slot s)) ++ dictsIn (h.at_ f.base)) = [] →
      SeparateDicts h g f s ∧ SeparateArgs h g f s [] := by
    intro h g f s e
    refine ⟨⟨by rw [e]; exact .nil, by rw [e]; intro a ha; cases ha⟩, ?_⟩
    intro a ha; cases ha
  refine ⟨_, _, _, rfl, rfl, (h0 _ _ _ _ ?_).1, (h0 _ _ _ _ ?_).2, ?_, ?_, ?_, rfl, ?_⟩
  · decide +kernel
  · decide +kernel
  · refine ⟨by decide +kernel, by decide +kernel, fun n x h => ?_⟩
    have hm : (n, HV.ref x) ∈ [("x", HV.atom (.obj 8))] := refAt_mem h
    simp at hm
  · decide +kernel
  · decide +kernel
  · decide +kernel

end Rebulk
