import Verif.Spec.PlainSearch
import Verif.Props.PatternRun
import Verif.Props.RebulkSimple
/-!
# C115: the plain search
-/
namespace Rebulk
open Spec
variable {Ctx : Type}

theorem each_append {α β : Type} {R : α → β → Prop} {a a' : List α} {b b' : List β} (h : Each R a b) (h' : Each R a' b') : Each R (a ++ a') (b ++ b') := by
  induction h with
  | nil => exact h'
  | cons x _ ih => exact .cons x ih

theorem each_filter {α β : Type} {R : α → β → Prop} {p : α → Bool} {q : β → Bool} {a : List α} {b : List β} (h : Each R a b)
    (hpq : ∀ x ∈ a, ∀ y ∈ b, R x y → p x = q y) : Each R (a.filter p) (b.filter q) := by
  induction h with
  | nil => exact .nil
  | @cons x y xs ys hxy _ ih =>
    have e := hpq x (by simp) y (by simp) hxy
    have ih := ih (fun x hx y hy => hpq x (List.mem_cons_of_mem _ hx) y (List.mem_cons_of_mem _ hy))
    rw [List.filter_cons, List.filter_cons, ← e]
    split
    · exact .cons hxy ih
    · exact ih

theorem each_mem_left {α β : Type} {R : α → β → Prop} {as : List α} {bs : List β} (h : Each R as bs) : ∀ a ∈ as, ∃ b ∈ bs, R a b := by
  induction h with
  | nil => simp
  | @cons x y _ _ hxy _ ih =>
    intro a ha
    rcases List.mem_cons.1 ha with rfl | ha
    · exact ⟨y, by simp, hxy⟩
    · obtain ⟨b, hb, hr⟩ := ih a ha
      exact ⟨b, List.mem_cons_of_mem _ hb, hr⟩

theorem each_content {R : Finding → Match → Prop} (hR : ∀ x m m', content m = content m' → R x m → R x m') : ∀ {a : List Finding} {b b' : List Match},
    Each R a b → b'.map content = b.map content → Each R a b'
  | _, _, [], .nil, _ => .nil
  | _, _, _ :: _, .nil, h => by cases h
  | _, _, [], .cons _ _, h => by cases h
  | _, _, _ :: _, .cons hx ht, h => by
    rw [List.map_cons, List.map_cons] at h
    obtain ⟨h1, h2⟩ := List.cons.inj h
    exact .cons (hR _ _ _ h1.symm hx) (each_content hR ht h2)

theorem stands_content {x : Finding} {m m' : Match} (h : content m = content m') (hs : Stands x m) : Stands x m' := by
  have e : m' = { m with id := m'.id } := by
    cases m; cases m'
    simp only [content, Match.mk.injEq] at h
    obtain ⟨_, h1, h2, h3, h4, h5, h6, h7, h8, h9, h10, h11, h12, h13, h14, h15⟩ := h
    subst h1 h2 h3 h4 h5 h6 h7 h8 h9 h10 h11 h12 h13 h14 h15
    rfl
  rw [e]
  exact ⟨hs.span, hs.rank, hs.value, hs.name, hs.tags, hs.isPublic, hs.noMarker, hs.noParent⟩

/-! ## One pattern -/

/-- A raw match of a find. -/
structure RawOf (x : Finding) (t : MTree) : Prop where
  span : t.root.span = (x.start, x.stop)
  some : x.start < x.stop
  raw : t.root.raw = .str x.text
  noValue : t.root.lit = .none
  name : t.root.name = x.name
  tags : t.root.tags = x.tags
  isPublic : t.root.priv = false
  noMarker : t.root.marker = false
  noParent : t.root.ancestors = []

theorem emits_plain {name : Option String} {tags : List String} {idx : Nat} {x : Finding} {t : MTree} {l : List MTree}
    (h : Emits { opts := { name := name, tags := tags } } idx t l) (hx : RawOf x t) (hr : x.rank = idx) : ∃ T, l = [T] ∧ Stands x T.root := by
  have hpre : ∀ {u r : MTree}, After none u (some r) → r = u := by
    intro u r h
    cases h with
    | absent _ => rfl
    | unchanged _ h => cases h
    | replaced _ _ h => cases h
  have hno : ∀ {u : MTree}, ¬ After none u none := by
    intro u h
    cases h with
    | dropped _ h => cases h
  have hlt : t.root.start < t.root.stop := by
    have e1 : t.root.start = x.start := congrArg Prod.fst hx.span
    have e2 : t.root.stop = x.stop := congrArg Prod.snd hx.span
    rw [e1, e2]; exact hx.some
  have hV : ∀ {V T : MTree}, ParentConfigured { opts := { name := name, tags := tags } } idx t V → ChildrenConfigured { opts := { name := name, tags := tags } } idx V T →
      T.root = V.root ∧ V.root.start = t.root.start ∧ V.root.stop = t.root.stop := by
    intro V T h1 h2
    exact ⟨h2.root, congrArg Prod.fst h1.root.span, congrArg Prod.snd h1.root.span⟩
  cases h with
  | dropped h => exact absurd h hno
  | emptied h he =>
    have := hpre h
    subst this
    omega
  | refused h _ h1 h2 hn =>
    exfalso
    refine hn ⟨fun _ v hv => ?_, fun C _ _ v hv => ?_⟩ <;>
    · simp only [chosen, declared] at hv
      split at hv
      · split at hv <;> (simp at hv; rw [← hv])
      · simp at hv; rw [← hv]
  | droppedAfter _ _ _ _ _ h => exact absurd h hno
  | emptiedAfter h _ h1 h2 _ h3 he =>
    have := hpre h
    subst this
    have := hpre h3
    subst this
    obtain ⟨a1, a2, a3⟩ := hV h1 h2
    rw [a1, a2, a3] at he
    omega
  | @emitted t1 V T r h _ h1 h2 _ h3 _ =>
    have := hpre h
    subst this
    have := hpre h3
    subst this
    refine ⟨r, ?_, ?_⟩
    · unfold emission
      rw [if_pos (c := (ParentIncluded _ ∨ _) ∧ NotIgnored _ _) ⟨.inl (.inl rfl), fun _ _ h => by cases h⟩,
        if_neg (c := ChildrenIncluded _ ∨ _) (by simp [ChildrenIncluded])]
      rfl
    · rw [h2.root]
      have c := h1.root
      have hval : chosen (DictArg.absent : DictArg Val) .none t1.root.name false = .none := by
        simp only [chosen, declared]
        split
        · split <;> rfl
        · rfl
      have hlit : V.root.lit = .none := by
        rw [c.noValue (by rw [hval]; intro h; cases h)]
        exact hx.noValue
      have hfmt : V.root.formatter = some (fun v => v) := by
        rw [c.formatter (.inl (.inl rfl))]
        simp only [chosen, declared]
        split
        · split <;> rfl
        · rfl
      refine ⟨c.span.trans hx.span, c.index.trans hr.symm, ?_, c.name.trans hx.name, c.tags.trans hx.tags, ?_, c.marker.trans hx.noMarker,
        h1.rootLink.trans hx.noParent⟩
      · unfold Match.value
        rw [hlit, hfmt]
        have hraw : V.root.raw = t1.root.raw := by
          have e1 : V.root.start = t1.root.start := congrArg Prod.fst c.span
          have e2 : V.root.stop = t1.root.stop := congrArg Prod.snd c.span
          unfold Match.raw Match.rawStartOf Match.rawEndOf
          rw [c.input, c.raw.1, c.raw.2, e1, e2]
        show (if (false : Bool) = true then _ else V.root.raw) = _
        rw [hraw]
        exact hx.raw
      · cases hp : V.root.priv with
        | false => rfl
        | true =>
          rcases c.priv.1 hp with h | ⟨n, _, _, h⟩ | ⟨_, h⟩ | ⟨h, _⟩
          · rw [hx.isPublic] at h; cases h
          · cases h
          · cases h
          · cases h

theorem emitsAll_plain {name : Option String} {tags : List String} : ∀ {fs : List Finding} {ts l : List MTree} {i : Nat},
    Each RawOf fs ts → (∀ (k : Nat) x, fs[k]? = some x → x.rank = i + k) → EmitsAll { opts := { name := name, tags := tags } } i ts l →
    Each Stands fs (l.map MTree.root)
  | _, _, _, _, .nil, _, .nil => .nil
  | _, _, _, i, .cons hx ht, hk, .cons h1 h2 => by
    obtain ⟨T, rfl, hs⟩ := emits_plain h1 hx (hk 0 _ rfl)
    refine .cons hs (emitsAll_plain (i := i + 1) ht (fun k x h => ?_) h2)
    have := hk (k + 1) x h
    omega

theorem returns_plain {name : Option String} {tags : List String} : ∀ {fss : List (List Finding)} {raws : List (List MTree)} {parts : List (List MTree)},
    Each (fun fs ts => Each RawOf fs ts ∧ ∀ (k : Nat) x, fs[k]? = some x → x.rank = k) fss raws →
    Each (fun rs l => EmitsAll { opts := { name := name, tags := tags } } 0 rs l) raws parts → Each Stands fss.flatten (parts.flatten.map MTree.root)
  | _, _, _, .nil, .nil => .nil
  | _, _, _, .cons ⟨h1, h2⟩ ht, .cons k1 kt => by
    rw [List.flatten_cons, List.flatten_cons, List.map_append]
    exact each_append (emitsAll_plain h1 (fun k x h => by rw [h2 k x h]; omega) k1) (returns_plain ht kt)

theorem each_mapIdx {α β γ : Type} {R : α → γ → Prop} {S : β → γ → Prop} (f : Nat → α → β) : ∀ {as : List α} {cs : List γ} (i : Nat), Each R as cs →
    (∀ (k : Nat) a c, a ∈ as → R a c → S (f k a) c) → Each S (as.mapIdx (fun k a => f (k + i) a)) cs
  | _, _, _, .nil, _ => .nil
  | _, _, i, .cons h ht, hS => by
    rw [List.mapIdx_cons]
    refine .cons (by simpa using hS (0 + i) _ _ (by simp) h) ?_
    have := each_mapIdx f (i + 1) ht (fun k a c ha hr => hS k a c (List.mem_cons_of_mem _ ha) hr)
    have e : (fun k a => f (k + 1 + i) a) = (fun k a => f (k + (i + 1)) a) := by
      funext k a; rw [Nat.add_assoc, Nat.add_comm 1 i]
    rw [e]
    exact this

theorem word_raws {id : Nat} {name : Option String} {tags : List String} {lower : Str → Str} {input : Str} : ∀ {words : List Str} {raws : List (List MTree)},
    (∀ w ∈ words, w ≠ []) → Each (StringRaws id { opts := { name := name, tags := tags } } lower {} input) words raws →
    ∃ finds, Each (fun w l => ∃ positions, Occurrences input w none none positions ∧ l = wordFinds name tags w positions) words finds ∧
      Each (fun fs ts => Each RawOf fs ts ∧ ∀ (k : Nat) x, fs[k]? = some x → x.rank = k) finds raws
  | _, _, _, .nil => ⟨[], .nil, .nil⟩
  | w :: ws, _, hw, .cons h ht => by
    obtain ⟨finds, h1, h2⟩ := word_raws (fun w hw' => hw w (List.mem_cons_of_mem _ hw')) ht
    obtain ⟨ps, ho, he⟩ := h
    have ho : Occurrences input w none none ps := ho
    refine ⟨wordFinds name tags w ps :: finds, .cons ⟨ps, ho, rfl⟩ h1, .cons ⟨?_, ?_⟩ h2⟩
    · have hlen : 0 < w.length := List.length_pos_iff.2 (hw w (by simp))
      have := each_mapIdx (S := RawOf) (fun i (p : Nat) => (⟨p, p + w.length, i, w, name, tags⟩ : Finding)) 0 he (by
        rintro k p t hp ⟨hm, _⟩
        have hocc := ((ho.exact p).1 hp).1
        refine ⟨hm.span, by show (p : Int) < p + w.length; omega, ?_, hm.noValue, hm.name, hm.tags, hm.priv, hm.marker, hm.noParent⟩
        rw [raw_of_span (n := w.length) hm.input hm.span hm.noRaw hocc.inside hlen, occurs_take hocc])
      exact this
    · intro k x hx
      unfold wordFinds at hx
      rw [List.getElem?_mapIdx] at hx
      cases hp : ps[k]? with
      | none => rw [hp] at hx; cases hx
      | some p => rw [hp] at hx; cases hx; rfl

theorem regex_raws {id : Nat} {name : Option String} {tags : List String} {rc : Bool} {input : Str} : ∀ {regexes : List Regex} {raws : List (List MTree)},
    (∀ re ∈ regexes, ∀ o ∈ re.finditer input, 0 ≤ o.start ∧ o.start ≤ o.stop ∧ o.stop ≤ input.length) →
    Each (RegexRaws id { opts := { name := name, tags := tags } } rc input) regexes raws →
    Each (fun fs ts => Each RawOf fs ts ∧ ∀ (k : Nat) x, fs[k]? = some x → x.rank = k) (regexes.map (regexFinds name tags input)) raws
  | _, _, _, .nil => .nil
  | re :: res, _, hr, .cons h ht => by
    rw [List.map_cons]
    refine .cons ⟨?_, ?_⟩ (regex_raws (fun r h => hr r (List.mem_cons_of_mem _ h)) ht)
    · have := each_mapIdx (S := RawOf) (fun i (o : ReObj) => (⟨o.start, o.stop, i, textAt input o.start o.stop, name, tags⟩ : Finding)) 0 h (by
        rintro k o t ho hm
        have hm := hm.main
        obtain ⟨ho1, ho2⟩ := List.mem_filter.1 ho
        have hne : o.start ≠ o.stop := of_decide_eq_true ho2
        obtain ⟨b1, b2, b3⟩ := hr re (by simp) o ho1
        refine ⟨hm.span, by show o.start < o.stop; omega, ?_, hm.noValue, hm.name, hm.tags, hm.priv, hm.marker, hm.noParent⟩
        have e1 : ((o.start.toNat : Nat) : Int) = o.start := Int.toNat_of_nonneg b1
        have e2 : (((o.stop - o.start).toNat : Nat) : Int) = o.stop - o.start := Int.toNat_of_nonneg (by omega)
        have := raw_of_span (pos := o.start.toNat) (n := (o.stop - o.start).toNat) hm.input (by rw [hm.span, e1, e2]; congr 1; omega) hm.noRaw
          (by omega) (by omega)
        exact this)
      exact this
    · intro k x hx
      unfold regexFinds at hx
      rw [List.getElem?_mapIdx] at hx
      cases hp : ((re.finditer input).filter (fun o => decide (o.start ≠ o.stop)))[k]? with
      | none => rw [hp] at hx; cases hx
      | some p => rw [hp] at hx; cases hx; rfl

theorem proper_absent {α : Type} : Proper (DictArg.absent : DictArg (Option α)) := by intro a h; cases h
theorem keepsOrder_none : KeepsOrder none := by intro g h; cases h

theorem finds_some {fss : List (List Finding)} {raws : List (List MTree)}
    (h : Each (fun fs ts => Each RawOf fs ts ∧ ∀ (k : Nat) x, fs[k]? = some x → x.rank = k) fss raws) : ∀ x ∈ fss.flatten, x.start < x.stop := by
  intro x hx
  obtain ⟨fs, hfs, hx⟩ := List.mem_flatten.1 hx
  obtain ⟨ts, _, h1, _⟩ := each_mem_left h fs hfs
  obtain ⟨_, _, hr⟩ := each_mem_left h1 x hx
  exact hr.some

/-- What one plain pattern returns. -/
theorem plain_matches (lower : Str → Str) {input : Str} {p : PatternObj Ctx} (h : PlainPattern input p) :
    ∃ fs out, Finds input p fs ∧ p.matches_ lower input = .ok out ∧ Each Stands fs (out.map MTree.root) ∧ ∀ x ∈ fs, x.start < x.stop := by
  cases h with
  | string id name tags words hw =>
    obtain ⟨raws, out, h1, h2, parts, h3, h4⟩ := C106_strings (Ctx := Ctx) id { opts := { name := name, tags := tags } } {} lower {} words input
      proper_absent proper_absent keepsOrder_none keepsOrder_none (fun w h => ⟨hw w h, fun h => by cases h⟩)
    obtain ⟨finds, k1, k2⟩ := word_raws hw h2
    have h4 : out = parts.flatten := h4
    subst h4
    exact ⟨_, _, .string id name tags words finds k1, h1, returns_plain k2 h3, finds_some k2⟩
  | regex id name tags rc regexes hr =>
    obtain ⟨raws, out, h1, h2, parts, h3, h4⟩ := C106_regexes (Ctx := Ctx) id { opts := { name := name, tags := tags } } {} lower rc regexes input
      proper_absent proper_absent keepsOrder_none keepsOrder_none rfl (fun re hre o ho => by
        obtain ⟨_, b, _, c⟩ := hr re hre o ho; exact ⟨b, c⟩)
    have h4 : out = parts.flatten := h4
    subst h4
    refine ⟨_, _, .regex id name tags rc regexes, h1, ?_⟩
    rw [List.flatMap_def]
    have k2 := regex_raws (fun re hre o ho => by obtain ⟨a, b, c, _⟩ := hr re hre o ho; exact ⟨a, b, c⟩) h2
    exact ⟨returns_plain k2 h3, finds_some k2⟩

theorem plain_simple (lower : Str → Str) {input : Str} {p : PatternObj Ctx} (h : PlainPattern input p) :
    p.info.disabled = (fun _ => false) ∧ SimplePattern lower input p := by
  have hs : ∀ (name : Option String) (tags : List String), SimpleOpts { opts := { name := name, tags := tags } } := fun name tags =>
    ⟨⟨rfl, rfl⟩, ⟨rfl, rfl, rfl, rfl⟩, rfl, ⟨rfl, rfl, rfl⟩, proper_absent, proper_absent⟩
  cases h with
  | string id name tags words hw => exact ⟨rfl, .string (hs _ _) (fun w h => ⟨hw w h, fun h => by cases h⟩)⟩
  | regex id name tags rc regexes hr =>
    exact ⟨rfl, .regex (hs _ _) rfl (fun re hre o ho => by obtain ⟨_, b, _, c⟩ := hr re hre o ho; exact ⟨b, c⟩)⟩

theorem plain_collects {lower : Str → Str} {ctx : Ctx} {input : Str} : ∀ {ps : List (PatternObj Ctx)} {ts : List MTree}, (∀ p ∈ ps, PlainPattern input p) →
    Collects lower ctx input ps ts → ∃ fss, Each (Finds input) ps fss ∧ Each Stands fss.flatten (ts.map MTree.root) ∧ ∀ x ∈ fss.flatten, x.start < x.stop
  | _, _, _, .nil => ⟨[], .nil, .nil, by simp⟩
  | p :: ps, _, h, .disabled hd _ => by
    rw [(plain_simple lower (h p (by simp))).1] at hd; cases hd
  | p :: ps, _, h, .enabled _ h1 h2 => by
    obtain ⟨fss, g1, g2, g3⟩ := plain_collects (fun p hp => h p (List.mem_cons_of_mem _ hp)) h2
    obtain ⟨fs, out, k1, k2, k3, k4⟩ := plain_matches lower (h p (by simp))
    rw [k2] at h1
    cases h1
    refine ⟨fs :: fss, .cons k1 g1, ?_, ?_⟩
    · rw [List.flatten_cons, List.map_append]
      exact each_append k3 g2
    · intro x hx
      rw [List.flatten_cons] at hx
      rcases List.mem_append.1 hx with hx | hx
      · exact k4 x hx
      · exact g3 x hx

theorem overlap_iff {a b : Match} (ha : a.start < a.stop) (hb : b.start < b.stop) : Overlap a b ↔ a.start < b.stop ∧ b.start < a.stop := by
  constructor
  · rintro ⟨i, ⟨h1, h2⟩, h3, h4⟩
    omega
  · rintro ⟨h1, h2⟩
    by_cases h : a.start ≤ b.start
    · exact ⟨b.start, ⟨h, h2⟩, Int.le_refl _, hb⟩
    · exact ⟨a.start, ⟨Int.le_refl _, ha⟩, by omega, h1⟩

/-! ## The theorem -/

open Classical in
/-- **C115**: a new rebulk with string and regular expression patterns that have no option but a name and tags finds, pattern by pattern, string by string and
from left to right, the occurrences of the strings and the non-empty matches of the regular expressions that share no character with a longer find; each of
them is a public match with the name and tags of its pattern whose value is the text found. -/
theorem C115_plain_search {env : Env (List Match)} (henv : DefaultEnv env) (a b : Nat) (ps : List (PatternObj Ctx)) (input : Str) (ctx : Ctx)
    (hp : ∀ p ∈ ps, PlainPattern input p) :
    ∃ fss f, Each (Finds input) ps fss ∧ (plainRebulk a b ps).matches_ env input ctx = .ok f ∧
      Each Stands (fss.flatten.filter (fun x => decide (Longest fss.flatten x))) f.found.delegate ∧ f.markers.delegate = [] ∧
      LookupsRight f.found ∧ LookupsRight f.markers := by
  obtain ⟨ts, f, h1, h2, h3, h4, h5, h6⟩ := C74_simple henv (r := plainRebulk a b ps) ⟨⟨a, b, rfl⟩, (by intro c hc; cases hc)⟩ input ctx rfl
    (fun p hp' _ => (plain_simple env.lower (hp p hp')).2)
  have h1 : Collects env.lower ctx input ps ts := h1
  obtain ⟨fss, g1, g2, g3⟩ := plain_collects hp h1
  have hmark : ∀ m ∈ ts.map MTree.root, m.marker = false := by
    intro m hm
    obtain ⟨x, _, hx⟩ := each_mem_right g2 m hm
    exact hx.noMarker
  have e0 : rootsOf false ts = ts.map MTree.root := by
    unfold rootsOf
    rw [List.filter_eq_self]
    intro m hm
    rw [hmark m hm]; rfl
  have e1 : rootsOf true ts = [] := by
    unfold rootsOf
    rw [List.filter_eq_nil_iff]
    intro m hm
    rw [hmark m hm]; decide
  refine ⟨fss, f, g1, h2, ?_, ?_, h5, h6⟩
  · rw [e0] at h3
    refine each_content (R := Stands) (fun x m m' h hs => stands_content h hs) (each_filter g2 ?_) h3
    intro x hx m hm hs
    have es : ∀ {x : Finding} {m : Match}, Stands x m → m.start = x.start ∧ m.stop = x.stop := fun h =>
      ⟨congrArg Prod.fst h.span, congrArg Prod.snd h.span⟩
    obtain ⟨s1, s2⟩ := es hs
    have hlt := g3 x hx
    refine decide_eq_decide.2 (not_congr ⟨?_, ?_⟩)
    · rintro ⟨c, hc, h1, h2, h3⟩
      obtain ⟨mc, hmc, hsc⟩ := each_mem_left g2 c hc
      obtain ⟨t1, t2⟩ := es hsc
      have := g3 c hc
      exact ⟨mc, hmc, (overlap_iff (by omega) (by omega)).2 ⟨by omega, by omega⟩, by omega⟩
    · rintro ⟨mc, hmc, ho, h3⟩
      obtain ⟨c, hc, hsc⟩ := each_mem_right g2 mc hmc
      obtain ⟨t1, t2⟩ := es hsc
      have := g3 c hc
      obtain ⟨h1, h2⟩ := (overlap_iff (by omega) (by omega)).1 ho
      exact ⟨c, hc, by omega, by omega, by omega⟩
  · rw [e1] at h4
    exact List.map_eq_nil_iff.1 h4

open Classical in
/-- **C115** for one string: `Rebulk().string(w, name=…, tags=…).matches(input)` is the list of the occurrences of `w`. -/
theorem C115_one_string {env : Env (List Match)} (henv : DefaultEnv env) (a b id : Nat) (name : Option String) (tags : List String) (w input : Str) (hw : w ≠ [])
    (ctx : Ctx) : ∃ positions f, Occurrences input w none none positions ∧
      (plainRebulk a b [.string {} (Pattern.init id { opts := { name := name, tags := tags } }) {} [w]]).matches_ env input ctx = .ok f ∧
      Each Stands (wordFinds name tags w positions) f.found.delegate ∧ f.markers.delegate = [] := by
  obtain ⟨fss, f, h1, h2, h3, h4, _⟩ := C115_plain_search henv a b [.string {} (Pattern.init id { opts := { name := name, tags := tags } }) {} [w]] input ctx
    (fun p hp => by
      rw [List.mem_singleton] at hp; subst hp
      exact .string id name tags [w] (fun x hx => by rw [List.mem_singleton] at hx; subst hx; exact hw))
  cases h1 with
  | cons h1 ht =>
    cases ht
    cases h1 with
    | string _ _ _ _ finds he =>
      cases he with
      | cons he ht =>
        cases ht
        obtain ⟨ps, ho, rfl⟩ := he
        refine ⟨ps, f, ho, h2, ?_, h4⟩
        simp only [List.flatten_cons, List.flatten_nil, List.append_nil] at h3
        rw [List.filter_eq_self.2] at h3
        · exact h3
        · intro x hx
          refine decide_eq_true ?_
          rintro ⟨c, hc, _, _, hlt⟩
          have hlen : ∀ y ∈ wordFinds name tags w ps, y.stop - y.start = w.length := by
            intro y hy
            obtain ⟨i, hi, rfl⟩ := List.mem_mapIdx.1 hy
            show (ps[i] : Int) + w.length - ps[i] = _
            omega
          rw [hlen x hx, hlen c hc] at hlt
          omega

/-- `Rebulk().string("ab", "b", name="x").regex(…)`, the regular expression matching `bc`, on `abcb`: `bc` and `ab` share a character but have the same
length, the first `b` is lost to both. -/
example : let ps : List (PatternObj Unit) := [.string {} (Pattern.init 1 { opts := { name := some "x" } }) {} ["ab".toList, "b".toList],
      .regex {} (Pattern.init 2 {}) false [{ names := [], finditer := fun _ => [⟨1, 3, []⟩] }]];
    (∀ p ∈ ps, PlainPattern "abcb".toList p) ∧
    ∃ f, (plainRebulk 0 1 ps).matches_ exEnv "abcb".toList () = .ok f ∧ f.found.delegate.map Match.span = [(0, 2), (3, 4), (1, 3)] := by
  refine ⟨?_, _, rfl, by decide⟩
  intro p hp
  rcases List.mem_cons.1 hp with rfl | hp
  · exact .string 1 (some "x") [] _ (by decide)
  · rw [List.mem_singleton] at hp
    subst hp
    refine .regex 2 none [] false _ ?_
    intro re hre o ho
    rw [List.mem_singleton] at hre; subst hre
    rw [List.mem_singleton] at ho; subst ho
    exact ⟨by decide, by decide, by decide, by simp⟩

end Rebulk
