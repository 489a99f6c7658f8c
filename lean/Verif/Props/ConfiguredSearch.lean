import Verif.Spec.ConfiguredSearch
import Verif.Props.PlainSearch
import Verif.Props.ChainScan
import Verif.Props.ChainValid
/-!
# C116: the search with values, formatters and validators
-/
namespace Rebulk
open Spec
variable {Ctx : Type}

theorem raw_text {m : Match} {input : Str} (hi : m.inputString = some input) (hne : input ≠ []) (hr : m.rawStart = none ∧ m.rawStop = none)
    (h0 : 0 ≤ m.start) (hlt : m.start < m.stop) : m.raw = .str (textAt input m.start m.stop) := by
  unfold Match.raw Match.rawStartOf Match.rawEndOf
  rw [hi, hr.1, hr.2]
  have he : input.isEmpty = false := by
    rw [← Bool.not_eq_true, List.isEmpty_iff]; exact hne
  simp only [he, Option.getD_none, Bool.false_eq_true, if_false]
  unfold pySlice clampIdx textAt
  have c1 : ¬ (m.start < 0) := by omega
  have c2 : ¬ (m.stop < 0) := by omega
  simp only [c1, c2, if_false]
  congr 1
  apply List.ext_getElem?
  intro k
  rw [List.getElem?_drop, List.getElem?_take, List.getElem?_take, List.getElem?_drop]
  by_cases hk : m.start.toNat + k < input.length
  · have e1 : min m.start.toNat input.length = m.start.toNat := by omega
    rw [e1]
    by_cases h2 : k < (m.stop - m.start).toNat
    · rw [if_pos h2, if_pos (by omega)]
    · rw [if_neg h2, if_neg (by omega)]
  · rw [List.getElem?_eq_none (l := input) (i := m.start.toNat + k) (by omega), ite_self]
    split
    · exact List.getElem?_eq_none (by omega)
    · rfl

/-- A raw match of a hit. -/
structure RawHit (input : Str) (c : Config) (x : Hit) (t : MTree) : Prop where
  span : t.root.span = (x.start, x.stop)
  inside : 0 ≤ x.start ∧ x.start < x.stop ∧ input ≠ []
  value : x.value = c.valueOf x.name t.root.lit (textAt input x.start x.stop)
  name : t.root.name = x.name
  tags : t.root.tags = x.tags
  isPublic : t.root.priv = false
  noMarker : t.root.marker = false
  noParent : t.root.ancestors = []
  noSolver : t.root.solver = none
  input : t.root.inputString = some input
  raw : t.root.rawStart = none ∧ t.root.rawStop = none

theorem conf_root {input : Str} {c : Config} {x : Hit} {idx : Nat} {t V : MTree} (hx : RawHit input c x t) (hr : x.rank = idx)
    (h : ParentConfigured c.opts idx t V) : StandsFor input x V.root := by
  have g := h.root
  have hs : V.root.span = (x.start, x.stop) := g.span.trans hx.span
  have e1 : V.root.start = x.start := congrArg Prod.fst hs
  have e2 : V.root.stop = x.stop := congrArg Prod.snd hs
  have hin : V.root.inputString = some input := g.input.trans hx.input
  have hraw : V.root.rawStart = none ∧ V.root.rawStop = none := ⟨g.raw.1.trans hx.raw.1, g.raw.2.trans hx.raw.2⟩
  have htext : V.root.raw = .str (textAt input x.start x.stop) := by
    have := raw_text hin hx.inside.2.2 hraw (by rw [e1]; exact hx.inside.1) (by rw [e1, e2]; exact hx.inside.2.1)
    rw [this, e1, e2]
  have hv : chosen c.opts.value .none t.root.name false = chosen c.value .none x.name false := by rw [hx.name]; rfl
  have hf : V.root.formatter = chosen c.formatter (some (fun v => v)) x.name false := by
    rw [g.formatter (.inl (.inl rfl)), hx.name]; rfl
  refine ⟨hs, g.index.trans hr.symm, ?_, g.name.trans hx.name, g.tags.trans hx.tags, ?_, g.marker.trans hx.noMarker, h.rootLink.trans hx.noParent,
    g.solver.trans hx.noSolver, hin, hraw⟩
  · rw [hx.value]
    unfold Match.value Config.valueOf
    have key : (if t.root.lit.truthy = true then t.root.lit else match V.root.formatter with | some f => f V.root.raw | none => V.root.raw) =
        (open Classical in if IsTrue t.root.lit then t.root.lit else match chosen c.formatter (some (fun v => v)) x.name false with
          | none => .str (textAt input x.start x.stop) | some f => f (.str (textAt input x.start x.stop))) := by
      by_cases hl : t.root.lit.truthy = true
      · rw [if_pos hl, if_pos (isTrue_iff.1 hl)]
      · rw [if_neg hl, if_neg (fun h => hl (isTrue_iff.2 h)), hf, htext]
        cases chosen c.formatter (some (fun v => v)) x.name false <;> rfl
    by_cases hc : IsTrue (chosen c.value .none x.name false)
    · rw [if_pos hc]
      have := g.value (by rw [hv]; exact hc)
      rw [this, hv, if_pos (isTrue_iff.2 hc)]
    · rw [if_neg hc, g.noValue (by rw [hv]; exact hc)]
      exact key
  · cases hp : V.root.priv with
    | false => rfl
    | true =>
      rcases g.priv.1 hp with h | ⟨n, _, _, h⟩ | ⟨_, h⟩ | ⟨h, _⟩
      · rw [hx.isPublic] at h; cases h
      · cases h
      · cases h
      · cases h

theorem conf_accepts {input : Str} {c : Config} (hj : c.Judging input) {x : Hit} {V T : MTree} (h : StandsFor input x V.root) :
    Accepted c.opts V T ↔ c.Agrees input x := by
  constructor
  · rintro ⟨ha, _⟩ v hv t ht
    rw [hj x v hv t V ht h]
    exact ha (.inl (.inl rfl)) v (by rw [h.name]; exact hv)
  · intro hg
    refine ⟨?_, ?_⟩
    · intro _ v hv
      rw [h.name] at hv
      exact hg v hv V h
    · intro C _ hi
      rcases hi with hi | hi
      · rcases hi with hi | hi <;> cases hi
      · cases hi

theorem emits_conf {input : Str} {c : Config} (hj : c.Judging input) {idx : Nat} {x : Hit} {t : MTree} {l : List MTree}
    (h : Emits c.opts idx t l) (hx : RawHit input c x t) (hr : x.rank = idx) :
    (c.Agrees input x ∧ ∃ T, l = [T] ∧ StandsFor input x T.root) ∨ (¬ c.Agrees input x ∧ l = []) := by
  have hpre : ∀ {u r : MTree}, After none u (some r) → r = u := by
    intro u r h
    cases h with
    | absent _ => rfl
    | unchanged _ h => cases h
    | replaced _ _ h => cases h
  have hno : ∀ {u : MTree}, ¬ After none u none := by
    intro u h
    cases h with
    | dropped _ h => cases h
  have hlt : t.root.start < t.root.stop := by
    have e1 : t.root.start = x.start := congrArg Prod.fst hx.span
    have e2 : t.root.stop = x.stop := congrArg Prod.snd hx.span
    rw [e1, e2]; exact hx.inside.2.1
  cases h with
  | dropped h => exact absurd h hno
  | emptied h he =>
    have := hpre h
    subst this
    omega
  | refused h _ h1 h2 hn =>
    have := hpre h
    subst this
    exact .inr ⟨fun hg => hn ((conf_accepts hj (conf_root hx hr h1)).2 hg), rfl⟩
  | droppedAfter _ _ _ _ _ h => exact absurd h hno
  | emptiedAfter h _ h1 h2 _ h3 he =>
    have := hpre h
    subst this
    have := hpre h3
    subst this
    have a := conf_root hx hr h1
    have e1 := congrArg Prod.fst a.span
    have e2 := congrArg Prod.snd a.span
    rw [h2.root] at he
    have := hx.inside.2.1
    simp only [Match.span] at e1 e2
    omega
  | @emitted t1 V T r h _ h1 h2 ha h3 _ =>
    have := hpre h
    subst this
    have := hpre h3
    subst this
    have a := conf_root hx hr h1
    refine .inl ⟨(conf_accepts hj a).1 ha, r, ?_, by rw [h2.root]; exact a⟩
    unfold emission
    rw [if_pos (c := (ParentIncluded _ ∨ _) ∧ NotIgnored _ _) ⟨.inl (.inl rfl), fun _ _ h => by cases h⟩,
      if_neg (c := ChildrenIncluded _ ∨ _) (by simp [ChildrenIncluded, Config.opts])]
    rfl

open Classical in
theorem emitsAll_conf {input : Str} {c : Config} (hj : c.Judging input) : ∀ {xs : List Hit} {ts l : List MTree} {i : Nat},
    Each (RawHit input c) xs ts → (∀ (k : Nat) x, xs[k]? = some x → x.rank = i + k) → EmitsAll c.opts i ts l →
    Each (StandsFor input) (xs.filter (fun x => decide (c.Agrees input x))) (l.map MTree.root)
  | _, _, _, _, .nil, _, .nil => .nil
  | x :: xs, _, _, i, .cons hx ht, hk, .cons h1 h2 => by
    have ih := emitsAll_conf hj (i := i + 1) ht (fun k x h => by have := hk (k + 1) x h; omega) h2
    rw [List.filter_cons]
    rcases emits_conf hj h1 hx (hk 0 _ rfl) with ⟨ha, T, rfl, hs⟩ | ⟨hn, rfl⟩
    · rw [if_pos (by exact decide_eq_true ha)]
      exact .cons hs ih
    · rw [if_neg (by rw [decide_eq_true_eq]; exact hn)]
      exact ih

/-- The hits of a sub-pattern and its raw matches. -/
def RawHits (input : Str) (c : Config) (xs : List Hit) (ts : List MTree) : Prop :=
  Each (RawHit input c) xs ts ∧ ∀ (k : Nat) x, xs[k]? = some x → x.rank = k

open Classical in
theorem returns_conf {input : Str} {c : Config} (hj : c.Judging input) : ∀ {xss : List (List Hit)} {raws : List (List MTree)} {parts : List (List MTree)},
    Each (RawHits input c) xss raws → Each (fun rs l => EmitsAll c.opts 0 rs l) raws parts →
    Each (StandsFor input) (xss.flatten.filter (fun x => decide (c.Agrees input x))) (parts.flatten.map MTree.root)
  | _, _, _, .nil, .nil => .nil
  | _, _, _, .cons ⟨h1, h2⟩ ht, .cons k1 kt => by
    rw [List.flatten_cons, List.flatten_cons, List.map_append, List.filter_append]
    exact each_append (emitsAll_conf hj h1 (fun k x h => by rw [h2 k x h]; omega) k1) (returns_conf hj ht kt)

theorem hits_some {input : Str} {c : Config} {xss : List (List Hit)} {raws : List (List MTree)} (h : Each (RawHits input c) xss raws) :
    ∀ x ∈ xss.flatten, x.start < x.stop := by
  intro x hx
  obtain ⟨fs, hfs, hx⟩ := List.mem_flatten.1 hx
  obtain ⟨ts, _, h1, _⟩ := each_mem_left h fs hfs
  obtain ⟨_, _, hr⟩ := each_mem_left h1 x hx
  exact hr.inside.2.1

theorem rank_mapIdx {α : Type} {l : List α} {f : Nat → α → Hit} (hf : ∀ i a, (f i a).rank = i) : ∀ (k : Nat) x, (l.mapIdx f)[k]? = some x → x.rank = k := by
  intro k x hx
  rw [List.getElem?_mapIdx] at hx
  cases hp : l[k]? with
  | none => rw [hp] at hx; cases hx
  | some p => rw [hp] at hx; cases hx; exact hf _ _

theorem word_hits {id : Nat} {c : Config} {lower : Str → Str} {so : StringOpts} {input : Str} : ∀ {words : List Str} {raws : List (List MTree)},
    (∀ w ∈ words, w ≠ [] ∧ (so.ignoreCase = true → lower w ≠ [])) → (so.ignoreCase = true → (lower input).length = input.length) →
    Each (StringRaws id c.opts lower so input) words raws →
    ∃ hits, Each (fun (w : Str) l => ∃ positions,
        Occurrences (if so.ignoreCase then lower input else input) (if so.ignoreCase then lower w else w) so.start so.stop positions ∧
        l = c.wordHits input w positions) words hits ∧ Each (RawHits input c) hits raws
  | _, _, _, _, .nil => ⟨[], .nil, .nil⟩
  | w :: ws, _, hw, hl, .cons h ht => by
    obtain ⟨hits, h1, h2⟩ := word_hits (fun w hw' => hw w (List.mem_cons_of_mem _ hw')) hl ht
    obtain ⟨ps, ho, he⟩ := h
    refine ⟨c.wordHits input w ps :: hits, .cons ⟨ps, ho, rfl⟩ h1, .cons ⟨?_, rank_mapIdx (fun _ _ => rfl)⟩ h2⟩
    have hlen : 0 < w.length := List.length_pos_iff.2 (hw w (by simp)).1
    exact each_mapIdx (S := RawHit input c)
      (fun i (p : Nat) => (⟨p, p + w.length, i, c.valueOf c.name .none (textAt input p (p + w.length)), c.name, c.tags⟩ : Hit)) 0 he (by
        rintro k p t hp ⟨hm, _⟩
        have hocc := ((ho.exact p).1 hp).1.inside
        refine ⟨hm.span, ⟨Int.natCast_nonneg p, by show (p : Int) < p + w.length; omega, ?_⟩, ?_, hm.name, hm.tags, hm.priv, hm.marker, hm.noParent,
          hm.solver, hm.input, hm.noRaw⟩
        · rintro rfl
          cases hi : so.ignoreCase with
          | false =>
            rw [hi] at hocc
            simp at hocc
            exact (hw w (by simp)).1 hocc.2
          | true =>
            rw [hi] at hocc
            have h1 := hl hi
            have h2 := List.length_pos_iff.2 ((hw w (by simp)).2 hi)
            simp only [if_true] at hocc
            simp only [List.length_nil] at h1
            omega
        · rw [hm.noValue])

theorem regex_hits {id : Nat} {c : Config} {rc : Bool} {input : Str} : ∀ {regexes : List Regex} {raws : List (List MTree)},
    (∀ re ∈ regexes, ∀ o ∈ re.finditer input, 0 ≤ o.start ∧ o.start ≤ o.stop ∧ o.stop ≤ input.length) →
    Each (RegexRaws id c.opts rc input) regexes raws → Each (RawHits input c) (regexes.map (c.regexHits input)) raws
  | _, _, _, .nil => .nil
  | re :: res, _, hr, .cons h ht => by
    rw [List.map_cons]
    refine .cons ⟨?_, rank_mapIdx (fun _ _ => rfl)⟩ (regex_hits (fun r h => hr r (List.mem_cons_of_mem _ h)) ht)
    exact each_mapIdx (S := RawHit input c)
      (fun i (o : ReObj) => (⟨o.start, o.stop, i, c.valueOf c.name .none (textAt input o.start o.stop), c.name, c.tags⟩ : Hit)) 0 h (by
        rintro k o t ho hm
        have hm := hm.main
        obtain ⟨ho1, ho2⟩ := List.mem_filter.1 ho
        have hne : o.start ≠ o.stop := of_decide_eq_true ho2
        obtain ⟨b1, b2, b3⟩ := hr re (by simp) o ho1
        refine ⟨hm.span, ⟨b1, by show o.start < o.stop; omega, ?_⟩, ?_, hm.name, hm.tags, hm.priv, hm.marker, hm.noParent, hm.solver, hm.input, hm.noRaw⟩
        · rintro rfl
          simp at b3
          omega
        · rw [hm.noValue])

theorem function_hits {id : Nat} {c : Config} {input : Str} {results : (Str → FRet) → List (FRet × (Int × Int) × MatchArgs)} :
    ∀ {functions : List (Str → FRet)} {raws : List (List MTree)},
    (∀ f ∈ functions, ReturnsResults c.name.isSome (f input) (results f) ∧ SoundResults input (results f)) →
    Each (fun f l => FunctionRaws id c.opts input (results f) l) functions raws →
    Each (fun (f : Str → FRet) l => ∃ rs, ReturnsResults c.name.isSome (f input) rs ∧ l = c.functionHits input rs) functions
      (functions.map (fun f => c.functionHits input (results f))) ∧
    Each (RawHits input c) (functions.map (fun f => c.functionHits input (results f))) raws
  | _, _, _, .nil => ⟨.nil, .nil⟩
  | f :: fs, _, hr, .cons h ht => by
    rw [List.map_cons]
    obtain ⟨g1, g2⟩ := function_hits (fun r h => hr r (List.mem_cons_of_mem _ h)) ht
    obtain ⟨r1, r2⟩ := hr f (by simp)
    refine ⟨.cons ⟨_, r1, rfl⟩ g1, .cons ⟨?_, rank_mapIdx (fun _ _ => rfl)⟩ g2⟩
    exact each_mapIdx (S := RawHit input c)
      (fun i (x : FRet × (Int × Int) × MatchArgs) => (⟨x.2.1.1, x.2.1.2, i, c.valueOf (x.2.2.name.getD c.name) (x.2.2.value.getD .none) (textAt input x.2.1.1 x.2.1.2),
        x.2.2.name.getD c.name, x.2.2.tags.getD c.tags⟩ : Hit)) 0 h (by
        rintro k x t hx ⟨hm, _⟩
        obtain ⟨hx1, hx2⟩ := List.mem_filter.1 hx
        have hne : x.2.1.1 ≠ x.2.1.2 := of_decide_eq_true hx2
        have hle := (r1.1 x hx1).2
        obtain ⟨b1, b2, ⟨b3, b4⟩, b5⟩ := r2 x hx1
        refine ⟨hm.span, ⟨b1, by show x.2.1.1 < x.2.1.2; omega, ?_⟩, ?_, hm.name, hm.tags, ?_, ?_, hm.noParent, ?_, hm.input, hm.noRaw⟩
        · rintro rfl
          simp at b2
          omega
        · rw [hm.value]
        · rw [hm.priv]; rcases b3 with h | h <;> rw [h] <;> rfl
        · rw [hm.marker]; rcases b5 with h | h <;> rw [h] <;> rfl
        · rw [hm.solver]; rcases b4 with h | h <;> rw [h] <;> rfl)

theorem tried_ahead {input : Str} {first : Bool} {text : Str} {pos : Int} {parts : List Part} {steps : List Step} {v : Bool} {text1 : Str} {pos1 : Int}
    (hp : ∀ p ∈ parts, RegularPart p) (h : Tried input first text pos parts steps v text1 pos1) (h0 : 0 ≤ pos) :
    (∀ s ∈ steps, 0 ≤ s.pos ∧ ∀ e ∈ s.kept, 0 ≤ e.root.start ∧ e.root.start < e.root.stop) ∧ 0 ≤ pos1 := by
  induction h with
  | all _ _ _ => exact ⟨by simp, h0⟩
  | missing _ _ _ => exact ⟨by simp, h0⟩
  | @found _ txt pos part _ kept raws _ _ _ _ hk _ ih =>
    have hreg := hp _ List.mem_cons_self
    obtain ⟨em, rs, h1, ⟨n, _, h2⟩, ⟨n', _, h3⟩, _⟩ := hk
    have hnext : 0 ≤ Step.nextPos ⟨part, txt, pos, kept, raws⟩ := by
      unfold Step.nextPos
      simp only
      cases hl : raws.getLast? with
      | none => exact h0
      | some r =>
        have hr : r ∈ raws := List.mem_of_getLast? hl
        rw [h3] at hr
        have := ((hreg.raws _ _ _ h1).inText r (List.mem_of_mem_take (List.mem_filter.1 hr).1))
        have a := this.lo
        have b := this.nonempty
        simp only
        omega
    obtain ⟨g1, g2⟩ := ih (fun p h => hp p (List.mem_cons_of_mem _ h)) hnext
    refine ⟨fun s hs => ?_, g2⟩
    rcases List.mem_cons.1 hs with rfl | hs
    · refine ⟨h0, fun e he => ?_⟩
      have he : e ∈ kept := he
      rw [h2] at he
      have := (hreg.emitted _ _ _ h1 e (List.mem_of_mem_take (List.mem_filter.1 he).1)).1
      exact ⟨this.lo, this.nonempty⟩
    · exact g1 s hs

theorem gathers_ahead {breaker : Option (List MTree → Bool)} {input : Str} {steps : List Step} {cur : List MTree}
    (hk : ∀ s ∈ steps, 0 ≤ s.pos ∧ ∀ e ∈ s.kept, 0 ≤ e.root.start ∧ e.root.start < e.root.stop) (h : Gathers breaker input steps cur) :
    ∀ x ∈ cur, 0 ≤ x.root.start ∧ x.root.start < x.root.stop := by
  obtain ⟨moved, h1, h2, rfl⟩ := h
  intro x hx
  rcases collect_mem _ _ _ hx with hx | ⟨g, hg, hx⟩
  · simp at hx
  · obtain ⟨⟨s, l⟩, hz, hg⟩ := List.mem_flatMap.1 hg
    obtain ⟨i, hi⟩ := List.getElem?_of_mem hz
    obtain ⟨hs, hl⟩ := List.getElem?_zip_eq_some.1 hi
    have hm := h2 i s l hs hl
    unfold Step.groups at hg
    split at hg
    · simp at hg
    · unfold repetitions at hg
      obtain ⟨k, _, rfl⟩ := List.mem_map.1 hg
      obtain ⟨hx, _⟩ := List.mem_filter.1 hx
      obtain ⟨j, hj⟩ := List.getElem?_of_mem hx
      have hlt : j < s.kept.length := by rw [← hm.count]; exact (List.getElem?_eq_some_iff.1 hj).1
      have hmv := hm.root j _ x (List.getElem?_eq_getElem hlt) hj
      obtain ⟨p0, hk⟩ := hk s (List.mem_of_getElem? hs)
      have := hk _ (List.getElem_mem hlt)
      have e1 : x.root.start = _ := congrArg Prod.fst hmv.span
      have e2 : x.root.stop = _ := congrArg Prod.snd hmv.span
      simp only at e1 e2
      omega

/-- The matches of the search of a chain. -/
theorem scans_made {c : Chain} {input : Str} (hp : ∀ p ∈ c.parts, RegularPart p) {text : Str} {pos : Int} {ts : List MTree}
    (h : Scans c input text pos ts) (h0 : 0 ≤ pos) : ∀ t ∈ ts, 0 ≤ t.root.start ∧ t.root.start < t.root.stop ∧ input ≠ [] ∧
      MadeBy c.pattern.id c.pattern.opts input t.root.start t.root.stop t.root := by
  induction h with
  | over _ _ => simp
  | nothing _ _ _ => simp
  | matched hlt ht _ hc _ hb hm _ ih =>
    obtain ⟨g1, g2⟩ := tried_ahead hp ht h0
    intro t h
    rcases List.mem_cons.1 h with rfl | h
    · obtain ⟨x, hx, e⟩ := hb.start.2
      have := hb.stop.1 x hx
      obtain ⟨a, b⟩ := gathers_ahead g1 hc x hx
      refine ⟨by omega, by omega, ?_, hm⟩
      rintro rfl
      simp at hlt
      omega
    · exact ih g2 t h
  | unseen _ ht _ _ _ ih => exact ih (tried_ahead hp ht h0).2
  | failed _ ht _ hg _ ih =>
    obtain ⟨g1, g2⟩ := tried_ahead hp ht h0
    refine ih ?_
    unfold resumeAt
    split
    · exact g2
    · have := gathers_ahead g1 hg _ List.mem_cons_self
      omega

theorem chain_hits {id : Nat} {c : Config} {input : Str} : ∀ (ts : List MTree),
    (∀ t ∈ ts, 0 ≤ t.root.start ∧ t.root.start < t.root.stop ∧ input ≠ [] ∧ MadeBy id c.opts.opts input t.root.start t.root.stop t.root) →
    RawHits input c (c.chainHits input ts) ts := by
  intro ts h
  refine ⟨?_, rank_mapIdx (fun _ _ => rfl)⟩
  have he : Each (fun a t => a = t) ts ts := by
    clear h
    induction ts with
    | nil => exact .nil
    | cons t ts ih => exact .cons rfl ih
  exact each_mapIdx (S := RawHit input c)
    (fun i (t : MTree) => (⟨t.root.start, t.root.stop, i, c.valueOf c.name .none (textAt input t.root.start t.root.stop), c.name, c.tags⟩ : Hit)) 0 he (by
      rintro k t _ ht rfl
      obtain ⟨a, b, hne, hm⟩ := h t ht
      refine ⟨rfl, ⟨a, b, hne⟩, ?_, hm.name, hm.tags, hm.priv, hm.marker, hm.noParent, hm.solver, hm.input, hm.noRaw⟩
      rw [hm.noValue])

/-- What a chain returns. -/
theorem chain_conf {lower : Str → Str} {input : Str} (info : PatternInfo Ctx) (id : Nat) (c : Config) (breaker : Option (List MTree → Bool))
    {parts : PartObjs Ctx} (hf : Proper c.formatter) (hv : c.validator = .absent) (hr : ∀ p ∈ PatternObj.runParts lower parts, RegularPart p ∧ Answers p) :
    ∃ ts out, Scans { pattern := Pattern.init id c.opts, parts := PatternObj.runParts lower parts, breaker := breaker } input input 0 ts ∧
      (PatternObj.chain info (Pattern.init id c.opts) breaker parts).matches_ lower input = .ok out ∧
      Each (StandsFor input) (c.chainHits input ts) (out.map MTree.root) ∧ ∀ x ∈ c.chainHits input ts, x.start < x.stop := by
  classical
  have hj : c.Judging input := fun x v h => by rw [hv, chosen_absent] at h; cases h; intros; rfl
  have hreg : ∀ p ∈ PatternObj.runParts lower parts, RegularPart p := fun p hp => (hr p hp).1
  obtain ⟨ts, out, raws, h1, h2, pieces, h3, h4⟩ := C112_returned
    (c := { pattern := Pattern.init id c.opts, parts := PatternObj.runParts lower parts, breaker := breaker }) id c.opts rfl input hreg
    (fun p hp => (hr p hp).2) hv hf keepsOrder_none keepsOrder_none
  have h4 : out = pieces.flatten := h4
  subst h4
  have k2 : Each (RawHits input c) [c.chainHits input ts] [ts] := .cons (chain_hits ts (scans_made hreg h2 (Int.le_refl 0))) .nil
  have hall : ∀ x : Hit, c.Agrees input x := fun x v h => by rw [hv, chosen_absent] at h; cases h; intros; rfl
  have k3 := returns_conf hj k2 h3
  rw [List.filter_eq_self.2 (fun x _ => decide_eq_true (hall x)), List.flatten_cons, List.flatten_nil, List.append_nil] at k3
  refine ⟨ts, _, h2, ?_, k3, fun x hx => hits_some k2 x (by simpa using hx)⟩
  show (match Chain.run _ input with | .error e => Except.error e | .ok (ms, _) => .ok ms) = _
  rw [h1]

theorem raw_at {id : Nat} {c : Config} {input : Str} (i : Nat) {t : MTree} (hm : MadeBy id c.opts.opts input t.root.start t.root.stop t.root)
    (h0 : 0 ≤ t.root.start) (hlt : t.root.start < t.root.stop) (hne : input ≠ []) : RawHit input c (c.hitAt input i t) t := by
  refine ⟨rfl, ⟨h0, hlt, hne⟩, ?_, hm.name, hm.tags, hm.priv, hm.marker, hm.noParent, hm.solver, hm.input, hm.noRaw⟩
  rw [hm.noValue]
  rfl

theorem shortened_made {id : Nat} {o : MatchOpts} {input : Str} {t : MTree} {pat : Option Nat} {n : Nat} (hm : MadeBy id o input t.root.start t.root.stop t.root) :
    MadeBy id o input (shortened t pat n).root.start (shortened t pat n).root.stop (shortened t pat n).root :=
  ⟨rfl, hm.name, hm.tags, hm.marker, hm.priv, hm.solver, hm.pattern, hm.input, hm.noParent, hm.noValue, hm.noRaw, hm.noFormatter⟩

theorem shortened_children_nil {t : MTree} {pat : Option Nat} {n : Nat} : (shortened t pat n).children = [] ↔ remaining pat n t.children = [] := by
  unfold shortened
  rw [setRoot_children]
  exact List.map_eq_nil_iff

theorem passes_hit {c : Config} {input : Str} (hj : c.Judging input) {i : Nat} {x : Hit} {t : MTree} (h : RawHit input c x t) (hr : x.rank = i)
    (hp : Passes c.opts i t) : c.Agrees input x := by
  obtain ⟨V, h1, h2⟩ := hp
  have hs := conf_root h hr h1
  intro v hv t' ht'
  rw [hj x v hv t' V ht' hs]
  exact h2 (.inl (.inl rfl)) v (by rw [hs.name]; exact hv)

theorem fails_hit {c : Config} {input : Str} {i : Nat} {x : Hit} {t : MTree} (h : RawHit input c x t) (hr : x.rank = i)
    (hp : Fails c.opts i t) : ¬ c.Agrees input x := by
  obtain ⟨V, h1, h2⟩ := hp
  have hs := conf_root h hr h1
  intro ha
  refine h2 (fun _ v hv => ?_)
  rw [hs.name] at hv
  exact ha v hv V hs

/-- What a chain emits for one match of its search. -/
theorem emits_hit {id : Nat} {c : Config} {input : Str} (hj : c.Judging input) {i : Nat} {t : MTree} {l : List MTree} (hne : input ≠ []) (h0 : 0 ≤ t.root.start)
    (hlt : t.root.start < t.root.stop) (hk : ∀ k ∈ t.children, t.root.start < k.root.stop)
    (hm : MadeBy id c.opts.opts input t.root.start t.root.stop t.root) (he : ChainEmits c.opts i t l) :
    ∃ hits, ChainHit c input i t hits ∧ Each (StandsFor input) hits (l.map MTree.root) ∧ ∀ x ∈ hits, x.start < x.stop := by
  have hraw := raw_at i hm h0 hlt hne
  have hkeep : ∀ {pat : Option Nat} {n : Nat}, (shortened t pat n).children ≠ [] → RawHit input c (c.hitAt input i (shortened t pat n)) (shortened t pat n) := by
    intro pat n hc
    refine raw_at i (shortened_made hm) h0 ?_ hne
    show t.root.start < lastStop t.root.start (remaining pat n t.children)
    unfold lastStop
    cases hl : (remaining pat n t.children).getLast? with
    | none => exact absurd (shortened_children_nil.2 (List.getLast?_eq_none_iff.1 hl)) hc
    | some k => exact hk k (List.mem_filter.1 (List.mem_of_getLast? hl)).1
  cases he with
  | whole h1 h2 =>
    have ha := passes_hit hj hraw rfl h1
    rcases emits_conf hj h2 hraw rfl with ⟨_, T, rfl, hT⟩ | ⟨hn, _⟩
    · exact ⟨_, .whole ha, .cons hT .nil, fun x hx => by rw [List.mem_singleton] at hx; subst hx; exact hlt⟩
    · exact absurd ha hn
  | @shortened last n l h1 h2 h3 h4 h5 h6 =>
    have hf := fails_hit hraw rfl h1
    by_cases hc : (shortened t last.root.pattern n).children = []
    · have hnil := shortened_children_nil.1 hc
      have hl : l = [] := by
        have hno : ∀ {u r : MTree}, After none u (some r) → r = u := by
          intro u r h
          cases h with
          | absent _ => rfl
          | unchanged _ h => cases h
          | replaced _ _ h => cases h
        cases h6 with
        | dropped _ => rfl
        | emptied _ _ => rfl
        | refused _ _ _ _ _ => rfl
        | droppedAfter _ _ _ _ _ _ => rfl
        | emptiedAfter _ _ _ _ _ _ _ => rfl
        | emitted g0 glt _ _ _ _ _ =>
          have := hno g0
          subst this
          have glt : t.root.start < lastStop t.root.start (remaining last.root.pattern n t.children) := glt
          rw [hnil] at glt
          exact absurd glt (Int.lt_irrefl _)
      subst hl
      refine ⟨[], .refused hf ?_, .nil, by simp⟩
      intro last' hl' k hrep hck
      rw [h2] at hl'
      cases hl'
      rcases Nat.lt_trichotomy n k with h | h | h
      · exact fails_hit (hkeep hck) rfl (h5 k hrep h)
      · subst h; exact absurd hc hck
      · exfalso
        obtain ⟨y, hy, e1, e2⟩ := hrep
        have : y ∈ remaining last.root.pattern n t.children := List.mem_filter.2 ⟨hy, decide_eq_true (by rintro ⟨_, h⟩; omega)⟩
        rw [hnil] at this
        cases this
    · have hx := hkeep hc
      have ha := passes_hit hj hx rfl h4
      rcases emits_conf hj h6 hx rfl with ⟨_, T, rfl, hT⟩ | ⟨hn, _⟩
      · refine ⟨_, .shortened hf h2 h3 hc ha ?_, .cons hT .nil, fun x hx' => by rw [List.mem_singleton] at hx'; subst hx'; exact hx.inside.2.1⟩
        intro k hrep hlt
        refine fails_hit (hkeep ?_) rfl (h5 k hrep hlt)
        intro hnil
        apply hc
        rw [shortened_children_nil] at hnil ⊢
        unfold remaining at hnil ⊢
        rw [List.filter_eq_nil_iff] at hnil ⊢
        intro y hy hyn
        refine hnil y hy (decide_eq_true ?_)
        rintro ⟨e1, e2⟩
        exact of_decide_eq_true hyn ⟨e1, by omega⟩
      · exact absurd ha hn
  | refused h1 h2 =>
    refine ⟨[], .refused (fails_hit hraw rfl h1) ?_, .nil, by simp⟩
    intro last hl k hrep hc
    exact fails_hit (hkeep hc) rfl (h2 last hl k hrep)

theorem emits_hits {id : Nat} {c : Config} {input : Str} (hj : c.Judging input) : ∀ {ts l : List MTree} {i : Nat},
    (∀ t ∈ ts, input ≠ [] ∧ 0 ≤ t.root.start ∧ t.root.start < t.root.stop ∧ (∀ k ∈ t.children, t.root.start < k.root.stop) ∧
      MadeBy id c.opts.opts input t.root.start t.root.stop t.root) → ChainEmitsAll c.opts i ts l →
    ∃ hits, ChainHits c input i ts hits ∧ Each (StandsFor input) hits (l.map MTree.root) ∧ ∀ x ∈ hits, x.start < x.stop
  | _, _, _, _, .nil => ⟨[], .nil, .nil, by simp⟩
  | _, _, _, h, .cons h1 h2 => by
    obtain ⟨a1, a2, a3, a4, a5⟩ := h _ List.mem_cons_self
    obtain ⟨xs, g1, g2, g3⟩ := emits_hit hj a1 a2 a3 a4 a5 h1
    obtain ⟨ys, k1, k2, k3⟩ := emits_hits hj (fun t ht => h t (List.mem_cons_of_mem _ ht)) h2
    refine ⟨xs ++ ys, .cons g1 k1, ?_, ?_⟩
    · rw [List.map_append]; exact each_append g2 k2
    · intro x hx
      rcases List.mem_append.1 hx with hx | hx
      · exact g3 x hx
      · exact k3 x hx

/-- What a chain of plain parts with a validator returns. -/
theorem validated_conf {lower : Str → Str} {input : Str} (info : PatternInfo Ctx) (id : Nat) (c : Config) (breaker : Option (List MTree → Bool))
    {parts : PartObjs Ctx} (hf : Proper c.formatter) (hv : Proper c.validator) (hj : c.Judging input)
    (hr : ∀ p ∈ PatternObj.runParts lower parts, PlainPart p ∧ Answers p) :
    ∃ ts hits out, Scans { pattern := Pattern.init id c.opts, parts := PatternObj.runParts lower parts, breaker := breaker } input input 0 ts ∧
      ChainHits c input 0 ts hits ∧ (PatternObj.chain info (Pattern.init id c.opts) breaker parts).matches_ lower input = .ok out ∧
      Each (StandsFor input) hits (out.map MTree.root) ∧ ∀ x ∈ hits, x.start < x.stop := by
  obtain ⟨ts, out, raws, h0, h1, h2, pieces, h3, h4⟩ := validated_raw
    (c := { pattern := Pattern.init id c.opts, parts := PatternObj.runParts lower parts, breaker := breaker }) id c.opts rfl input
    (fun p hp => (hr p hp).1) (fun p hp => (hr p hp).2) ⟨hf, hv, rfl, rfl, by
      intro t hi
      rcases hi with hi | hi
      · rcases hi with hi | hi <;> cases hi
      · cases hi⟩
  have h4 : out = pieces := h4
  subst h4
  have hmade := scans_made (fun p hp => (hr p hp).1.tidy.regular) h2 (Int.le_refl 0)
  obtain ⟨hord, _⟩ := rawMatches_order (fun p h => (hr p h).1.tidy) h0
  obtain ⟨hits, k1, k2, k3⟩ := emits_hits hj (fun t ht => by
    obtain ⟨a1, a2, a3, a4⟩ := hmade t ht
    refine ⟨a3, a1, a2, fun k hk => ?_, a4⟩
    have hn := nested_iff.1 (hord t ht).1
    have hk' := hn.2 k hk
    have := hk'.1.1
    have := (nested_iff.1 hk'.2).1.nonempty
    omega) h3
  refine ⟨ts, hits, out, h2, k1, ?_, k2, k3⟩
  show (match Chain.run _ input with | .error e => Except.error e | .ok (ms, _) => .ok ms) = _
  rw [h1]

/-- What one pattern returns. -/
theorem conf_matches {lower : Str → Str} {input : Str} {ctx : Ctx} {p : PatternObj Ctx} (h : SearchPattern lower input ctx p)
    (hd : p.info.disabled ctx = false) :
    ∃ xs out, HitsOf lower input ctx p xs ∧ p.matches_ lower input = .ok out ∧ Each (StandsFor input) xs (out.map MTree.root) ∧ ∀ x ∈ xs, x.start < x.stop := by
  cases h with
  | disabled h => rw [h] at hd; cases hd
  | @string info id c so words hpf hpv hj hw hl =>
    obtain ⟨raws, out, h1, h2, parts, h3, h4⟩ := C106_strings id c.opts info lower so words input
      hpf hpv keepsOrder_none keepsOrder_none hw
    obtain ⟨hits, k1, k2⟩ := word_hits hw hl h2
    have h4 : out = parts.flatten := h4
    subst h4
    exact ⟨_, _, .string id c so hd k1, h1, returns_conf hj k2 h3, fun x hx => hits_some k2 x (List.mem_filter.1 hx).1⟩
  | @regex info id c rc regexes hpf hpv hj hr =>
    obtain ⟨raws, out, h1, h2, parts, h3, h4⟩ := C106_regexes id c.opts info lower rc regexes input
      hpf hpv keepsOrder_none keepsOrder_none rfl (fun re hre o ho => by
        obtain ⟨_, b, _, c⟩ := hr re hre o ho; exact ⟨b, c⟩)
    have h4 : out = parts.flatten := h4
    subst h4
    have k2 := regex_hits (fun re hre o ho => by obtain ⟨a, b, c, _⟩ := hr re hre o ho; exact ⟨a, b, c⟩) h2
    refine ⟨_, _, .regex id c rc hd, h1, ?_⟩
    rw [List.flatMap_def]
    exact ⟨returns_conf hj k2 h3, fun x hx => hits_some k2 x (List.mem_filter.1 hx).1⟩
  | @functional info id c functions hpf hpv hj hr =>
    classical
    let results : (Str → FRet) → List (FRet × (Int × Int) × MatchArgs) := fun f =>
      if h : ∃ rs, ReturnsResults c.name.isSome (f input) rs ∧ SoundResults input rs then Classical.choose h else []
    have hres : ∀ f ∈ functions, ReturnsResults c.name.isSome (f input) (results f) ∧ SoundResults input (results f) := by
      intro f hf
      have h := hr f hf
      show ReturnsResults c.name.isSome (f input) (dite _ _ _) ∧ SoundResults input (dite _ _ _)
      rw [dif_pos h]
      exact Classical.choose_spec h
    obtain ⟨raws, out, h1, h2, parts, h3, h4⟩ := C106_functions id c.opts info lower functions input
      hpf hpv keepsOrder_none keepsOrder_none results (fun f hf => (hres f hf).1)
    have h4 : out = parts.flatten := h4
    subst h4
    obtain ⟨k1, k2⟩ := function_hits hres h2
    exact ⟨_, _, .functional id c hd k1, h1, returns_conf hj k2 h3, fun x hx => hits_some k2 x (List.mem_filter.1 hx).1⟩
  | @chain info id c breaker parts hf hv hr =>
    obtain ⟨ts, out, h1, h2, h3, h4⟩ := chain_conf (input := input) info id c breaker hf hv hr
    exact ⟨_, out, .chain id c breaker hd hv h1, h2, h3, h4⟩
  | @validated info id c breaker parts hf hv hj hr =>
    obtain ⟨ts, hits, out, h1, h2, h3, h4, h5⟩ := validated_conf (input := input) info id c breaker hf hv hj hr
    exact ⟨hits, out, .validated id c breaker hd h1 h2, h3, h4, h5⟩

theorem conf_collects {lower : Str → Str} {ctx : Ctx} {input : Str} : ∀ {ps : List (PatternObj Ctx)}, (∀ p ∈ ps, SearchPattern lower input ctx p) →
    ∃ xss ts, Each (HitsOf lower input ctx) ps xss ∧ Collects lower ctx input ps ts ∧ Each (StandsFor input) xss.flatten (ts.map MTree.root) ∧
      ∀ x ∈ xss.flatten, x.start < x.stop
  | [], _ => ⟨[], [], .nil, .nil, .nil, by simp⟩
  | p :: ps, h => by
    obtain ⟨xss, ts, g1, g2, g3, g4⟩ := conf_collects (ps := ps) (fun p hp => h p (List.mem_cons_of_mem _ hp))
    cases hd : p.info.disabled ctx with
    | true => exact ⟨[] :: xss, ts, .cons (.disabled hd) g1, .disabled hd g2, g3, g4⟩
    | false =>
      obtain ⟨xs, out, k1, k2, k3, k4⟩ := conf_matches (h p (by simp)) hd
      refine ⟨xs :: xss, out ++ ts, .cons k1 g1, .enabled hd k2 g2, ?_, ?_⟩
      · rw [List.flatten_cons, List.map_append]
        exact each_append k3 g3
      · intro x hx
        rw [List.flatten_cons] at hx
        rcases List.mem_append.1 hx with hx | hx
        · exact k4 x hx
        · exact g4 x hx

theorem each_content' {R : Hit → Match → Prop} (hR : ∀ x m m', content m = content m' → R x m → R x m') : ∀ {a : List Hit} {b b' : List Match},
    Each R a b → b'.map content = b.map content → Each R a b'
  | _, _, [], .nil, _ => .nil
  | _, _, _ :: _, .nil, h => by cases h
  | _, _, [], .cons _ _, h => by cases h
  | _, _, _ :: _, .cons hx ht, h => by
    rw [List.map_cons, List.map_cons] at h
    obtain ⟨h1, h2⟩ := List.cons.inj h
    exact .cons (hR _ _ _ h1.symm hx) (each_content' hR ht h2)

theorem standsFor_content {input : Str} {x : Hit} {m m' : Match} (h : content m = content m') (hs : StandsFor input x m) : StandsFor input x m' := by
  have e : m' = { m with id := m'.id } := by
    cases m; cases m'
    simp only [content, Match.mk.injEq] at h
    obtain ⟨_, h1, h2, h3, h4, h5, h6, h7, h8, h9, h10, h11, h12, h13, h14, h15⟩ := h
    subst h1 h2 h3 h4 h5 h6 h7 h8 h9 h10 h11 h12 h13 h14 h15
    rfl
  rw [e]
  exact ⟨hs.span, hs.rank, hs.value, hs.name, hs.tags, hs.isPublic, hs.noMarker, hs.noParent, hs.noSolver, hs.input, hs.raw⟩

open Classical in
/-- What is found, given the hits of the patterns. -/
theorem hits_found {env : Env (List Match)} (henv : DefaultEnv env) {r : RebulkObj Ctx} (hr : DefaultRulesOnly r) (input : Str) (ctx : Ctx)
    (hd : r.disabled ctx = false) {ts : List MTree} {xs : List Hit} (h1 : Collects env.lower ctx input (r.effectivePatterns ctx) ts)
    (g2 : Each (StandsFor input) xs (ts.map MTree.root)) (g3 : ∀ x ∈ xs, x.start < x.stop) :
    ∃ f, r.matches_ env input ctx = .ok f ∧ Each (StandsFor input) (xs.filter (fun x => decide (Unbeaten xs x))) f.found.delegate ∧ f.markers.delegate = [] ∧
      LookupsRight f.found ∧ LookupsRight f.markers := by
  have hmark : ∀ m ∈ ts.map MTree.root, m.marker = false := by
    intro m hm
    obtain ⟨x, _, hx⟩ := each_mem_right g2 m hm
    exact hx.noMarker
  have e0 : rootsOf false ts = ts.map MTree.root := by
    unfold rootsOf
    rw [List.filter_eq_self]
    intro m hm
    rw [hmark m hm]; rfl
  have e1 : rootsOf true ts = [] := by
    unfold rootsOf
    rw [List.filter_eq_nil_iff]
    intro m hm
    rw [hmark m hm]; decide
  have es : ∀ {x : Hit} {m : Match}, StandsFor input x m → m.start = x.start ∧ m.stop = x.stop := fun h =>
    ⟨congrArg Prod.fst h.span, congrArg Prod.snd h.span⟩
  have hg : ∀ m ∈ rootsOf false ts, GoodRoot m := by
    intro m hm
    rw [e0] at hm
    obtain ⟨x, hx, hs⟩ := each_mem_right g2 m hm
    refine ⟨hs.isPublic, hs.noSolver, hs.noParent, ?_⟩
    rw [(es hs).1, (es hs).2]
    exact g3 x hx
  obtain ⟨f, h2, h3, h4, h5, h6⟩ := C74_ordinary henv hr input ctx hd h1
    ⟨fun m hm _ => (hg m hm).nonEmpty, fun m hm _ => (hg m hm).noSolver,
      fun m hm _ => by unfold Match.initLen Match.initiator; rw [(hg m hm).noParent]; rfl,
      fun a ha b hb _ => by rw [(hg a ha).isPublic, (hg b hb).isPublic]⟩
  refine ⟨f, h2, ?_, ?_, h5, h6⟩
  · rw [e0] at h3
    refine each_content' (R := StandsFor input) (fun x m m' h hs => standsFor_content h hs) (each_filter g2 ?_) h3
    intro x hx m hm hs
    obtain ⟨s1, s2⟩ := es hs
    have hlt := g3 x hx
    refine decide_eq_decide.2 ⟨?_, ?_⟩
    · intro hu
      refine ⟨hs.isPublic, ?_⟩
      rintro ⟨_, mc, hmc, _, ho, hlt'⟩
      obtain ⟨c, hc, hsc⟩ := each_mem_right g2 mc hmc
      obtain ⟨t1, t2⟩ := es hsc
      have := g3 c hc
      obtain ⟨h1, h2⟩ := (overlap_iff (by omega) (by omega)).1 ho
      exact hu ⟨c, hc, by omega, by omega, by omega⟩
    · rintro ⟨_, hl⟩ ⟨c, hc, h1, h2, h3⟩
      obtain ⟨mc, hmc, hsc⟩ := each_mem_left g2 c hc
      obtain ⟨t1, t2⟩ := es hsc
      have := g3 c hc
      exact hl ⟨hs.isPublic, mc, hmc, hsc.isPublic, (overlap_iff (by omega) (by omega)).2 ⟨by omega, by omega⟩, by omega⟩
  · rw [e1] at h4
    exact List.map_eq_nil_iff.1 h4

/-! ## The theorem -/

open Classical in
/-- **C116**: a rebulk that has only the default rules, whose patterns (and those of its children) are strings, regular expressions or functions with a name,
tags, a value, a formatter and a validator, or chains with all this (of plain parts, if there is a validator), finds the hits of these patterns that their validator accepts and that share no character with a longer one, in
the order of the patterns. -/
theorem C116_configured_search {env : Env (List Match)} (henv : DefaultEnv env) {r : RebulkObj Ctx} (hr : DefaultRulesOnly r) (input : Str) (ctx : Ctx)
    (hd : r.disabled ctx = false) (hp : ∀ p ∈ r.effectivePatterns ctx, SearchPattern env.lower input ctx p) :
    ∃ xss f, Each (HitsOf env.lower input ctx) (r.effectivePatterns ctx) xss ∧ r.matches_ env input ctx = .ok f ∧
      Each (StandsFor input) (xss.flatten.filter (fun x => decide (Unbeaten xss.flatten x))) f.found.delegate ∧ f.markers.delegate = [] ∧
      LookupsRight f.found ∧ LookupsRight f.markers := by
  obtain ⟨xss, ts, g1, h1, g2, g3⟩ := conf_collects hp
  obtain ⟨f, hf⟩ := hits_found henv hr input ctx hd h1 g2 g3
  exact ⟨xss, f, g1, hf⟩

/-- A validator that looks at the characters around the match, as `chars_surround` does. -/
def spacesAround (t : MTree) : Bool :=
  match t.root.inputString with
  | none => true
  | some input => match charsSurround " ".toList t.root input with | .ok b => b | .error _ => false

theorem chosen_one {α : Type} (a d : α) (name : Option String) (child : Bool) : chosen (.one a) d name child = a := by
  unfold chosen declared
  cases name with
  | none => rfl
  | some n => simp

theorem spacesAround_judging (c : Config) (input : Str) (h : c.validator = .one (some spacesAround)) : c.Judging input := by
  intro x v hv t t' h1 h2
  rw [h, chosen_one] at hv
  cases hv
  have e1 : t.root.start = t'.root.start := (congrArg Prod.fst h1.span).trans (congrArg Prod.fst h2.span).symm
  have e2 : t.root.stop = t'.root.stop := (congrArg Prod.snd h1.span).trans (congrArg Prod.snd h2.span).symm
  unfold spacesAround charsSurround charsBefore charsAfter
  rw [h1.input, h2.input, e1, e2]

/-- The hypotheses are met: the string `ab` with spaces around, and a function with a value in a child. -/
example : let own : List (PatternObj Unit) := [.string {} (Pattern.init 1 { name := some "a", validator := .one (some spacesAround) : Config }.opts) {} ["ab".toList]];
    let child : List (PatternObj Unit) := [.functional {} (Pattern.init 3 { value := .one (.int 7) : Config }.opts)
      [fun _ => .seq [.val (.int 0), .val (.int 1)]]];
    let r : RebulkObj Unit := exRebulk own child;
    (∀ p ∈ r.effectivePatterns (), SearchPattern exEnv.lower "xab ab".toList () p) ∧
    ∃ f, r.matches_ exEnv "xab ab".toList () = .ok f ∧ f.found.delegate.map Match.span = [(4, 6), (0, 1)] ∧
      f.found.delegate.map Match.value = [.str "ab".toList, .int 7] := by
  refine ⟨?_, _, rfl, by decide, by decide⟩
  intro p hp
  rcases List.mem_cons.1 hp with rfl | hp
  · exact .string 1 _ {} (by intro a h; cases h) (by intro a h; cases h; intro h; cases h) (spacesAround_judging _ _ rfl) (by intro w hw; rw [List.mem_singleton] at hw; subst hw; exact ⟨by decide, fun h => by cases h⟩)
      (fun h => by cases h)
  · have hp := List.mem_singleton.1 hp
    subst hp
    refine .functional 3 { value := .one (.int 7) } (by intro a h; cases h) (by intro a h; cases h)
      (fun x v h => by rw [show Config.validator { value := .one (.int 7) } = .absent from rfl, chosen_absent] at h; cases h; intros; rfl) ?_
    intro f hf
    rw [List.mem_singleton] at hf; subst hf
    refine ⟨[(.seq [.val (.int 0), .val (.int 1)], (0, 1), {})], ⟨?_, .inr (.inl ⟨_, rfl, rfl⟩)⟩, ?_⟩
    · intro x hx
      rw [List.mem_singleton] at hx; subst hx
      exact ⟨.span (.int 0) (.int 1), by decide⟩
    · intro x hx
      rw [List.mem_singleton] at hx; subst hx
      exact ⟨by decide, by decide, ⟨.inl rfl, .inl rfl⟩, .inl rfl⟩

/-- At most three characters. -/
def atMostThree (t : MTree) : Bool := decide (t.root.len ≤ 3)

/-- `chain(validator=atMostThree).string("a").string("b").repeater("+").close()`. -/
def exShortChain : PatternObj Unit :=
  .chain {} (Pattern.init 0 { validator := .one (some atMostThree) : Config }.opts) none
    (.cons (.string {} (Pattern.init 1 {}) {} ["a".toList]) 1 (some 1) false (.cons (.string {} (Pattern.init 2 {}) {} ["b".toList]) 1 none false .nil))

/-- The hypotheses are met by a chain with a validator, too: in `abbbb-ab` it finds `abb` and `ab`; of the two `bb` of the child the first one loses to `abb`. -/
example : let child : List (PatternObj Unit) := [.string {} (Pattern.init 3 { name := some "b" : Config }.opts) {} ["bb".toList]];
    let r : RebulkObj Unit := exRebulk [exShortChain] child;
    (∀ p ∈ r.effectivePatterns (), SearchPattern exEnv.lower "abbbb-ab".toList () p) ∧
    (match r.matches_ exEnv "abbbb-ab".toList () with | .ok f => f.found.delegate.map Match.span | .error _ => []) = [(0, 3), (6, 8), (3, 5)] := by
  refine ⟨?_, by decide +kernel⟩
  intro p hp
  rcases List.mem_cons.1 hp with rfl | hp
  · refine .validated 0 { validator := .one (some atMostThree) } none (by intro a h; cases h) (by intro a h; cases h; intro h; cases h) ?_ ?_
    · intro x v hv t t' h1 h2
      rw [chosen_one] at hv
      cases hv
      have e1 : t.root.start = t'.root.start := (congrArg Prod.fst h1.span).trans (congrArg Prod.fst h2.span).symm
      have e2 : t.root.stop = t'.root.stop := (congrArg Prod.snd h1.span).trans (congrArg Prod.snd h2.span).symm
      unfold atMostThree Match.len
      rw [e1, e2]
    · intro p hp
      simp only [PatternObj.runParts, List.mem_cons, List.not_mem_nil, or_false] at hp
      rcases hp with rfl | rfl
      · exact ⟨plain_string 1 {} rfl rfl rfl _ {} rfl _ (by simp) _ _ _,
          answers_string 1 {} rfl ⟨rfl, rfl, rfl⟩ (by intro a h; cases h) (by intro a h; cases h) _ _ _ (by simp) _ _ _⟩
      · exact ⟨plain_string 2 {} rfl rfl rfl _ {} rfl _ (by simp) _ _ _,
          answers_string 2 {} rfl ⟨rfl, rfl, rfl⟩ (by intro a h; cases h) (by intro a h; cases h) _ _ _ (by simp) _ _ _⟩
  · have hp := List.mem_singleton.1 hp
    subst hp
    exact .string 3 _ {} (by intro a h; cases h) (by intro a h; cases h)
      (fun x v h => by rw [show Config.validator { name := some "b" } = .absent from rfl, chosen_absent] at h; cases h; intros; rfl)
      (by intro w hw; rw [List.mem_singleton] at hw; subst hw; exact ⟨by decide, fun h => by cases h⟩) (fun h => by cases h)

end Rebulk
