import Verif.Spec.WordChain
import Verif.Props.ChainScan
import Verif.Props.ChainFound
import Verif.Props.PlainSearch
/-!
# C117: chains of strings
-/
namespace Rebulk
open Spec

/-! ## One part -/

theorem emits_childless {o : PatternOpts} (hpre : o.preMatch = none) (hpost : o.postMatch = none) {idx : Nat} {t : MTree} {l : List MTree}
    (h : Emits o idx t l) (ht : t.children = []) : ∀ T ∈ l, T.children = [] := by
  have same : ∀ {u r : MTree}, After none u (some r) → r = u := by
    intro u r h
    cases h with
    | absent _ => rfl
    | unchanged _ h => cases h
    | replaced _ _ h => cases h
  cases h with
  | dropped _ => simp
  | emptied _ _ => simp
  | refused _ _ _ _ _ => simp
  | droppedAfter _ _ _ _ _ _ => simp
  | emptiedAfter _ _ _ _ _ _ _ => simp
  | @emitted t1 V T r h _ h1 h2 _ h3 _ =>
    rw [hpre] at h
    rw [hpost] at h3
    have := same h
    subst this
    have := same h3
    subst this
    have hlen : r.children = [] := by
      apply List.eq_nil_of_length_eq_zero
      rw [h2.count, h1.count, ht]; rfl
    intro x hx
    unfold emission at hx
    rw [hlen] at hx
    rcases List.mem_append.1 hx with hx | hx
    · split at hx
      · rw [List.mem_singleton] at hx; rw [hx]; exact hlen
      · cases hx
    · split at hx <;> cases hx

theorem emitsAll_childless {o : PatternOpts} (hpre : o.preMatch = none) (hpost : o.postMatch = none) : ∀ {i : Nat} {ts l : List MTree},
    EmitsAll o i ts l → (∀ t ∈ ts, t.children = []) → ∀ T ∈ l, T.children = []
  | _, _, _, .nil, _ => by simp
  | _, _, _, .cons h1 h2, ht => by
    intro T hT
    rcases List.mem_append.1 hT with hT | hT
    · exact emits_childless hpre hpost h1 (ht _ (by simp)) T hT
    · exact emitsAll_childless hpre hpost h2 (fun t h => ht t (List.mem_cons_of_mem _ h)) T hT

/-- The part `.string(w.text, name=w.name, tags=w.tags)`. -/
def wordPart (id : Nat) (w : Word) : Part := stringPart id [w.text] 1 (some 1) w.opts

/-- `chain().string(…).string(…)…`, the parts having the identities 1, 2, … -/
def wordChain (ws : List Word) : Chain := { pattern := Pattern.init 0 {}, parts := ws.mapIdx (fun i w => wordPart (i + 1) w) }

theorem wordPart_regular (id : Nat) (w : Word) (hw : w.text ≠ []) : RegularPart (wordPart id w) :=
  (regular_string id w.opts rfl rfl rfl _ {} rfl w.text hw 1 (some 1) false).1

theorem wordPart_answers (id : Nat) (w : Word) (hw : w.text ≠ []) : Answers (wordPart id w) :=
  answers_string _ w.opts rfl ⟨rfl, rfl, rfl⟩ proper_absent proper_absent _ _ _
    (by intro x hx; rw [List.mem_singleton] at hx; subst hx; exact ⟨hw, by intro h; cases h⟩) _ _ _

/-- What the search of a part made of one string gives. -/
theorem word_search (id : Nat) (wd : Word) (hw : wd.text ≠ []) (s : Str) : ∃ em raws ps, (wordPart id wd).search s = .ok (em, raws) ∧
    Occurrences s wd.text none none ps ∧ raws.map (fun t => t.root.span) = ps.map (fun (p : Nat) => ((p : Int), (p : Int) + wd.text.length)) ∧
    em.map (fun t => (t.root.span, t.root.matchIndex)) = ps.mapIdx (fun i (p : Nat) => (((p : Int), (p : Int) + wd.text.length), i)) ∧
    (∀ e ∈ em, e.root.ancestors = [] ∧ e.root.name = wd.name ∧ e.root.tags = wd.tags) ∧ ∀ e ∈ em, e.children = [] := by
  obtain ⟨w, name, tags⟩ := wd
  have hw : w ≠ [] := hw
  obtain ⟨L, out, h1, h2, parts, h3, h4⟩ := C106_strings (Ctx := Unit) id { opts := { name := name, tags := tags } } {} (fun s => s) {} [w] s
    proper_absent proper_absent keepsOrder_none keepsOrder_none
    (by intro x hx; rw [List.mem_singleton] at hx; subst hx; exact ⟨hw, by simp⟩)
  have h4 : out = parts.flatten := h4
  subst h4
  obtain ⟨finds, k1, k2⟩ := word_raws (name := name) (tags := tags) (fun x hx => by rw [List.mem_singleton] at hx; subst hx; exact hw) h2
  have k3 := returns_plain (name := name) (tags := tags) k2 h3
  unfold PatternObj.matches_ PatternObj.run at h1
  split at h1
  · cases h1
  · rename_i ms raws hx
    cases h1
    have hx : (wordPart id ⟨w, name, tags⟩).search s = .ok (parts.flatten, raws) := hx
    obtain ⟨ps, o1, e1⟩ := stringPart_search id w hw 1 (some 1) (Word.opts ⟨w, name, tags⟩) false rfl _ hx
    cases k1 with
    | cons k1 kt =>
      cases kt
      obtain ⟨ps', o2, rfl⟩ := k1
      have : ps' = ps := occurrences_unique o2 o1
      subst this
      refine ⟨parts.flatten, raws, ps', hx, o1, e1, ?_, ?_, ?_⟩
      · simp only [List.flatten_cons, List.flatten_nil, List.append_nil] at k3
        have key : ∀ {fs : List Finding} {ms : List Match}, Each Stands fs ms → ms.map (fun m => (m.span, m.matchIndex)) = fs.map (fun x => ((x.start, x.stop), x.rank)) := by
          intro fs ms h
          induction h with
          | nil => rfl
          | cons h _ ih => rw [List.map_cons, List.map_cons, ih, h.span, h.rank]
        have := key k3
        rw [List.map_map] at this
        rw [show (fun t : MTree => (t.root.span, t.root.matchIndex)) = (fun m : Match => (m.span, m.matchIndex)) ∘ MTree.root from rfl, this]
        unfold wordFinds
        apply List.ext_getElem
        · simp
        · intro n a b; simp
      · intro e he
        obtain ⟨x, hm, hx⟩ := each_mem_right k3 e.root (List.mem_map.2 ⟨e, he, rfl⟩)
        have hx' : x.name = name ∧ x.tags = tags := by
          simp only [List.flatten_cons, List.flatten_nil, List.append_nil] at hm
          unfold wordFinds at hm
          obtain ⟨i, hi, rfl⟩ := List.mem_mapIdx.1 hm
          exact ⟨rfl, rfl⟩
        exact ⟨hx.noParent, hx.name.trans hx'.1, hx.tags.trans hx'.2⟩
      · intro e he
        obtain ⟨l, hl, he⟩ := List.mem_flatten.1 he
        obtain ⟨ts, hts, hem⟩ := each_mem_right h3 l hl
        refine emitsAll_childless rfl rfl hem ?_ e he
        obtain ⟨_, _, _, _, hr⟩ := each_mem_right h2 ts hts
        intro t ht
        obtain ⟨_, _, _, h⟩ := each_mem_right hr t ht
        exact h

theorem topRaw_plain {m : Match} (h : m.ancestors = []) (hr : m.rawStart = none ∧ m.rawStop = none) : topRaw m = (m.start, m.stop) := by
  unfold topRaw climbed
  rw [h, hr.1, hr.2]
  rfl

theorem slice_nil {s : Str} {i : Nat} (h : i ≤ s.length) : pySlice s (some 0) (some (i : Int)) = [] ↔ i = 0 := by
  unfold pySlice clampIdx
  have c : ¬ ((i : Int) < 0) := by omega
  simp only [c, if_false]
  constructor
  · intro h'
    have := congrArg List.length h'
    simp at this
    rcases this with h1 | h1
    · exact h1
    · rw [h1] at h; simpa using h
  · rintro rfl
    simp

/-- What is kept of the list of all occurrences when at most one may be. -/
theorem kept_once {text : Str} {first : Bool} {ms kept : List MTree} {ps : List Nat} {n : Nat}
    (hk : KeptOf text first (some 1) ms kept) (hsp : ms.map (fun t => t.root.span) = ps.map (fun (p : Nat) => ((p : Int), (p : Int) + n)))
    (hidx : ∀ (i : Nat) r, ms[i]? = some r → r.root.matchIndex = i) (htop : ∀ r ∈ ms, topRaw r.root = (r.root.start, r.root.stop))
    (hin : ∀ p ∈ ps, p ≤ text.length) :
    (kept = [] ∧ (ps = [] ∨ (first = false ∧ ps.head? ≠ some 0))) ∨
    (∃ (e : MTree) (p : Nat), kept = [e] ∧ e ∈ ms ∧ e.root.matchIndex = 0 ∧ e.root.span = ((p : Int), (p : Int) + n) ∧ ps.head? = some p ∧ (first = false → p = 0)) := by
  obtain ⟨k, hk, rfl⟩ := hk
  cases ms with
  | nil =>
    cases ps with
    | nil => exact .inl ⟨by simp, .inl rfl⟩
    | cons _ _ => simp at hsp
  | cons e ms =>
    cases ps with
    | nil => simp at hsp
    | cons p ps =>
      rw [List.map_cons, List.map_cons] at hsp
      obtain ⟨hsp, _⟩ := List.cons.inj hsp
      have hst := hk.starts (by simp)
      have e0 : e.root.start = p := congrArg Prod.fst hsp
      rw [List.getElem_cons_zero, htop e (by simp), e0, slice_nil (hin p (by simp))] at hst
      have hrest : (ms.take (k - 1)).filter (fun t => (some (1 : Int)).all (fun e => decide ((t.root.matchIndex : Int) < e))) = [] := by
        rw [List.filter_eq_nil_iff]
        intro t ht
        obtain ⟨i, hi⟩ := List.getElem?_of_mem (List.mem_of_mem_take ht)
        have := hidx (i + 1) t (by simpa using hi)
        simp [this]
        omega
      by_cases hpos : 0 < k
      · right
        refine ⟨e, p, ?_, by simp, hidx 0 e rfl, hsp, rfl, ?_⟩
        · obtain ⟨k', rfl⟩ : ∃ k', k = k' + 1 := ⟨k - 1, by omega⟩
          rw [List.take_succ_cons, List.filter_cons, if_pos (by have := hidx 0 e rfl; simp [this])]
          rw [show k' = (k' + 1) - 1 by omega, hrest]
        · intro hf
          rcases hst.1 hpos with h | h
          · rw [hf] at h; cases h
          · exact h
      · left
        have : k = 0 := by omega
        subst this
        refine ⟨by simp, .inr ?_⟩
        have hn := mt hst.2 hpos
        refine ⟨?_, ?_⟩
        · cases first with
          | false => rfl
          | true => exact absurd (.inl rfl) hn
        · intro h
          cases h
          exact hn (.inr rfl)

/-- The occurrence a part made of one string takes: the first one, or the one at the beginning of the text. -/
def Taken (first : Bool) (text w : Str) (i : Nat) : Prop := FirstAt text w i ∧ (first = false → i = 0)

theorem head_first {text w : Str} {ps : List Nat} {p : Nat} (h : Occurrences text w none none ps) (hp : ps.head? = some p) : FirstAt text w p := by
  cases ps with
  | nil => cases hp
  | cons x xs =>
    simp only [List.head?_cons, Option.some.injEq] at hp
    subst hp
    refine ⟨((h.exact x).1 (by simp)).1, ?_⟩
    intro j hj ho
    have := (List.pairwise_cons.1 h.ordered).1
    have : j ∈ x :: xs := (h.exact j).2 ⟨ho, fun q hq hlt => by
      rcases List.mem_cons.1 hq with rfl | hq
      · omega
      · have := this q hq; omega⟩
    rcases List.mem_cons.1 this with rfl | hm
    · omega
    · have := (List.pairwise_cons.1 h.ordered).1 j hm
      omega

theorem first_head {text w : Str} {ps : List Nat} {p : Nat} (h : Occurrences text w none none ps) (hp : FirstAt text w p) : ps.head? = some p := by
  have hm : p ∈ ps := by
    refine (h.exact p).2 ⟨hp.1, fun q hq hlt => ?_⟩
    exact hp.2 q hlt.1 ((h.exact q).1 hq).1
  cases ps with
  | nil => cases hm
  | cons x xs =>
    have := head_first h rfl
    rcases Nat.lt_trichotomy x p with h1 | h1 | h1
    · exact absurd this.1 (hp.2 x h1)
    · rw [h1]; rfl
    · exact absurd hp.1 (this.2 p h1)

theorem taken_unique {first : Bool} {text w : Str} {i j : Nat} (h : Taken first text w i) (h' : Taken first text w j) : i = j := by
  rcases Nat.lt_trichotomy i j with h1 | h1 | h1
  · exact absurd h.1.1 (h'.1.2 i h1)
  · exact h1
  · exact absurd h'.1.1 (h.1.2 j h1)

/-- The string occurs at all iff it has a first occurrence. -/
theorem exists_first {text w : Str} (h : ∃ i, OccursIn text w none none i) : ∃ i, FirstAt text w i := by
  obtain ⟨i, hi⟩ := h
  induction i using Nat.strongRecOn with
  | ind i ih =>
    by_cases hx : ∃ j < i, OccursIn text w none none j
    · obtain ⟨j, hj, ho⟩ := hx
      exact ih j hj ho
    · exact ⟨i, hi, fun j hj ho => hx ⟨j, hj, ho⟩⟩

/-- What a part made of one string keeps. -/
theorem word_keeps {id : Nat} {w : Word} (hw : w.text ≠ []) {first : Bool} {text : Str} {kept raws : List MTree} (h : Keeps (wordPart id w) first text kept raws) :
    ∃ i e r, Taken first text w.text i ∧ kept = [e] ∧ raws = [r] ∧ e.root.matchIndex = 0 ∧ e.root.span = ((i : Int), (i : Int) + w.text.length) ∧
      r.root.span = ((i : Int), (i : Int) + w.text.length) ∧ e.children = [] ∧ e.root.name = w.name ∧ e.root.tags = w.tags := by
  have hreg := wordPart_regular id w hw
  obtain ⟨em, rs, hs, h1, h2, h3⟩ := h
  obtain ⟨em', rs', ps, g1, g2, g3, g4, g5, g6⟩ := word_search id w hw text
  rw [hs] at g1
  cases g1
  have hin : ∀ p ∈ ps, p ≤ text.length := fun p hp => by have := ((g2.exact p).1 hp).1.inside; omega
  have g4s : em.map (fun t => t.root.span) = ps.map (fun (p : Nat) => ((p : Int), (p : Int) + w.text.length)) := by
    have := congrArg (List.map Prod.fst) g4
    rw [List.map_map] at this
    rw [show (fun t : MTree => t.root.span) = Prod.fst ∘ (fun t : MTree => (t.root.span, t.root.matchIndex)) from rfl, this]
    apply List.ext_getElem
    · simp
    · intro n a b; simp
  have hidx : ∀ (i : Nat) r, em[i]? = some r → r.root.matchIndex = i := by
    intro i r hr
    have := congrArg (fun l => (l[i]?).map Prod.snd) g4
    simp only [List.getElem?_map, hr, Option.map_some, List.getElem?_mapIdx] at this
    cases hp : ps[i]? with
    | none => rw [hp] at this; cases this
    | some p => rw [hp] at this; simpa using this
  have hem := fun e he => (hreg.emitted _ _ _ hs e he).1
  have hra := hreg.raws _ _ _ hs
  rcases kept_once h2 g3 hra.index (fun r hr => topRaw_plain (hra.top r hr) (hra.inText r hr).raw) hin with ⟨rfl, _⟩ | ⟨r, p, rfl, _, _, r4, r5, r6⟩
  · rcases h3 with h3 | ⟨_, h3, _⟩
    · exact absurd h3 (show ¬ ((1 : Int) ≤ 0) by decide)
    · cases h3
  · rcases kept_once h1 g4s hidx (fun e he => topRaw_plain (g5 e he).1 (hem e he).raw) hin with ⟨rfl, hno⟩ | ⟨e, p', rfl, e2, e3, e4, e5, _⟩
    · exfalso
      rcases hno with rfl | ⟨hf, hne⟩
      · cases r5
      · rw [r5, r6 hf] at hne; exact hne rfl
    · rw [r5] at e5
      cases e5
      exact ⟨p, e, r, ⟨head_first g2 r5, r6⟩, rfl, rfl, e3, e4, r4, g6 e e2, (g5 e e2).2⟩

/-- When a part made of one string is missing. -/
theorem word_missing {id : Nat} {w : Word} (hw : w.text ≠ []) {first : Bool} {text : Str} (h : TooFew (wordPart id w) first text) :
    ∀ i, ¬ Taken first text w.text i := by
  have hreg := wordPart_regular id w hw
  obtain ⟨em, rs, raws, hs, h2, _, h3⟩ := h
  obtain ⟨em', rs', ps, g1, g2, g3, _, _, _⟩ := word_search id w hw text
  rw [hs] at g1
  cases g1
  have hin : ∀ p ∈ ps, p ≤ text.length := fun p hp => by have := ((g2.exact p).1 hp).1.inside; omega
  have hra := hreg.raws _ _ _ hs
  intro i hi
  rcases kept_once h2 g3 hra.index (fun r hr => topRaw_plain (hra.top r hr) (hra.inText r hr).raw) hin with ⟨_, hno⟩ | ⟨r, p, rfl, _, r3, _, _, _⟩
  · have hh := first_head g2 hi.1
    rcases hno with rfl | ⟨hf, hne⟩
    · cases hh
    · rw [hh, hi.2 hf] at hne; exact hne rfl
  · have := h3 r (by simp)
    rw [r3] at this
    exact absurd this (show ¬ (((0 : Nat) : Int) + 1 < (1 : Int)) by decide)

theorem taken_prefix {text w : Str} {i : Nat} : Taken false text w i ↔ i = 0 ∧ w <+: text := by
  constructor
  · rintro ⟨h1, h2⟩
    have := h2 rfl
    subst this
    refine ⟨rfl, ?_⟩
    have ht := occurs_take h1.1
    rw [List.drop_zero] at ht
    exact List.prefix_iff_eq_take.2 ht.symm
  · rintro ⟨rfl, t, rfl⟩
    refine ⟨⟨⟨(by simp), (by simp), (by simp), fun k hk => ?_⟩, fun j hj => absurd hj (by omega)⟩, fun _ => rfl⟩
    rw [Nat.zero_add, List.getElem?_append_left hk]

/-! ## Several parts -/

/-- The step took one occurrence, the piece `x` of the input. -/
structure OneStep (x : Piece) (s : Step) : Prop where
  visible : s.part.hidden = false
  took : ∃ e r, s.kept = [e] ∧ s.raws = [r] ∧ e.root.matchIndex = 0 ∧ e.root.start + s.pos = x.start ∧ e.root.stop + s.pos = x.stop ∧ e.children = [] ∧
    e.root.name = x.name ∧ e.root.tags = x.tags

theorem spell_cons (w : Word) (ws : List Word) : spell (w :: ws) = w.text ++ spell ws := by simp [spell]

theorem found_step {id : Nat} {w : Word} (hw : w.text ≠ []) {first : Bool} {text : Str} {kept raws : List MTree} {pos : Nat} {input : Str}
    (h : Keeps (wordPart id w) first text kept raws) : ∃ i, Taken first text w.text i ∧
      OneStep ⟨((pos + i : Nat) : Int), ((pos + i : Nat) : Int) + w.text.length, w.name, w.tags⟩ ⟨wordPart id w, text, pos, kept, raws⟩ ∧
      Step.nextPos ⟨wordPart id w, text, pos, kept, raws⟩ = ((pos + i + w.text.length : Nat) : Int) ∧
      Step.nextText input ⟨wordPart id w, text, pos, kept, raws⟩ = input.drop (pos + i + w.text.length) := by
  obtain ⟨i, e, r, h1, rfl, rfl, h2, h3, h4, h5, h6⟩ := word_keeps hw h
  have e1 : e.root.start = i := congrArg Prod.fst h3
  have e2 : e.root.stop = (i : Int) + w.text.length := congrArg Prod.snd h3
  have r2 : r.root.stop = (i : Int) + w.text.length := congrArg Prod.snd h4
  refine ⟨i, h1, ⟨rfl, e, r, rfl, rfl, h2, ?_, ?_, h5, h6⟩, ?_, ?_⟩
  · rw [e1]; push_cast; show (i : Int) + (pos : Int) = _; omega
  · rw [e2]; push_cast; show (i : Int) + w.text.length + (pos : Int) = _; omega
  · show (pos : Int) + r.root.stop = _
    rw [r2]; push_cast; omega
  · show input.drop ((pos : Int) + r.root.stop).toNat = _
    rw [r2]; congr 1; omega

theorem tried_words {input : Str} : ∀ {ws : List Word} {parts : List Part} {pos : Nat} {steps : List Step} {whole : Bool} {text' : Str} {pos' : Int},
    (∀ w ∈ ws, w.text ≠ []) → Each (fun w p => ∃ id, p = wordPart id w) ws parts →
    Tried input false (input.drop pos) pos parts steps whole text' pos' →
    Each OneStep (layout pos (wordsFound ws (input.drop pos))) steps ∧ (whole = true ↔ wordsFound ws (input.drop pos) = ws) ∧
      pos' = ((pos + (spell (wordsFound ws (input.drop pos))).length : Nat) : Int) ∧
      text' = input.drop (pos + (spell (wordsFound ws (input.drop pos))).length)
  | [], _, pos, _, _, _, _, _, .nil, .all _ _ _ => by
    refine ⟨.nil, by simp [wordsFound, spell], by simp [wordsFound, spell], by simp [wordsFound, spell]⟩
  | w :: ws, _, pos, _, _, _, _, hw, .cons ⟨id, rfl⟩ _, .missing _ _ hm => by
    have hn : ¬ w.text.isPrefixOf (input.drop pos) = true := by
      intro h
      exact word_missing (hw w (by simp)) hm 0 (taken_prefix.2 ⟨rfl, List.isPrefixOf_iff_prefix.1 h⟩)
    have e : wordsFound (w :: ws) (input.drop pos) = [] := by unfold wordsFound; rw [if_neg hn]
    rw [e]
    exact ⟨.nil, by simp, by simp [spell], by simp [spell]⟩
  | w :: ws, _, pos, _, _, _, _, hw, .cons ⟨id, rfl⟩ hps, .found hk ht => by
    obtain ⟨i, h1, h2, h3, h4⟩ := found_step (pos := pos) (input := input) (hw w (by simp)) hk
    obtain ⟨rfl, hpre⟩ := taken_prefix.1 h1
    rw [h3, h4] at ht
    rw [Nat.add_zero] at ht h2
    obtain ⟨g1, g2, g3, g4⟩ := tried_words (fun w h => hw w (List.mem_cons_of_mem _ h)) hps ht
    have e : wordsFound (w :: ws) (input.drop pos) = w :: wordsFound ws (input.drop (pos + w.text.length)) := by
      rw [wordsFound, if_pos (List.isPrefixOf_iff_prefix.2 hpre), List.drop_drop]
    rw [e]
    refine ⟨.cons h2 g1, ?_, ?_, ?_⟩
    · rw [g2]; simp
    · rw [g3, spell_cons, List.length_append]; congr 1; omega
    · rw [g4, spell_cons, List.length_append]; congr 1; omega

theorem words_whole : ∀ {ws : List Word} {text : Str}, wordsFound ws text = ws ↔ spell ws <+: text
  | [], text => by simp [wordsFound, spell]
  | w :: ws, text => by
    rw [wordsFound, spell_cons]
    by_cases h : w.text <+: text
    · rw [if_pos (List.isPrefixOf_iff_prefix.2 h)]
      obtain ⟨t, rfl⟩ := h
      rw [List.drop_left, List.cons_inj_right, words_whole, List.prefix_append_right_inj]
    · rw [if_neg (fun h' => h (List.isPrefixOf_iff_prefix.1 h'))]
      constructor
      · intro h'; cases h'
      · intro h'; exact absurd ((List.prefix_append _ _).trans h') h

/-- The matches gathered along such steps. -/
theorem gathers_words {input : Str} {xs : List Piece} {steps : List Step} {cur : List MTree} (hs : Each OneStep xs steps)
    (h : Gathers none input steps cur) : Each (fun x (t : MTree) => PieceOf x t.root) xs cur ∧ ∀ x ∈ cur, x.children = [] := by
  obtain ⟨moved, h1, h2, rfl⟩ := h
  have collect_flat : ∀ (gs : List (List MTree)) (cur : List MTree), collect none cur gs = cur ++ gs.flatten := by
    intro gs
    induction gs with
    | nil => intro cur; simp [collect]
    | cons g gs ih => intro cur; simp only [collect, ih]; simp
  rw [collect_flat]
  simp only [List.nil_append]
  induction hs generalizing moved with
  | nil => exact ⟨by simp; exact .nil, by simp⟩
  | @cons ab s spans steps hab _ ih =>
    cases moved with
    | nil => cases h1
    | cons l moved =>
      obtain ⟨g1, g2⟩ := ih moved (by simpa using h1) (fun i s l hs hl => h2 (i + 1) s l (by simpa using hs) (by simpa using hl))
      have hm := h2 0 s l rfl rfl
      obtain ⟨hv, e, r, k1, k2, k3, k4, k5, k6, k7, k8⟩ := hab
      rw [k1] at hm
      cases l with
      | nil => have := hm.count; simp at this
      | cons k l' =>
        cases l' with
        | cons _ _ => have := hm.count; simp at this
        | nil =>
          have mv := hm.root 0 e k rfl rfl
          have hc := hm.childCount 0 e k rfl rfl
          rw [k6] at hc
          have hgr : s.groups [k] = [[k]] := by
            unfold Step.groups repetitions
            rw [hv, k2]
            simp [List.range_succ, mv.index, k3]
          simp only [List.zip_cons_cons, List.flatMap_cons, List.flatten_append, hgr, List.flatten_cons, List.flatten_nil, List.append_nil,
            List.cons_append, List.nil_append]
          refine ⟨.cons ⟨?_, mv.name.trans k7, mv.tags.trans k8⟩ g1, ?_⟩
          · rw [mv.span, k4, k5]
          · intro x hx
            rcases List.mem_cons.1 hx with rfl | hx
            · exact List.eq_nil_of_length_eq_zero hc
            · exact g2 x hx

theorem layout_bounds : ∀ {ws : List Word} {p : Nat} {x : Piece}, x ∈ layout p ws → (p : Int) ≤ x.start ∧ x.stop ≤ ((p + (spell ws).length : Nat) : Int)
  | [], _, _, h => by cases h
  | w :: ws, p, x, h => by
    rcases List.mem_cons.1 h with rfl | h
    · refine ⟨Int.le_refl _, ?_⟩
      rw [spell_cons, List.length_append]; push_cast; omega
    · obtain ⟨h1, h2⟩ := layout_bounds h
      rw [spell_cons, List.length_append]
      push_cast at h1 h2 ⊢
      constructor <;> omega

theorem layout_last : ∀ {ws : List Word} {p : Nat} {w : Word}, ∃ x ∈ layout p (w :: ws), x.stop = ((p + (spell (w :: ws)).length : Nat) : Int)
  | [], p, w => ⟨_, List.mem_cons_self, by simp [spell]⟩
  | v :: ws, p, w => by
    obtain ⟨x, h1, h2⟩ := layout_last (ws := ws) (p := p + w.text.length) (w := v)
    refine ⟨x, List.mem_cons_of_mem _ h1, ?_⟩
    rw [h2, spell_cons w, List.length_append]; congr 1; omega

/-- No two pieces are at the same place. -/
theorem layout_place : ∀ {ws : List Word} {p : Nat} {x y : Piece}, (∀ w ∈ ws, w.text ≠ []) → x ∈ layout p ws → y ∈ layout p ws → x.start = y.start → x = y
  | [], _, _, _, _, h, _, _ => by cases h
  | w :: ws, p, x, y, hw, hx, hy, he => by
    have hl : 0 < w.text.length := List.length_pos_iff.2 (hw w (by simp))
    rcases List.mem_cons.1 hx with rfl | hx
    · rcases List.mem_cons.1 hy with rfl | hy
      · rfl
      · have := (layout_bounds hy).1
        simp only at he
        push_cast at this
        omega
    · rcases List.mem_cons.1 hy with rfl | hy
      · have := (layout_bounds hx).1
        simp only at he
        push_cast at this
        omega
      · exact layout_place (fun w h => hw w (List.mem_cons_of_mem _ h)) hx hy he

/-- The match made of such matches. -/
theorem built_words {cur : List MTree} {t : MTree} {p : Nat} {w : Word} {ws : List Word} (hw : ∀ x ∈ w :: ws, x.text ≠ []) (h : BuiltFrom cur t)
    (hs : Each (fun x (t : MTree) => PieceOf x t.root) (layout p (w :: ws)) cur) (hc : ∀ x ∈ cur, x.children = []) :
    WordMatch (w :: ws) (p, p + (spell (w :: ws)).length) t := by
  have get : ∀ k ∈ cur, (p : Int) ≤ k.root.start ∧ k.root.stop ≤ ((p + (spell (w :: ws)).length : Nat) : Int) := by
    intro k hk
    obtain ⟨x, hx, hp⟩ := each_mem_right hs k hk
    have := layout_bounds hx
    have e1 : k.root.start = x.start := congrArg Prod.fst hp.span
    have e2 : k.root.stop = x.stop := congrArg Prod.snd hp.span
    omega
  have sound : ∀ k ∈ t.children, ∃ x ∈ layout p (w :: ws), PieceOf x k.root := by
    intro k hk
    obtain ⟨y, hy, h' | ⟨z, hz, _⟩⟩ := h.sound k hk
    · obtain ⟨x, hx, hp⟩ := each_mem_right hs y hy
      have a1 : ({ y.root with ancestors := [] } : Match).span = ({ k.root with ancestors := [] } : Match).span := congrArg Match.span h'
      have a2 : ({ y.root with ancestors := [] } : Match).name = ({ k.root with ancestors := [] } : Match).name := congrArg Match.name h'
      have a3 : ({ y.root with ancestors := [] } : Match).tags = ({ k.root with ancestors := [] } : Match).tags := congrArg Match.tags h'
      exact ⟨x, hx, ⟨Eq.trans (Eq.symm a1) hp.span, Eq.trans (Eq.symm a2) hp.name, Eq.trans (Eq.symm a3) hp.tags⟩⟩
    · rw [hc y hy] at hz; cases hz
  refine ⟨?_, sound, fun x hx => ?_⟩
  · show (t.root.start, t.root.stop) = _
    obtain ⟨x1, m1, e1⟩ := h.start.2
    obtain ⟨x2, m2, e2⟩ := h.stop.2
    obtain ⟨y1, n1, f1⟩ := each_mem_left hs ⟨(p : Int), (p : Int) + w.text.length, w.name, w.tags⟩ List.mem_cons_self
    obtain ⟨sp, hl, hsp⟩ := layout_last (ws := ws) (p := p) (w := w)
    obtain ⟨y2, n2, f2⟩ := each_mem_left hs sp hl
    have a1 := (get x1 m1).1
    have a2 := (get x2 m2).2
    have b1 := h.start.1 y1 n1
    have b2 := h.stop.1 y2 n2
    have f1' : y1.root.start = p := congrArg Prod.fst f1.span
    have f2' : y2.root.stop = sp.stop := congrArg Prod.snd f2.span
    congr 1 <;> omega
  · obtain ⟨y, hy, hp⟩ := each_mem_left hs x hx
    obtain ⟨⟨k, h1, h2, _⟩, _⟩ := h.complete y hy
    obtain ⟨x', hx', hp'⟩ := sound k h1
    have : x = x' := layout_place hw hx hx' (by
      have e1 : y.root.start = x.start := congrArg Prod.fst hp.span
      have e2 : k.root.start = x'.start := congrArg Prod.fst hp'.span
      have e3 : k.root.start = y.root.start := congrArg Prod.fst h2
      omega)
    subst this
    exact ⟨k, h1, hp'⟩

/-! ## The search -/

theorem scans_words {c : Chain} {input : Str} {w : Word} {rest : List Word} {p : Part} {parts : List Part} (hw : ∀ x ∈ w :: rest, x.text ≠ [])
    (hc : c.parts = p :: parts) (hb : c.breaker = none) (hp : Each (fun w p => ∃ id, p = wordPart id w) (w :: rest) (p :: parts)) {text : Str} {pos : Int}
    {ts : List MTree} (h : Scans c input text pos ts) : ∀ (n : Nat), pos = n → ∃ l, WordScan w rest input text n l ∧ Each (WordMatch (w :: rest)) l ts := by
  have first : ∀ {text : Str} {n : Nat} {steps : List Step} {whole : Bool} {text' : Str} {pos' : Int},
      Tried input true text (n : Int) c.parts steps whole text' pos' →
      (steps = [] ∧ whole = false ∧ ∀ i, ¬ OccursIn text w.text none none i) ∨ ∃ i, FirstAt text w.text i ∧
        Each OneStep (layout (n + i) (w :: wordsFound rest (input.drop (n + i + w.text.length)))) steps ∧
        (whole = true ↔ spell rest <+: input.drop (n + i + w.text.length)) ∧
        pos' = ((n + i + w.text.length + (spell (wordsFound rest (input.drop (n + i + w.text.length)))).length : Nat) : Int) ∧
        text' = input.drop (n + i + w.text.length + (spell (wordsFound rest (input.drop (n + i + w.text.length)))).length) := by
    intro text n steps whole text' pos' h
    rw [hc] at h
    cases hp with
    | cons h1 hps =>
      obtain ⟨id, rfl⟩ := h1
      cases h with
      | missing _ _ hm =>
        refine .inl ⟨rfl, rfl, fun i hi => ?_⟩
        obtain ⟨j, hj⟩ := exists_first ⟨i, hi⟩
        exact word_missing (hw w (by simp)) hm j ⟨hj, fun h => by cases h⟩
      | found hk ht =>
        obtain ⟨i, h1, h2, h3, h4⟩ := found_step (pos := n) (input := input) (hw w (by simp)) hk
        rw [h3, h4] at ht
        obtain ⟨g1, g2, g3, g4⟩ := tried_words (fun w h => hw w (List.mem_cons_of_mem _ h)) hps ht
        exact .inr ⟨i, h1.1, .cons h2 g1, g2.trans words_whole, g3, g4⟩
  induction h with
  | over text hle =>
    rintro n rfl
    exact ⟨[], .over (by omega), .nil⟩
  | nothing hlt ht hn =>
    rintro n rfl
    rcases first ht with ⟨_, _, h⟩ | ⟨i, _, hs, _⟩
    · exact ⟨[], .nothing h, .nil⟩
    · exfalso
      cases hs with
      | cons h _ =>
        obtain ⟨_, e, r, _, hr, _⟩ := h
        have := hn _ List.mem_cons_self
        rw [hr] at this
        cases this
  | matched hlt ht hs hg hne hbf _ _ ih =>
    rintro n rfl
    rcases first ht with ⟨_, h, _⟩ | ⟨i, hi, hst, hwh, hpos, htx⟩
    · cases h
    · have hfl := hwh.1 rfl
      have hall := words_whole.2 hfl
      rw [hall] at hst hpos htx
      rw [hb] at hg
      obtain ⟨g1, g2⟩ := gathers_words hst hg
      have hm := built_words hw hbf g1 g2
      have elen : n + i + w.text.length + (spell rest).length = n + i + (spell (w :: rest)).length := by
        rw [spell_cons, List.length_append]; omega
      rw [elen] at hpos htx
      subst htx
      obtain ⟨l, l1, l2⟩ := ih _ hpos
      exact ⟨_, .matched i (by omega) hi hfl l1, .cons hm l2⟩
  | unseen hlt ht hs hg _ _ =>
    rintro n rfl
    exfalso
    rcases first ht with ⟨h, _, _⟩ | ⟨i, hi, hst, _⟩
    · subst h; obtain ⟨s, hs, _⟩ := hs; cases hs
    · rw [hb] at hg
      have := (gathers_words hst hg).1
      cases this
  | @failed _ _ _ _ _ curr _ hlt ht hs hg _ ih =>
    rintro n rfl
    rcases first ht with ⟨h, _, _⟩ | ⟨i, hi, hst, hwh, hpos, htx⟩
    · subst h; obtain ⟨s, hs, _⟩ := hs; cases hs
    · rw [hb] at hg
      obtain ⟨g1, _⟩ := gathers_words hst hg
      have hnf : ¬ spell rest <+: input.drop (n + i + w.text.length) := fun h => by cases hwh.2 h
      subst htx
      have hres : ∀ q, resumeAt curr q = ((n + i + w.text.length : Nat) : Int) := by
        intro q
        cases curr with
        | nil => cases g1
        | cons x xs =>
          have hx : PieceOf ⟨((n + i : Nat) : Int), ((n + i : Nat) : Int) + w.text.length, w.name, w.tags⟩ x.root := by cases g1 with | cons h _ => exact h
          have this : x.root.stop = ((n + i : Nat) : Int) + w.text.length := congrArg Prod.snd hx.span
          show x.root.stop = _
          rw [this]; push_cast; rfl
      obtain ⟨l, l1, l2⟩ := ih _ (hres _)
      exact ⟨l, .failed i (by omega) hi hnf l1, l2⟩

theorem each_mapIdx_parts : ∀ (ws : List Word) (k : Nat), Each (fun w p => ∃ id, p = wordPart id w) ws (ws.mapIdx (fun i w => wordPart (i + k) w))
  | [], _ => .nil
  | w :: ws, k => by
    rw [List.mapIdx_cons]
    refine .cons ⟨_, rfl⟩ ?_
    have := each_mapIdx_parts ws (k + 1)
    have e : (fun i w => wordPart (i + 1 + k) w) = (fun i w => wordPart (i + (k + 1)) w) := by
      funext i w; rw [Nat.add_assoc, Nat.add_comm 1 k]
    rw [e]; exact this

/-- **C117**: `chain().string(w).string(…)…`, with any names and tags, on any input ends without exception and finds exactly the matches of `WordScan`: each spans
the concatenated strings, and its children are the strings one after the other, with their names and tags. -/
theorem C117_word_chain (w : Word) (rest : List Word) (hw : ∀ x ∈ w :: rest, x.text ≠ []) (input : Str) :
    ∃ ts l, (wordChain (w :: rest)).rawMatches input = .ok ts ∧ WordScan w rest input input 0 l ∧ Each (WordMatch (w :: rest)) l ts := by
  have hparts : ∀ p ∈ (wordChain (w :: rest)).parts, ∃ id, ∃ x ∈ w :: rest, p = wordPart id x := by
    intro p hp
    obtain ⟨i, hi, rfl⟩ := List.mem_mapIdx.1 hp
    exact ⟨_, _, List.getElem_mem hi, rfl⟩
  obtain ⟨ts, h1, h2⟩ := C112_answers (c := wordChain (w :: rest)) input (fun p hp => by
    obtain ⟨id, x, hx, rfl⟩ := hparts p hp; exact wordPart_regular _ _ (hw x hx)) (fun p hp => by
    obtain ⟨id, x, hx, rfl⟩ := hparts p hp; exact wordPart_answers _ _ (hw x hx))
  obtain ⟨l, l1, l2⟩ := scans_words (c := wordChain (w :: rest)) (parts := rest.mapIdx (fun i w => wordPart (i + 1 + 1) w)) hw
    (by unfold wordChain; rw [List.mapIdx_cons]) rfl (by
      have := each_mapIdx_parts (w :: rest) 1
      rw [List.mapIdx_cons] at this
      exact this) h2 0 rfl
  exact ⟨ts, l, h1, l1, l2⟩

theorem first_unique {text w : Str} {i j : Nat} (h : FirstAt text w i) (h' : FirstAt text w j) : i = j :=
  taken_unique (first := true) ⟨h, fun h => by cases h⟩ ⟨h', fun h => by cases h⟩

/-- **C117**: there is one answer only. -/
theorem C117_one_answer {w : Word} {rest : List Word} {input text : Str} {pos : Nat} {l : List (Nat × Nat)} (h : WordScan w rest input text pos l) :
    ∀ {l' : List (Nat × Nat)}, WordScan w rest input text pos l' → l = l' := by
  induction h with
  | over h =>
    intro l' h'
    cases h' with
    | over _ => rfl
    | nothing _ => rfl
    | matched i h1 => omega
    | failed i h1 => omega
  | nothing h =>
    intro l' h'
    cases h' with
    | over _ => rfl
    | nothing _ => rfl
    | matched i _ h1 => exact absurd h1.1 (h i)
    | failed i _ h1 => exact absurd h1.1 (h i)
  | matched i h1 h2 h3 _ ih =>
    intro l' h'
    cases h' with
    | over h => omega
    | nothing h => exact absurd h2.1 (h i)
    | matched j _ g2 _ g4 =>
      have := first_unique h2 g2
      subst this
      rw [ih g4]
    | failed j _ g2 g3 _ =>
      have := first_unique h2 g2
      subst this
      exact absurd h3 g3
  | failed i h1 h2 h3 _ ih =>
    intro l' h'
    cases h' with
    | over h => omega
    | nothing h => exact absurd h2.1 (h i)
    | matched j _ g2 g3 _ =>
      have := first_unique h2 g2
      subst this
      exact absurd g3 h3
    | failed j _ g2 _ g4 =>
      have := first_unique h2 g2
      subst this
      exact ih g4

/-- A string without name and tags. -/
def plainWord (s : Str) : Word := ⟨s, none, []⟩

theorem spell_plain (ws : List Str) : spell (ws.map plainWord) = ws.flatten := by
  unfold spell
  rw [List.map_map, show Word.text ∘ plainWord = id from rfl, List.map_id]

theorem wordChain_plain (ws : List Str) : wordChain (ws.map plainWord) = stringChain ws := by
  unfold wordChain stringChain
  congr 1
  apply List.ext_getElem
  · simp
  · intro n a b; simp [wordPart, plainWord, Word.opts]

/-- **C79**, any number of strings: when the first occurrence of the first string is followed by the others, the chain is found there, and this is its first match.
Missing: the occurrences behind a failed attempt (`C79_three_refuted`). -/
theorem C79_first_partial (w : Str) (rest : List Str) (hw : ∀ x ∈ w :: rest, x ≠ []) {input : Str} {i : Nat} (hi : FirstAt input w i)
    (hf : rest.flatten <+: input.drop (i + w.length)) {ts : List MTree} (h : (stringChain (w :: rest)).rawMatches input = .ok ts) :
    ∃ t ts', ts = t :: ts' ∧ WordMatch ((w :: rest).map plainWord) (i, i + (w :: rest).flatten.length) t := by
  obtain ⟨ts', l, h1, h2, h3⟩ := C117_word_chain (plainWord w) (rest.map plainWord) (by
    intro x hx
    rw [← List.map_cons] at hx
    obtain ⟨y, hy, rfl⟩ := List.mem_map.1 hx
    exact hw y hy) input
  rw [← List.map_cons] at h1 h3
  rw [wordChain_plain, h] at h1
  cases h1
  have hin := hi.1.inside
  have hpos : 0 < w.length := List.length_pos_iff.2 (hw w (by simp))
  cases h2 with
  | over h => omega
  | nothing h => exact absurd hi.1 (h i)
  | matched j _ g2 _ _ =>
    have := first_unique hi g2
    subst this
    cases h3 with
    | cons hm _ => rw [Nat.zero_add, ← List.map_cons, spell_plain] at hm; exact ⟨_, _, rfl, hm⟩
  | failed j _ g2 g3 _ =>
    have := first_unique hi g2
    subst this
    rw [Nat.zero_add, spell_plain] at g3
    exact absurd hf g3

/-- **C79** does not hold for three required strings either: `chain().string("ab").string("c").string("d")` finds nothing in `abcabcd`. The attempt at the beginning
fails at the third part; the search goes on in `abcd`, taken to start behind the first `ab`, so that the parts behind `ab` are looked for in the wrong place. -/
theorem C79_three_refuted : ¬ ∀ (ws : List Str) (input : Str) (pos : Nat) (ts : List MTree), (∀ w ∈ ws, w ≠ []) → ws ≠ [] →
    ws.flatten <+: input.drop pos → (stringChain ws).rawMatches input = .ok ts → ts ≠ [] := by
  intro h
  obtain ⟨ts, h1, h2⟩ := spansOf_some (show spansOf ((stringChain [['a', 'b'], ['c'], ['d']]).rawMatches
    ['a', 'b', 'c', 'a', 'b', 'c', 'd']) = some [] by decide +kernel)
  refine h [['a', 'b'], ['c'], ['d']] _ 3 ts (by simp) (by simp) ⟨[], rfl⟩ h1 ?_
  simpa using h2

/-- `chain().string("ab").string("c")` on `xabcabd`: found once, from 1 to 4. -/
example : ∃ ts t ts', (stringChain [['a', 'b'], ['c']]).rawMatches ['x', 'a', 'b', 'c', 'a', 'b', 'd'] = .ok ts ∧ ts = t :: ts' ∧
    t.root.span = (1, 4) := by
  obtain ⟨ts, l, h1, h2, h3⟩ := C117_word_chain (plainWord ['a', 'b']) [plainWord ['c']] (by simp [plainWord]) ['x', 'a', 'b', 'c', 'a', 'b', 'd']
  have h1 : (wordChain ([['a', 'b'], ['c']].map plainWord)).rawMatches _ = _ := h1
  rw [wordChain_plain] at h1
  obtain ⟨t, ts', e, ht⟩ := C79_first_partial ['a', 'b'] [['c']] (by simp) (input := ['x', 'a', 'b', 'c', 'a', 'b', 'd']) (i := 1)
    ⟨⟨by simp, by simp, by simp, by intro k hk; match k, hk with | 0, _ => rfl | 1, _ => rfl⟩, by
      intro j hj h
      have : j = 0 := by omega
      subst this
      have := h.chars 0 (by simp)
      simp at this⟩ ⟨['a', 'b', 'd'], rfl⟩ h1
  exact ⟨ts, t, ts', h1, e, ht.1⟩

end Rebulk
