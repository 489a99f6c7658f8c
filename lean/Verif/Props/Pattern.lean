import Verif.Lemmas.Pattern
/-!
# Properties of patterns: C42 – C49, C78

`Pattern.init id o` is the pattern built with the keyword arguments `o`.
-/
namespace Rebulk
open Spec

/-! ## C42 -/

theorem findAll_occurrences (lower : Str → Str) (s sub : Str) (start stop : Option Int) (ic : Bool)
    (hsub : (if ic then lower sub else sub) ≠ []) :
    ∃ l, findAll lower ((if ic then lower s else s).length + 2) s sub start stop ic = some l ∧
      Occurrences (if ic then lower s else s) (if ic then lower sub else sub) start stop l := by
  have hi : ∀ s : Str, findHi s stop ≤ s.length := by
    intro s
    unfold findHi
    cases stop with
    | none => simp
    | some i => simp only; unfold clampIdx; split <;> omega
  have main : ∀ s sub : Str, sub ≠ [] → ∃ l, findAllLoop (s.length + 2) s sub start stop = some l ∧ Occurrences s sub start stop l := by
    intro s sub hs
    obtain ⟨l, h1, h2, h3⟩ := findAllLoop_spec s sub hs stop (s.length + 2) start (by have := hi s; omega)
    exact ⟨l, h1, h2, fun p => by rw [h3 p, win_iff]⟩
  unfold findAll
  cases ic with
  | true => exact main _ _ hsub
  | false => exact main _ _ hsub

/-- **C42.** A non-empty string yields one match per greedy non-overlapping occurrence, in order, carrying the options of the
pattern. -/
theorem C42_string_occurrences (id : Nat) (o : PatternOpts) (lower : Str → Str) (so : StringOpts) (input sub : Str) (hsub : sub ≠ [])
    (hlow : so.ignoreCase = true → lower sub ≠ []) :
    ∃ l positions, (Pattern.init id o).matchString lower so input sub = .ok l ∧
      Occurrences (if so.ignoreCase then lower input else input) (if so.ignoreCase then lower sub else sub) so.start so.stop positions ∧
      l.length = positions.length ∧
      ∀ (i : Nat) t (pos : Nat), l[i]? = some t → positions[i]? = some pos →
        MadeBy id o.opts input pos (pos + sub.length) t.root ∧ t.children = [] := by
  obtain ⟨l, h1, h2⟩ := findAll_occurrences lower input sub so.start so.stop so.ignoreCase (by
    cases h : so.ignoreCase with
    | false => simpa using hsub
    | true => simpa using hlow h)
  have hf : (l.map (fun (i : Nat) => MTree.node ((Pattern.init id o).newMatch input i (i + sub.length)) [])).filter
      (fun t => decide (t.root.len ≠ 0)) = l.map (fun (i : Nat) => MTree.node ((Pattern.init id o).newMatch input i (i + sub.length)) []) := by
    rw [List.filter_eq_self]
    intro t ht
    obtain ⟨i, _, rfl⟩ := List.mem_map.1 ht
    have : 0 < sub.length := List.length_pos_iff.2 hsub
    exact decide_eq_true (show ((i : Int) + sub.length - i ≠ 0) by omega)
  refine ⟨l.map (fun (i : Nat) => MTree.node ((Pattern.init id o).newMatch input i (i + sub.length)) []), l, ?_, h2, by simp, ?_⟩
  · unfold Pattern.matchString
    rw [h1]
    simp only [hf]
  · intro i t pos ht hp
    rw [List.getElem?_map, hp] at ht
    cases ht
    exact ⟨⟨rfl, rfl, rfl, rfl, rfl, rfl, rfl, rfl, rfl, rfl, ⟨rfl, rfl⟩, rfl⟩, rfl⟩

example : (Pattern.init 0 {}).matchString (fun s => s) {} "abab".toList "ab".toList =
    .ok [.node ((Pattern.init 0 {}).newMatch "abab".toList 0 2) [], .node ((Pattern.init 0 {}).newMatch "abab".toList 2 4) []] := rfl

theorem raw_of_span {m : Match} {input : Str} {pos n : Nat} (hi : m.inputString = some input) (hs : m.span = ((pos : Int), (pos : Int) + n))
    (hr : m.rawStart = none ∧ m.rawStop = none) (hin : pos + n ≤ input.length) (hn : 0 < n) :
    m.raw = .str ((input.drop pos).take n) := by
  have h1 : m.start = pos := congrArg Prod.fst hs
  have h2 : m.stop = (pos : Int) + n := congrArg Prod.snd hs
  unfold Match.raw Match.rawStartOf Match.rawEndOf
  rw [hi, hr.1, hr.2]
  have he : input.isEmpty = false := by
    rw [← Bool.not_eq_true, List.isEmpty_iff]
    rintro rfl
    simp at hin; omega
  simp only [he, Option.getD_none, h1, h2, Bool.false_eq_true, if_false]
  unfold pySlice clampIdx
  have c1 : ¬ ((pos : Int) < 0) := by omega
  have c2 : ¬ ((pos : Int) + n < 0) := by omega
  simp only [c1, c2, if_false]
  have e1 : min (pos : Int).toNat input.length = pos := by omega
  have e2 : min ((pos : Int) + n).toNat input.length = pos + n := by omega
  rw [e1, e2, List.drop_take]
  congr 2
  omega

theorem occurs_take {s sub : Str} {a b : Option Int} {p : Nat} (h : OccursIn s sub a b p) : (s.drop p).take sub.length = sub := by
  apply List.ext_getElem?
  intro k
  by_cases hk : k < sub.length
  · rw [List.getElem?_take_of_lt hk, List.getElem?_drop]
    exact h.chars k hk
  · have hl : ((s.drop p).take sub.length).length ≤ k := by rw [List.length_take]; omega
    rw [List.getElem?_eq_none hl, List.getElem?_eq_none (by omega)]

/-- **C42**, the text: without `ignore_case` the matched text is the string. -/
theorem C42_string_text (id : Nat) (o : PatternOpts) (lower : Str → Str) (so : StringOpts) (input sub : Str) (hsub : sub ≠ [])
    (hic : so.ignoreCase = false) :
    ∃ l, (Pattern.init id o).matchString lower so input sub = .ok l ∧ ∀ t ∈ l, t.root.raw = .str sub := by
  obtain ⟨l, ps, h1, h2, h3, h4⟩ := C42_string_occurrences id o lower so input sub hsub (fun h => by rw [hic] at h; cases h)
  refine ⟨l, h1, ?_⟩
  intro t ht
  obtain ⟨i, hi⟩ := List.getElem?_of_mem ht
  have hil : i < ps.length := by
    rw [← h3]
    exact (List.getElem?_eq_some_iff.1 hi).1
  have hp : ps[i]? = some ps[i] := List.getElem?_eq_getElem hil
  obtain ⟨hm, _⟩ := h4 i t ps[i] hi hp
  have ho := ((h2.exact ps[i]).1 (List.getElem_mem hil)).1
  rw [hic] at ho
  simp only [Bool.false_eq_true, if_false] at ho
  have hraw := hm.noRaw
  rw [raw_of_span (n := sub.length) hm.input hm.span hraw ho.inside (List.length_pos_iff.2 hsub), occurs_take ho]

/-- **C42**, the text with `ignore_case`, when lower-casing works character by character: it is the string up to case. -/
theorem C42_string_text_ignore_case (id : Nat) (o : PatternOpts) (lc : Char → Char) (so : StringOpts) (input sub : Str) (hsub : sub ≠ [])
    (hic : so.ignoreCase = true) :
    ∃ l, (Pattern.init id o).matchString (fun s => s.map lc) so input sub = .ok l ∧
      ∀ t ∈ l, ∃ text, t.root.raw = .str text ∧ text.map lc = sub.map lc := by
  obtain ⟨l, ps, h1, h2, h3, h4⟩ := C42_string_occurrences id o (fun s => s.map lc) so input sub hsub (fun _ => by simpa using hsub)
  refine ⟨l, h1, ?_⟩
  intro t ht
  obtain ⟨i, hi⟩ := List.getElem?_of_mem ht
  have hil : i < ps.length := by
    rw [← h3]
    exact (List.getElem?_eq_some_iff.1 hi).1
  have hp : ps[i]? = some ps[i] := List.getElem?_eq_getElem hil
  obtain ⟨hm, _⟩ := h4 i t ps[i] hi hp
  have ho := ((h2.exact ps[i]).1 (List.getElem_mem hil)).1
  rw [hic] at ho
  simp only [if_true] at ho
  have hraw : t.root.rawStart = none ∧ t.root.rawStop = none := by
    unfold Pattern.matchString at h1
    split at h1
    · cases h1
    · cases h1
      obtain ⟨ht1, _⟩ := List.mem_filter.1 ht
      obtain ⟨_, _, rfl⟩ := List.mem_map.1 ht1
      exact ⟨rfl, rfl⟩
  have hin := ho.inside
  simp only [List.length_map] at hin
  refine ⟨_, raw_of_span (n := sub.length) hm.input hm.span hraw hin (List.length_pos_iff.2 hsub), ?_⟩
  have := occurs_take ho
  rw [List.length_map, ← List.map_drop, ← List.map_take] at this
  exact this

/-! ## C43, C78: regular expressions -/

theorem reChildren_spec (p : Pattern) (rc : Bool) (input : Str) (main : Match) :
    ∀ (ns : List (Option String)) (gs : List ReGroup), (∀ g ∈ gs, EngineGroup g) →
      (p.reChildren rc input main ns gs).map (fun c => (c.span, c.name)) = expectedChildren rc main.name ns gs
  | [], gs, _ => by unfold Pattern.reChildren; simp [expectedChildren]
  | n :: ns, [], _ => by unfold Pattern.reChildren; simp [expectedChildren]
  | n :: ns, g :: gs, h => by
    unfold Pattern.reChildren
    rw [List.map_append, reChildren_spec p rc input main ns gs (fun g' hg' => h g' (List.mem_cons_of_mem _ hg'))]
    have hg := h g (List.mem_cons_self ..)
    have hu : g.used rc = participations rc g := by
      unfold ReGroup.used participations
      cases rc with
      | true => rfl
      | false =>
        rcases hg.1 with h1 | h1
        · simp [h1]
        · have : g.span ≠ (-1, -1) := by intro h2; rw [h2] at h1; simp at h1
          have h2 : (g.span.1 > -1 && g.span.2 > -1) = true := by simp; omega
          simp [this, h2]
    rw [hu]
    show _ = List.flatMap _ ((n, g) :: ns.zip gs)
    rw [List.flatMap_cons]
    congr 1
    rw [List.filter_map, List.map_map]
    have hfil : (participations rc g).filter ((fun c => decide (c.len ≠ 0)) ∘ p.newChild input main (n.or main.name)) =
        (participations rc g).filter (fun sp => decide (sp.1 ≠ sp.2)) := by
      apply List.filter_congr
      intro sp _
      rw [Bool.eq_iff_iff]
      simp only [Function.comp, decide_eq_true_eq]
      show sp.2 - sp.1 ≠ 0 ↔ _
      omega
    rw [hfil]
    rfl

theorem reChildren_mem {p : Pattern} {rc : Bool} {input : Str} {main : Match} :
    ∀ {ns : List (Option String)} {gs : List ReGroup}, ∀ c ∈ p.reChildren rc input main ns gs,
      ∃ name sp, c = p.newChild input main name sp
  | [], gs, c, h => by unfold Pattern.reChildren at h; cases h
  | n :: ns, [], c, h => by unfold Pattern.reChildren at h; cases h
  | n :: ns, g :: gs, c, h => by
    unfold Pattern.reChildren at h
    rcases List.mem_append.1 h with h | h
    · obtain ⟨h1, _⟩ := List.mem_filter.1 h
      obtain ⟨sp, _, rfl⟩ := List.mem_map.1 h1
      exact ⟨_, sp, rfl⟩
    · exact reChildren_mem c h

theorem reMatch_spec (id : Nat) (o : PatternOpts) (hm : o.opts.marker = false) (rc : Bool) (names : List (Option String)) (input : Str)
    (obj : ReObj) (hg : ∀ g ∈ obj.groups, EngineGroup g) :
    ∃ t, (Pattern.init id o).reMatch rc names input obj = .ok (if obj.start ≠ obj.stop then [t] else []) ∧
      RegexMatch id o.opts rc names input obj t := by
  refine ⟨.node ((Pattern.init id o).newMatch input obj.start obj.stop)
    (((Pattern.init id o).reChildren rc input ((Pattern.init id o).newMatch input obj.start obj.stop) names obj.groups).map
      (fun c => .node c [])), ?_, ⟨⟨rfl, rfl, rfl, rfl, rfl, rfl, rfl, rfl, rfl, rfl, ⟨rfl, rfl⟩, rfl⟩, ?_, ?_, ?_⟩⟩
  · unfold Pattern.reMatch
    have hany : ((Pattern.init id o).reChildren rc input ((Pattern.init id o).newMatch input obj.start obj.stop) names obj.groups).any
        (fun c => c.marker) = false := by
      rw [List.any_eq_false]
      intro c hc
      obtain ⟨_, _, rfl⟩ := reChildren_mem c hc
      show ¬ (o.opts.marker = true)
      rw [hm]; simp
    simp only [hany, Bool.false_eq_true, if_false]
    have hl : ((Pattern.init id o).newMatch input obj.start obj.stop).len ≠ 0 ↔ obj.start ≠ obj.stop := by
      show obj.stop - obj.start ≠ 0 ↔ _
      omega
    by_cases h : obj.start ≠ obj.stop
    · rw [if_pos h, if_pos (hl.2 h)]
    · rw [if_neg h, if_neg (fun h2 => h (hl.1 h2))]
  · simp only [MTree.children, List.map_map]
    exact reChildren_spec (Pattern.init id o) rc input ((Pattern.init id o).newMatch input obj.start obj.stop) names obj.groups hg
  · intro c hc
    simp only [MTree.children, List.mem_map] at hc
    obtain ⟨c0, h0, rfl⟩ := hc
    obtain ⟨_, _, rfl⟩ := reChildren_mem c0 h0
    rfl
  · intro c hc
    simp only [MTree.children, List.mem_map] at hc
    obtain ⟨c0, h0, rfl⟩ := hc
    obtain ⟨_, _, rfl⟩ := reChildren_mem c0 h0
    exact ⟨rfl, rfl, rfl, rfl, hm, rfl, rfl, rfl, rfl, rfl⟩

/-- **C43.** For every result of the engine, a regular expression pattern that is not a marker yields exactly one match per
non-empty match object, in order, with the span of group 0; its children are exactly the non-empty spans of the participating groups,
in group order, each with the name of the group (else the one of the pattern) and with the main match as parent. -/
theorem C43_regex_children (id : Nat) (o : PatternOpts) (hm : o.opts.marker = false) (rc : Bool) (re : Regex) (input : Str)
    (hg : ∀ obj ∈ re.finditer input, ∀ g ∈ obj.groups, EngineGroup g) :
    ∃ l, (Pattern.init id o).matchRegex rc re input = .ok l ∧
      l.length = ((re.finditer input).filter (fun obj => decide (obj.start ≠ obj.stop))).length ∧
      ∀ (i : Nat) obj t, ((re.finditer input).filter (fun obj => decide (obj.start ≠ obj.stop)))[i]? = some obj → l[i]? = some t →
        RegexMatch id o.opts rc re.names input obj t := by
  unfold Pattern.matchRegex
  generalize re.finditer input = objs at hg
  induction objs with
  | nil => exact ⟨[], rfl, rfl, fun i obj t h => by cases h⟩
  | cons obj objs ih =>
    obtain ⟨l, h1, h2, h3⟩ := ih (fun x hx => hg x (List.mem_cons_of_mem _ hx))
    obtain ⟨t, ht, hs⟩ := reMatch_spec id o hm rc re.names input obj (hg obj (List.mem_cons_self ..))
    unfold Pattern.matchRegex.go
    rw [ht]
    simp only
    rw [h1]
    simp only
    by_cases h : obj.start ≠ obj.stop
    · simp only [h, ne_eq, not_false_eq_true, if_true, decide_true, List.filter_cons_of_pos]
      refine ⟨t :: l, by simp, by simpa using h2, ?_⟩
      intro i obj' t' ho' ht'
      cases i with
      | zero =>
        simp at ho' ht'
        subst ho' ht'
        exact hs
      | succ i => exact h3 i obj' t' (by simpa using ho') (by simpa using ht')
    · rw [if_neg h, List.filter_cons_of_neg (by simpa using h)]
      exact ⟨l, by simp, h2, h3⟩

example : ∃ t, (Pattern.init 0 { opts := { name := some "p" } }).matchRegex false
      { names := [some "g", none], finditer := fun _ => [⟨0, 3, [⟨(0, 1), []⟩, ⟨(1, 3), []⟩]⟩, ⟨3, 3, []⟩] } "abc".toList = .ok [t] ∧
    t.children.map (fun c => (c.root.span, c.root.name)) = [((0, 1), some "g"), ((1, 3), some "p")] := ⟨_, rfl, rfl⟩

/-- **C78 (false).** A pattern declared with `marker=True` yields markers whatever its kind: a regular expression with a group that
matches something raises `AssertionError` instead, because the container of children refuses markers. -/
theorem C78_marker_regex_refuted :
    ¬ ∀ (id : Nat) (o : PatternOpts) (rc : Bool) (re : Regex) (input : Str), o.opts.marker = true →
        (∀ obj ∈ re.finditer input, ∀ g ∈ obj.groups, EngineGroup g) →
        ∃ l, (Pattern.init id o).matchRegex rc re input = .ok l := by
  intro h
  obtain ⟨l, hl⟩ := h 0 { opts := { marker := true } } false
    { names := [none], finditer := fun _ => [⟨0, 1, [⟨(0, 1), []⟩]⟩] } "a".toList rfl (by
      intro obj ho g hg
      simp at ho
      subst ho
      simp at hg
      subst hg
      exact ⟨Or.inr (by simp), by simp⟩)
  have : (Pattern.init 0 { opts := { marker := true } }).matchRegex false
    { names := [none], finditer := fun _ => [⟨0, 1, [⟨(0, 1), []⟩]⟩] } "a".toList = .error .assertionError := rfl
  rw [this] at hl
  cases hl

/-- **C78, what holds.** A marker regular expression whose groups match nothing yields markers, one per non-empty match object.
(Missing: groups, false; string and functional patterns are in `C78_marker_string_partial` and C44.) -/
theorem C78_marker_regex_partial (id : Nat) (o : PatternOpts) (hm : o.opts.marker = true) (rc : Bool) (re : Regex) (input : Str)
    (hg : ∀ obj ∈ re.finditer input, expectedChildren rc o.opts.name re.names obj.groups = [] ∧ ∀ g ∈ obj.groups, EngineGroup g) :
    ∃ l, (Pattern.init id o).matchRegex rc re input = .ok l ∧
      l.map (fun t => t.root.span) = ((re.finditer input).filter (fun obj => decide (obj.start ≠ obj.stop))).map (fun obj => (obj.start, obj.stop)) ∧
      ∀ t ∈ l, t.root.marker = true ∧ t.children = [] := by
  unfold Pattern.matchRegex
  generalize re.finditer input = objs at hg
  induction objs with
  | nil => exact ⟨[], rfl, rfl, fun t h => by cases h⟩
  | cons obj objs ih =>
    obtain ⟨l, h1, h2, h3⟩ := ih (fun x hx => hg x (List.mem_cons_of_mem _ hx))
    obtain ⟨hg1, hg2⟩ := hg obj (List.mem_cons_self ..)
    have hc : (Pattern.init id o).reChildren rc input ((Pattern.init id o).newMatch input obj.start obj.stop) re.names obj.groups = [] := by
      have := reChildren_spec (Pattern.init id o) rc input ((Pattern.init id o).newMatch input obj.start obj.stop) re.names obj.groups hg2
      have hn : ((Pattern.init id o).newMatch input obj.start obj.stop).name = o.opts.name := rfl
      rw [hn, hg1] at this
      simpa using this
    have hone : (Pattern.init id o).reMatch rc re.names input obj =
        .ok (if obj.start ≠ obj.stop then [.node ((Pattern.init id o).newMatch input obj.start obj.stop) []] else []) := by
      unfold Pattern.reMatch
      simp only [hc, List.any_nil, Bool.false_eq_true, if_false, List.map_nil]
      have hl : ((Pattern.init id o).newMatch input obj.start obj.stop).len ≠ 0 ↔ obj.start ≠ obj.stop := by
        show obj.stop - obj.start ≠ 0 ↔ _
        omega
      by_cases h : obj.start ≠ obj.stop
      · rw [if_pos h, if_pos (hl.2 h)]
      · rw [if_neg h, if_neg (fun h2 => h (hl.1 h2))]
    unfold Pattern.matchRegex.go
    rw [hone]
    simp only
    rw [h1]
    simp only
    by_cases h : obj.start ≠ obj.stop
    · rw [if_pos h, List.filter_cons_of_pos (by simpa using h)]
      refine ⟨_, rfl, by rw [List.map_append, h2]; rfl, ?_⟩
      intro t ht
      rcases List.mem_cons.1 ht with rfl | ht
      · exact ⟨hm, rfl⟩
      · exact h3 t (by simpa using ht)
    · rw [if_neg h, List.filter_cons_of_neg (by simpa using h)]
      exact ⟨l, by simp, h2, h3⟩

/-- **C78**, string patterns. -/
theorem C78_marker_string_partial (id : Nat) (o : PatternOpts) (hm : o.opts.marker = true) (lower : Str → Str) (so : StringOpts)
    (input sub : Str) (hsub : sub ≠ []) (hlow : so.ignoreCase = true → lower sub ≠ []) :
    ∃ l, (Pattern.init id o).matchString lower so input sub = .ok l ∧ ∀ t ∈ l, t.root.marker = true := by
  obtain ⟨l, ps, h1, h2, h3, h4⟩ := C42_string_occurrences id o lower so input sub hsub hlow
  refine ⟨l, h1, ?_⟩
  intro t ht
  obtain ⟨i, hi⟩ := List.getElem?_of_mem ht
  have hil : i < ps.length := by
    rw [← h3]
    exact (List.getElem?_eq_some_iff.1 hi).1
  obtain ⟨hmb, _⟩ := h4 i t ps[i] hi (List.getElem?_eq_getElem hil)
  rw [hmb.marker, hm]

/-! ## C44 -/

theorem Spec.IsPos.read {r : FRet} {s : Int} (h : IsPos r s) : r.pos? = some s ∧ r.isInt = true := by
  cases h <;> exact ⟨rfl, rfl⟩

theorem Spec.IsValue.read {r : FRet} {v : Val} (h : IsValue r v) : r.value? = some v := by
  cases h <;> rfl

theorem Spec.IsName.read {r : FRet} {n : Option String} (h : IsName r n) : r.name? = some n ∧ ∀ d, r ≠ .dict d := by
  cases h with
  | str n => exact ⟨by simp [FRet.name?, String.ofList_toList], by intro d h; cases h⟩
  | none => exact ⟨rfl, by intro d h; cases h⟩

/-- Positional arguments without a dict at the end. -/
theorem seqArgs_plain {named : Bool} {l : List FRet} {x : FRet} (h : ∀ d, x ≠ .dict d) :
    (FRet.seq (l ++ [x])).matchArgs named = FRet.startArg named {} (l ++ [x]) := by
  have he : (l ++ [x]).isEmpty = false := by cases l <;> rfl
  simp only [FRet.matchArgs, FRet.seqArgs, he, List.getLast?_append, List.getLast?_singleton, Bool.false_eq_true, if_false, Option.some_or]
  cases x <;> simp at h ⊢

theorem Spec.IsPos.notDict {r : FRet} {s : Int} (h : IsPos r s) : ∀ d, r ≠ .dict d := by
  cases h <;> intro d h <;> cases h

theorem Spec.IsValue.notDict {r : FRet} {v : Val} (h : IsValue r v) : ∀ d, r ≠ .dict d := by
  cases h <;> intro d h <;> cases h

/-- Positional arguments with a dict at the end. -/
theorem seqArgs_dict {named : Bool} {l : List FRet} {d : MatchArgs} :
    (FRet.seq (l ++ [.dict d])).matchArgs named = FRet.startArg named d l := by
  simp [FRet.matchArgs, FRet.seqArgs]

/-- The options read from one result. -/
theorem describes_args {named : Bool} {r : FRet} {s e : Int} {a : MatchArgs} (h : Describes named r s e a) :
    ∃ b : MatchArgs, r.matchArgs named = .ok b ∧ b = { a with start := some s, stop := some e } ∧ r.isInt = false := by
  cases h with
  | dict d h1 h2 => exact ⟨a, rfl, by cases a; simp_all, rfl⟩
  | @span p q _ _ hp hq =>
    refine ⟨_, ?_, rfl, rfl⟩
    rw [show [p, q] = [p] ++ [q] from rfl, seqArgs_plain hq.notDict]
    simp [FRet.startArg, FRet.stopArg, FRet.valueArg, hp.read.1, hq.read.1]
  | @spanValue p q r _ _ v hp hq hr =>
    refine ⟨_, ?_, rfl, rfl⟩
    rw [show [p, q, r] = [p, q] ++ [r] from rfl, seqArgs_plain hr.notDict]
    simp [FRet.startArg, FRet.stopArg, FRet.valueArg, FRet.nameArg, hp.read.1, hq.read.1, hr.read]
  | @spanName p q r u _ _ v n hn hp hq hr hu =>
    subst hn
    refine ⟨_, ?_, rfl, rfl⟩
    rw [show [p, q, r, u] = [p, q, r] ++ [u] from rfl, seqArgs_plain hu.read.2]
    simp [FRet.startArg, FRet.stopArg, FRet.valueArg, FRet.nameArg, hp.read.1, hq.read.1, hr.read, hu.read.1]
  | @startOpts p _ _ _ hp h1 h2 =>
    refine ⟨{ a with start := some s }, ?_, (by rw [← h2]), rfl⟩
    rw [show [p, FRet.dict a] = [p] ++ [.dict a] from rfl, seqArgs_dict]
    simp [FRet.startArg, FRet.stopArg, hp.read.1, h1]
  | @spanOpts p q _ _ _ hp hq h1 h2 =>
    refine ⟨_, ?_, rfl, rfl⟩
    rw [show [p, q, FRet.dict a] = [p, q] ++ [.dict a] from rfl, seqArgs_dict]
    simp [FRet.startArg, FRet.stopArg, FRet.valueArg, hp.read.1, hq.read.1, h1, h2]
  | @valueOpts p q r _ _ v d hp hq hr h1 h2 h3 =>
    refine ⟨_, ?_, rfl, rfl⟩
    rw [show [p, q, r, FRet.dict d] = [p, q, r] ++ [.dict d] from rfl, seqArgs_dict]
    simp [FRet.startArg, FRet.stopArg, FRet.valueArg, FRet.nameArg, hp.read.1, hq.read.1, hr.read, h1, h2, h3]
  | @nameOpts p q r u _ _ v n d hn hp hq hr hu h1 h2 h3 h4 =>
    subst hn
    refine ⟨_, ?_, rfl, rfl⟩
    rw [show [p, q, r, u, FRet.dict d] = [p, q, r, u] ++ [.dict d] from rfl, seqArgs_dict]
    simp [FRet.startArg, FRet.stopArg, FRet.valueArg, FRet.nameArg, hp.read.1, hq.read.1, hr.read, hu.read.1, h1, h2, h3, h4]

/-- What is read from a refused result raises. -/
theorem refused_args {named : Bool} {r : FRet} {err : PyErr} (h : Refused named r err) (p : Pattern) (input : Str) :
    r.matchArgs named = .error err ∨ ∃ a, r.matchArgs named = .ok a ∧ p.matchWithArgs input a = .error err := by
  cases h with
  | scalar v hv => exact Or.inl rfl
  | empty => exact Or.inl rfl
  | noStart d h => exact Or.inr ⟨d, rfl, by simp [Pattern.matchWithArgs, h]⟩
  | noStop d h => exact Or.inr ⟨d, rfl, by cases hs : d.start <;> simp [Pattern.matchWithArgs, h, hs]⟩
  | @startOnly q s hq =>
    refine Or.inr ⟨{ start := some s }, ?_, rfl⟩
    rw [show [q] = [] ++ [q] from rfl, seqArgs_plain hq.notDict]
    simp [FRet.startArg, FRet.stopArg, hq.read.1]
  | @startTwice q s l d hq hd =>
    refine Or.inl ?_
    rw [seqArgs_dict]
    simp [FRet.startArg, hq.read.1, Option.isSome_iff_ne_none, hd]
  | @nameTwice q r u w _ _ v n hn hp hq hr hu =>
    subst hn
    refine Or.inl ?_
    rw [show [q, r, u, w] = [q, r, u] ++ [w] from rfl, seqArgs_plain hu.read.2]
    simp [FRet.startArg, FRet.stopArg, FRet.valueArg, FRet.nameArg, hp.read.1, hq.read.1, hr.read, hu.read.1]

/-- A refused result raises in the loop, after any results that describe matches. -/
theorem functionalLoop_refused (id : Nat) (o : PatternOpts) (input : Str) {r : FRet} {err : PyErr} (hr : Refused o.opts.name.isSome r err)
    (rest : List FRet) : ∀ (rs : List (FRet × (Int × Int) × MatchArgs)),
      (∀ x ∈ rs, Describes o.opts.name.isSome x.1 x.2.1.1 x.2.1.2 x.2.2 ∧ x.2.1.1 ≤ x.2.1.2) →
      (Pattern.init id o).functionalLoop input (rs.map (fun x => x.1) ++ r :: rest) = .error err
  | [], _ => by
    rw [List.map_nil, List.nil_append]
    unfold Pattern.functionalLoop
    rw [show (Pattern.init id o).opts = o.opts from rfl]
    rcases refused_args hr (Pattern.init id o) input with h | ⟨a, h, h'⟩
    · rw [h]
    · rw [h]; simp only [h']
  | x :: rs, h => by
    have ih := functionalLoop_refused id o input hr rest rs (fun y hy => h y (List.mem_cons_of_mem _ hy))
    obtain ⟨hd, hle⟩ := h x (List.mem_cons_self ..)
    obtain ⟨b, hb, hb2, _⟩ := describes_args hd
    rw [List.map_cons, List.cons_append]
    unfold Pattern.functionalLoop
    rw [show (Pattern.init id o).opts = o.opts from rfl, hb]
    subst hb2
    obtain ⟨m, hm, h1, h2⟩ : ∃ m, (Pattern.init id o).matchWithArgs input { x.2.2 with start := some x.2.1.1, stop := some x.2.1.2 } = .ok m ∧
        m.start = x.2.1.1 ∧ m.stop = x.2.1.2 := ⟨_, rfl, rfl, rfl⟩
    obtain ⟨t, ht⟩ : ∃ t, m.truthy? = .ok t := by
      unfold Match.truthy?
      rw [h1, h2, if_neg (by omega)]
      exact ⟨_, rfl⟩
    simp only [hm, ht, ih]

theorem functionalLoop_spec (id : Nat) (o : PatternOpts) (input : Str) :
    ∀ (rs : List (FRet × (Int × Int) × MatchArgs)), (∀ x ∈ rs, Describes o.opts.name.isSome x.1 x.2.1.1 x.2.1.2 x.2.2 ∧ x.2.1.1 ≤ x.2.1.2) →
      ∃ l, (Pattern.init id o).functionalLoop input (rs.map (fun x => x.1)) = .ok l ∧
        l.length = (rs.filter (fun x => decide (x.2.1.1 ≠ x.2.1.2))).length ∧
        ∀ (i : Nat) x t, (rs.filter (fun x => decide (x.2.1.1 ≠ x.2.1.2)))[i]? = some x → l[i]? = some t →
          MadeWith id o.opts input x.2.1.1 x.2.1.2 x.2.2 t.root ∧ t.children = []
  | [], _ => ⟨[], rfl, rfl, fun i x t h => by cases h⟩
  | x :: rs, h => by
    obtain ⟨l, h1, h2, h3⟩ := functionalLoop_spec id o input rs (fun y hy => h y (List.mem_cons_of_mem _ hy))
    obtain ⟨hd, hle⟩ := h x (List.mem_cons_self ..)
    obtain ⟨b, hb, hb2, _⟩ := describes_args hd
    rw [List.map_cons]
    unfold Pattern.functionalLoop
    rw [show (Pattern.init id o).opts = o.opts from rfl, hb]
    simp only
    obtain ⟨m, hm, hmw⟩ : ∃ m, (Pattern.init id o).matchWithArgs input b = .ok m ∧ MadeWith id o.opts input x.2.1.1 x.2.1.2 x.2.2 m := by
      subst hb2
      exact ⟨_, rfl, ⟨rfl, rfl, rfl, rfl, rfl, rfl, rfl, rfl, rfl, rfl, rfl, rfl, rfl⟩⟩
    rw [hm]
    simp only
    have e1 : m.start = x.2.1.1 := congrArg Prod.fst hmw.span
    have e2 : m.stop = x.2.1.2 := congrArg Prod.snd hmw.span
    have ht : m.truthy? = .ok (decide (x.2.1.1 ≠ x.2.1.2)) := by
      unfold Match.truthy?
      rw [e1, e2, if_neg (by omega)]
      congr 1
      rw [Bool.eq_iff_iff, bne_iff_ne, decide_eq_true_eq]
      omega
    rw [ht]
    simp only
    rw [h1]
    simp only
    by_cases hne : x.2.1.1 ≠ x.2.1.2
    · simp only [hne, ne_eq, not_false_eq_true, decide_true, if_true, List.filter_cons_of_pos]
      refine ⟨_, rfl, by simpa using h2, ?_⟩
      intro i y t hy ht'
      cases i with
      | zero =>
        simp at hy ht'
        subst hy ht'
        exact ⟨hmw, rfl⟩
      | succ i => exact h3 i y t (by simpa using hy) (by simpa using ht')
    · rw [List.filter_cons_of_neg (by simpa using hne), decide_eq_false hne]
      exact ⟨l, rfl, h2, h3⟩

/-- **C44**, several results: a list, a tuple or a generator of results, each describing a match, gives these matches in order,
the empty ones dropped, explicit options overriding those of the pattern. -/
theorem C44_functional_many (id : Nat) (o : PatternOpts) (f : Str → FRet) (input : Str) (rs : List (FRet × (Int × Int) × MatchArgs))
    (hf : f input = .seq (rs.map (fun x => x.1)) ∨ f input = .gen (rs.map (fun x => x.1)))
    (h : ∀ x ∈ rs, Describes o.opts.name.isSome x.1 x.2.1.1 x.2.1.2 x.2.2 ∧ x.2.1.1 ≤ x.2.1.2) :
    ∃ l, (Pattern.init id o).matchFunctional f input = .ok l ∧
      l.length = (rs.filter (fun x => decide (x.2.1.1 ≠ x.2.1.2))).length ∧
      ∀ (i : Nat) x t, (rs.filter (fun x => decide (x.2.1.1 ≠ x.2.1.2)))[i]? = some x → l[i]? = some t →
        MadeWith id o.opts input x.2.1.1 x.2.1.2 x.2.2 t.root ∧ t.children = [] := by
  have ha : (f input).argsIterable = rs.map (fun x => x.1) := by
    rcases hf with hf | hf <;> rw [hf]
    · cases rs with
      | nil => rfl
      | cons x rs =>
        obtain ⟨b, _, _, hi⟩ := describes_args (h x (List.mem_cons_self ..)).1
        simp [FRet.argsIterable, FRet.truthy, hi]
    · simp [FRet.argsIterable, FRet.truthy]
  unfold Pattern.matchFunctional
  rw [ha]
  exact functionalLoop_spec id o input rs h

/-- **C44**, results that stand for no match (an empty tuple, a dict or tuple without both positions, an option given twice such as a name when the pattern has
one): the `IndexError` or `TypeError` goes through, whatever was found before. -/
theorem C44_refused (id : Nat) (o : PatternOpts) (f : Str → FRet) (input : Str) (rs : List (FRet × (Int × Int) × MatchArgs)) (r : FRet) (rest : List FRet)
    (err : PyErr) (hr : Refused o.opts.name.isSome r err) (hs : ∀ v, r ≠ .val v)
    (hf : f input = .seq (rs.map (fun x => x.1) ++ r :: rest) ∨ f input = .gen (rs.map (fun x => x.1) ++ r :: rest))
    (h : ∀ x ∈ rs, Describes o.opts.name.isSome x.1 x.2.1.1 x.2.1.2 x.2.2 ∧ x.2.1.1 ≤ x.2.1.2) :
    (Pattern.init id o).matchFunctional f input = .error err := by
  have ha : (f input).argsIterable = rs.map (fun x => x.1) ++ r :: rest := by
    rcases hf with hf | hf <;> rw [hf]
    · cases rs with
      | nil =>
        have hi : r.isInt = false := by
          cases r with
          | val v => exact absurd rfl (hs v)
          | _ => rfl
        simp [FRet.argsIterable, FRet.truthy, hi]
      | cons x rs =>
        obtain ⟨b, _, _, hi⟩ := describes_args (h x (List.mem_cons_self ..)).1
        simp [FRet.argsIterable, FRet.truthy, hi]
    · simp [FRet.argsIterable, FRet.truthy]
  unfold Pattern.matchFunctional
  rw [ha]
  exact functionalLoop_refused id o input hr rest rs h

example : (Pattern.init 0 { opts := { name := some "a" } }).matchFunctional
    (fun _ => .seq [.seq [.val (.int 0), .val (.int 1)], .seq []]) "xy".toList = .error .indexError :=
  C44_refused 0 _ _ _ [(.seq [.val (.int 0), .val (.int 1)], (0, 1), {})] (.seq []) [] _ .empty (by intro v h; cases h) (Or.inl rfl)
    (by intro x hx; rw [List.mem_singleton] at hx; subst hx; exact ⟨.span (.int 0) (.int 1), by decide⟩)

/-- **C44**, a single result that stands for no match. -/
theorem C44_refused_one (id : Nat) (o : PatternOpts) (f : Str → FRet) (input : Str) (err : PyErr) (hr : Refused o.opts.name.isSome (f input) err)
    (hf : f input ≠ .seq []) : (Pattern.init id o).matchFunctional f input = .error err := by
  have ha : (f input).argsIterable = [f input] := by
    generalize f input = r at hr hf
    cases hr with
    | scalar v hv => simp [FRet.argsIterable, FRet.truthy, isTrue_iff.2 hv]
    | empty => exact absurd rfl hf
    | noStart d _ => rfl
    | noStop d _ => rfl
    | startOnly hq => simp [FRet.argsIterable, FRet.truthy, hq.read.2]
    | startTwice d hq _ => simp [FRet.argsIterable, FRet.truthy, hq.read.2]
    | nameTwice _ hq => simp [FRet.argsIterable, FRet.truthy, hq.read.2]
  unfold Pattern.matchFunctional
  rw [ha]
  exact functionalLoop_refused id o input hr [] [] (by simp)

example : (Pattern.init 0 { opts := { name := some "a" } }).matchFunctional
    (fun _ => .seq [.val (.int 0), .val (.int 1), .none, .val (.str "b".toList)]) "xy".toList = .error .typeError :=
  C44_refused_one 0 _ _ _ _ (.nameTwice rfl (.int 0) (.int 1) .none (.str "b")) (by simp)

/-- **C44**, a single result: a span (with an optional value or options) or a dict of options gives that match, or none if it is
empty. -/
theorem C44_functional_one (id : Nat) (o : PatternOpts) (f : Str → FRet) (input : Str) (s e : Int) (a : MatchArgs)
    (h : Describes o.opts.name.isSome (f input) s e a) (hle : s ≤ e) :
    ∃ l, (Pattern.init id o).matchFunctional f input = .ok l ∧ l.length = (if s ≠ e then 1 else 0) ∧
      ∀ t ∈ l, MadeWith id o.opts input s e a t.root ∧ t.children = [] := by
  have ha : (f input).argsIterable = [f input] := by
    generalize f input = r at h
    cases h with
    | dict d => rfl
    | span hp => simp [FRet.argsIterable, FRet.truthy, hp.read.2]
    | spanValue hp => simp [FRet.argsIterable, FRet.truthy, hp.read.2]
    | spanName _ hp => simp [FRet.argsIterable, FRet.truthy, hp.read.2]
    | startOpts _ hp => simp [FRet.argsIterable, FRet.truthy, hp.read.2]
    | spanOpts _ hp => simp [FRet.argsIterable, FRet.truthy, hp.read.2]
    | valueOpts _ hp => simp [FRet.argsIterable, FRet.truthy, hp.read.2]
    | nameOpts _ _ hp => simp [FRet.argsIterable, FRet.truthy, hp.read.2]
  obtain ⟨l, h1, h2, h3⟩ := functionalLoop_spec id o input [(f input, (s, e), a)] (by
    intro x hx
    simp at hx
    subst hx
    exact ⟨h, hle⟩)
  refine ⟨l, ?_, ?_, ?_⟩
  · unfold Pattern.matchFunctional
    rw [ha]
    exact h1
  · rw [h2]
    by_cases hse : s = e <;> simp [hse]
  · intro t ht
    obtain ⟨i, hi⟩ := List.getElem?_of_mem ht
    have hil : i < l.length := (List.getElem?_eq_some_iff.1 hi).1
    have hlen := h2
    obtain ⟨x, hx⟩ : ∃ x, ([(f input, (s, e), a)].filter (fun x => decide (x.2.1.1 ≠ x.2.1.2)))[i]? = some x :=
      ⟨_, List.getElem?_eq_getElem (by rw [← h2]; exact hil)⟩
    have := h3 i x t hx hi
    have hxm := List.mem_of_getElem? hx
    have : x = (f input, (s, e), a) := by
      have := (List.mem_filter.1 hxm).1
      simpa using this
    subst this
    assumption

/-- **C44**, no result. -/
theorem C44_functional_none (id : Nat) (o : PatternOpts) (f : Str → FRet) (input : Str) (h : f input = .none ∨ f input = .seq []) :
    (Pattern.init id o).matchFunctional f input = .ok [] := by
  unfold Pattern.matchFunctional
  rcases h with h | h <;> rw [h] <;> rfl

example : ∃ t u, (Pattern.init 0 { opts := { name := some "p" } }).matchFunctional
      (fun _ => .seq [.seq [.val (.int 0), .val (.int 2)], .dict { start := some 2, stop := some 3, name := some (some "q") },
        .seq [.val (.int 1), .val (.int 1)]]) "abc".toList = .ok [t, u] ∧
    t.root.span = (0, 2) ∧ t.root.name = some "p" ∧ u.root.span = (2, 3) ∧ u.root.name = some "q" := ⟨_, _, rfl, rfl, rfl, rfl, rfl⟩

/-! ## C45, C46 -/

/-- **C45.** Without match processors, a non-empty raw match is emitted (as C46 says) exactly when the validators that apply to the
configured parent and to every configured child accept; one refusal suppresses everything. -/
theorem C45_validation (id : Nat) (o : PatternOpts) (hf : Proper o.formatter) (hv : Proper o.validator)
    (hpre : o.preMatch = none) (hpost : o.postMatch = none) (idx : Nat) (t : MTree) (hlen : t.root.start < t.root.stop) :
    ∃ V T, ParentConfigured o idx t V ∧ ChildrenConfigured o idx V T ∧
      (¬ Accepted o V T → (Pattern.init id o).processMatches idx t = .ok []) ∧
      (Accepted o V T → (Pattern.init id o).processMatches idx t = .ok (emission o T)) := by
  obtain ⟨V, T, h1, h2, h3, h4⟩ := processMatches_spec id o hf hv idx t t (.absent hpre) hlen
  refine ⟨V, T, h1, h2, h3, fun ha => ?_⟩
  refine ((h4 ha _ (.absent hpost)).2.2.1 T rfl ?_)
  have hs : T.root.span = t.root.span := by rw [h2.root]; exact h1.root.span
  have e1 : T.root.start = t.root.start := congrArg Prod.fst hs
  have e2 : T.root.stop = t.root.stop := congrArg Prod.snd hs
  omega

/-- **C45**, a rejected child: nothing is emitted, neither the parent nor the other children. -/
theorem C45_rejected_child (id : Nat) (o : PatternOpts) (hf : Proper o.formatter) (hv : Proper o.validator)
    (hpre : o.preMatch = none) (hpost : o.postMatch = none) (hinc : ChildrenIncluded o ∨ o.validateAll = true)
    (idx : Nat) (t : MTree) (hlen : t.root.start < t.root.stop) (v : MTree → Bool) (c : MTree) (hc : c ∈ t.children)
    (hval : chosen o.validator (some (fun _ => true)) c.root.name true = some v)
    (hrej : ∀ C : MTree, C.root.span = c.root.span → C.root.name = c.root.name → v C = false) :
    (Pattern.init id o).processMatches idx t = .ok [] := by
  obtain ⟨V, T, h1, h2, h3, h4⟩ := C45_validation id o hf hv hpre hpost idx t hlen
  apply h3
  rintro ⟨_, h⟩
  obtain ⟨i, hi⟩ := List.getElem?_of_mem hc
  have hil : i < t.children.length := (List.getElem?_eq_some_iff.1 hi).1
  have hiV : V.children[i]? = some (V.children[i]'(by rw [h1.count]; exact hil)) := List.getElem?_eq_getElem _
  have hiT : T.children[i]? = some (T.children[i]'(by rw [h2.count, h1.count]; exact hil)) := List.getElem?_eq_getElem _
  have hs1 := h1.child i _ _ hi hiV
  obtain ⟨hs2, _⟩ := h2.child i _ _ hiV hiT
  have hn : (V.children[i]'(by rw [h1.count]; exact hil)).root.name = c.root.name := by
    have := congrArg Match.name hs1; simpa using this.symm
  have hsp : (V.children[i]'(by rw [h1.count]; exact hil)).root.span = c.root.span := by
    have := congrArg Match.span hs1; simpa [Match.span] using this.symm
  have hacc := h _ (List.getElem_mem (by rw [h2.count, h1.count]; exact hil)) hinc v (by rw [hs2.name, hn]; exact hval)
  rw [hrej _ (by rw [hs2.span, hsp]) (by rw [hs2.name, hn])] at hacc
  cases hacc

/-- **C45**, match processors: nothing is emitted when `pre_match_processor` returns `False` or an empty match; otherwise the match it
leaves is validated, and `post_match_processor` decides what is emitted of an accepted match (a match that ends before it starts is a `ValueError`). -/
theorem C45_processors (id : Nat) (o : PatternOpts) (hf : Proper o.formatter) (hv : Proper o.validator) (idx : Nat) (t : MTree) :
    (∀ r, After o.preMatch t r → (r = none ∨ ∃ t1, r = some t1 ∧ t1.root.start = t1.root.stop) →
      (Pattern.init id o).processMatches idx t = .ok []) ∧
    (∀ t1, After o.preMatch t (some t1) → t1.root.start < t1.root.stop →
      ∃ V T, ParentConfigured o idx t1 V ∧ ChildrenConfigured o idx V T ∧
        (¬ Accepted o V T → (Pattern.init id o).processMatches idx t = .ok []) ∧
        (Accepted o V T → ∀ r, After o.postMatch T r →
          (r = none → (Pattern.init id o).processMatches idx t = .ok []) ∧
          (∀ T', r = some T' → T'.root.start = T'.root.stop → (Pattern.init id o).processMatches idx t = .ok []) ∧
          (∀ T', r = some T' → T'.root.start < T'.root.stop → (Pattern.init id o).processMatches idx t = .ok (emission o T')) ∧
          (∀ T', r = some T' → T'.root.stop < T'.root.start → (Pattern.init id o).processMatches idx t = .error .valueError))) :=
  ⟨fun r hr h => processMatches_dropped id o idx t r hr h, fun t1 h1 h2 => processMatches_spec id o hf hv idx t t1 h1 h2⟩

/-- A regular expression with two groups: the second child is refused by its validator, nothing is emitted. -/
example : (Pattern.init 0 { every := true, validator := .dict [(some "b", some (fun _ => false))] }).processMatches 0
    (.node { start := 0, stop := 2 } [.node { start := 0, stop := 1, name := some "a" } [], .node { start := 1, stop := 2, name := some "b" } []]) =
    .ok [] := rfl

/-- **C46.** The matches emitted for an accepted raw match: the parent iff parents are included (`not children or every`) or
`private_parent`, and its name is not ignored; then, iff children are included (`children or every`) or `private_children`, the children
with a name that is not ignored, in order. A match is private iff it was built private, or its name is in `private_names`, or
`private_parent` (parent) / `private_children` (child). -/
theorem C46_emission (id : Nat) (o : PatternOpts) (hf : Proper o.formatter) (hv : Proper o.validator)
    (hpre : o.preMatch = none) (hpost : o.postMatch = none) (idx : Nat) (t : MTree) (hlen : t.root.start < t.root.stop)
    (hacc : ∀ V, Accepts o false V) (hacc' : ∀ C, Accepts o true C) :
    ∃ (parent : MTree) (kids : List MTree), (Pattern.init id o).processMatches idx t = .ok (emission o (.node parent.root kids)) ∧
      parent.children = kids ∧
      (parent.root.priv = true ↔ t.root.priv = true ∨ Named t.root o.privateNames ∨ o.privateParent = true) ∧
      parent.root.span = t.root.span ∧ parent.root.name = t.root.name ∧
      kids.length = t.children.length ∧
      (∀ (i : Nat) c C, t.children[i]? = some c → kids[i]? = some C →
        (C.root.priv = true ↔ c.root.priv = true ∨ Named c.root o.privateNames ∨ o.privateChildren = true) ∧
        C.root.span = c.root.span ∧ C.root.name = c.root.name) ∧
      (Linked t → Linked parent) := by
  obtain ⟨V, T, h1, h2, _, h4⟩ := C45_validation id o hf hv hpre hpost idx t hlen
  refine ⟨T, T.children, ?_, rfl, ?_, ?_, ?_, ?_, ?_, ?_⟩
  · rw [h4 ⟨hacc V, fun C _ => hacc' C⟩]
    cases T; rfl
  · rw [h2.root, h1.root.priv]; simp
  · rw [h2.root, h1.root.span]
  · rw [h2.root, h1.root.name]
  · rw [h2.count, h1.count]
  · intro i c C hc hC
    have hil : i < t.children.length := (List.getElem?_eq_some_iff.1 hc).1
    have hiV : V.children[i]? = some (V.children[i]'(by rw [h1.count]; exact hil)) := List.getElem?_eq_getElem _
    have hs1 := h1.child i _ _ hc hiV
    obtain ⟨hs2, _⟩ := h2.child i _ _ hiV hC
    have hn : (V.children[i]'(by rw [h1.count]; exact hil)).root.name = c.root.name := by
      have := congrArg Match.name hs1; simpa using this.symm
    have hsp : (V.children[i]'(by rw [h1.count]; exact hil)).root.span = c.root.span := by
      have := congrArg Match.span hs1; simpa [Match.span] using this.symm
    have hpr : (V.children[i]'(by rw [h1.count]; exact hil)).root.priv = c.root.priv := by
      have := congrArg Match.priv hs1; simpa using this.symm
    refine ⟨?_, by rw [hs2.span, hsp], by rw [hs2.name, hn]⟩
    rw [hs2.priv, hpr]
    unfold Named
    rw [hn]; simp
  · intro hl C hC
    obtain ⟨i, hi⟩ := List.getElem?_of_mem hC
    have hil : i < T.children.length := (List.getElem?_eq_some_iff.1 hi).1
    have hiV : V.children[i]? = some (V.children[i]'(by rw [← h2.count]; exact hil)) := List.getElem?_eq_getElem _
    rw [(h2.child i _ _ hiV hi).2, h2.root]
    exact h1.linked hl _ (List.getElem_mem _)

theorem chosen_absent {α : Type} (d : α) (name : Option String) (child : Bool) : chosen (.absent : DictArg α) d name child = d := by
  unfold chosen declared
  cases name with
  | none => rfl
  | some n => simp

/-- **C46**, defaults: without any of these options a pattern emits, for an accepted raw match, the parent alone; it is private only if built so. -/
theorem C46_defaults (id : Nat) (opts : MatchOpts) (idx : Nat) (t : MTree) (hlen : t.root.start < t.root.stop) :
    ∃ x : MTree, (Pattern.init id { opts := opts }).processMatches idx t = .ok [x] ∧ x.root.priv = t.root.priv ∧ x.root.span = t.root.span ∧
      x.root.name = t.root.name := by
  have hacc : ∀ child V, Accepts { opts := opts } child V := by
    intro child V _ v hv
    rw [chosen_absent] at hv
    injection hv with hv
    rw [← hv]
  obtain ⟨parent, kids, h1, h2, h3, h4, h5, _⟩ := C46_emission id { opts := opts } (by intro a h; cases h) (by intro a h; cases h) rfl rfl idx t hlen
    (hacc false) (hacc true)
  have he : emission { opts := opts } (.node parent.root kids) = [.node parent.root kids] := by
    unfold emission
    rw [if_pos, if_neg]
    · rfl
    · rintro (h | h)
      · rcases h with h | h <;> cases h
      · cases h
    · refine ⟨Or.inl (Or.inl rfl), ?_⟩
      intro n _ h
      cases h
  rw [he] at h1
  refine ⟨_, h1, ?_, h4, h5⟩
  have h3' : parent.root.priv = true ↔ t.root.priv = true := by
    rw [h3]
    constructor
    · rintro (h | h | h)
      · exact h
      · obtain ⟨n, _, _, hn⟩ := h; cases hn
      · cases h
    · exact Or.inl
  show parent.root.priv = t.root.priv
  cases h : parent.root.priv <;> cases h' : t.root.priv <;> simp [h, h'] at h3' ⊢

/-- `private_parent` with `children=True`: the private parent and the children. -/
example : ∃ x y, (Pattern.init 0 { children := true, privateParent := true, ignoreNames := ["b"] }).processMatches 0
    (.node { start := 0, stop := 2 } [.node { start := 0, stop := 1, name := some "a" } [], .node { start := 1, stop := 2, name := some "b" } []]) =
    .ok [x, y] ∧ x.root.priv = true ∧ y.root.name = some "a" ∧ y.root.priv = false := ⟨_, _, rfl, rfl, rfl, rfl⟩

/-! ## C47, C48, C49 -/

/-- Every emitted match is the configured parent or a configured child. -/
theorem emitted_origin (id : Nat) (o : PatternOpts) (hf : Proper o.formatter) (hv : Proper o.validator)
    (hpre : o.preMatch = none) (hpost : o.postMatch = none) (idx : Nat) (t : MTree) {out : List MTree}
    (h : (Pattern.init id o).processMatches idx t = .ok out) (x : MTree) (hx : x ∈ out) :
    ConfiguredMatch o idx false t.root x.root ∨ ∃ c ∈ t.children, ConfiguredMatch o idx true c.root x.root := by
  rcases Int.lt_trichotomy t.root.start t.root.stop with hlt | heq | hgt
  · obtain ⟨V, T, h1, h2, h3, h4⟩ := C45_validation id o hf hv hpre hpost idx t hlt
    by_cases ha : Accepted o V T
    · rw [h4 ha] at h
      cases h
      unfold emission at hx
      rcases List.mem_append.1 hx with hx | hx
      · split at hx
        · rw [List.mem_singleton] at hx
          subst hx
          left
          rw [h2.root]; exact h1.root
        · cases hx
      · split at hx
        · right
          have hx := (List.mem_filter.1 hx).1
          obtain ⟨i, hi⟩ := List.getElem?_of_mem hx
          have hil : i < T.children.length := (List.getElem?_eq_some_iff.1 hi).1
          have hiV : V.children[i]? = some (V.children[i]'(by rw [← h2.count]; exact hil)) := List.getElem?_eq_getElem _
          have hit : t.children[i]? = some (t.children[i]'(by rw [← h1.count, ← h2.count]; exact hil)) := List.getElem?_eq_getElem _
          refine ⟨_, List.mem_of_getElem? hit, ?_⟩
          have hs := h1.child i _ _ hit hiV
          obtain ⟨hc, _⟩ := h2.child i _ _ hiV hi
          generalize (t.children[i]'(by rw [← h1.count, ← h2.count]; exact hil)) = c at hs
          generalize (V.children[i]'(by rw [← h2.count]; exact hil)) = d at hs hc
          obtain ⟨m, cs⟩ := c
          obtain ⟨n, ds⟩ := d
          simp only [MTree.root] at hs hc ⊢
          unfold SameButLinks at hs
          cases m; cases n
          simp only [Match.mk.injEq] at hs
          obtain ⟨rfl, rfl, rfl, rfl, rfl, rfl, rfl, rfl, rfl, rfl, rfl, rfl, rfl, rfl, rfl, _⟩ := hs
          exact ⟨hc.index, hc.priv, hc.value, hc.noValue, hc.formatter, hc.noFormatter, hc.span, hc.name, hc.tags, hc.marker, hc.input,
            hc.raw, hc.solver, hc.pattern⟩
        · cases hx
    · rw [h3 ha] at h
      cases h
      cases hx
  · rw [processMatches_dropped id o idx t _ (.absent hpre) (Or.inr ⟨t, rfl, heq⟩)] at h
    cases h
    cases hx
  · exfalso
    have hp : (Pattern.init id o).preMatch = none := hpre
    unfold Pattern.processMatches Pattern.processMatchesWith at h
    rw [hp] at h
    have : Pattern.keepGoing (Pattern.processProcessor none t) = .error .valueError := by
      have : t.root.truthy? = .error .valueError := by unfold Match.truthy?; rw [if_pos (by omega)]
      simp only [Pattern.processProcessor, Pattern.keepGoing, this]
    rw [this] at h
    cases h

/-- **C47.** The formatter of an emitted match is the one declared for its name, else for its role (`__parent__` / `__children__`), else
for all matches, else the default one (which leaves the text as it is); when its role is not part of the result (it is then emitted
because it is forced by `private_parent` / `private_children`), only with `format_all`. Declared keys add their converter to the
declaration: `C77_inherited_keys`. -/
theorem C47_formatter (id : Nat) (o : PatternOpts) (hf : Proper o.formatter) (hv : Proper o.validator)
    (hpre : o.preMatch = none) (hpost : o.postMatch = none) (idx : Nat) (t : MTree) {out : List MTree}
    (h : (Pattern.init id o).processMatches idx t = .ok out) (x : MTree) (hx : x ∈ out) :
    ∃ child m, (child = false ∧ m = t.root ∨ child = true ∧ ∃ c ∈ t.children, m = c.root) ∧ x.root.name = m.name ∧ x.root.span = m.span ∧
      (Included o child ∨ o.formatAll = true → x.root.formatter = chosen o.formatter (some (fun v => v)) m.name child) ∧
      (¬ (Included o child ∨ o.formatAll = true) → x.root.formatter = m.formatter) := by
  rcases emitted_origin id o hf hv hpre hpost idx t h x hx with hc | ⟨c, hm, hc⟩
  · exact ⟨false, t.root, Or.inl ⟨rfl, rfl⟩, hc.name, hc.span, hc.formatter, hc.noFormatter⟩
  · exact ⟨true, c.root, Or.inr ⟨rfl, c, hm, rfl⟩, hc.name, hc.span, hc.formatter, hc.noFormatter⟩

example : ∃ x y, (Pattern.init 0
      { every := true, formatter := .dict [(some "a", some (fun _ => .int 1)), (some "__children__", some (fun _ => .int 2))] }).processMatches 0
    (.node { start := 0, stop := 2, name := some "a" } [.node { start := 0, stop := 1, name := some "b" } []]) =
    .ok [x, y] ∧ x.root.value = .int 1 ∧ y.root.value = .int 2 := ⟨_, _, rfl, rfl, rfl⟩

/-- **C48 (false).** A value given by the user becomes the value of the match: not when the value is falsy, as `0` here. -/
theorem C48_value_refuted :
    ¬ ∀ (id : Nat) (o : PatternOpts) (idx : Nat) (t x : MTree) (v : Val), o.value = .one v →
        (Pattern.init id o).processMatches idx t = .ok [x] → x.root.value = v := by
  intro h
  have := h 0 { value := .one (.int 0) } 0 (.node { start := 0, stop := 1, inputString := some ['a'] } []) _ (.int 0) rfl rfl
  have e : Match.value (MTree.root (.node { start := 0, stop := 1, inputString := some ['a'], formatter := some (fun v => v) } [])) =
    .str ['a'] := rfl
  have : Val.str ['a'] = .int 0 := e.symm.trans this
  cases this

/-- **C48, what holds.** When the value declared for the name of the match (else for its role, else for all) is truthy, it is the value of
every emitted match, whatever the formatter; when none is declared the value the match was built with stays. (Missing: falsy values,
false.) -/
theorem C48_value_partial (id : Nat) (o : PatternOpts) (hf : Proper o.formatter) (hv : Proper o.validator)
    (hpre : o.preMatch = none) (hpost : o.postMatch = none) (idx : Nat) (t : MTree) {out : List MTree}
    (h : (Pattern.init id o).processMatches idx t = .ok out) (x : MTree) (hx : x ∈ out) :
    ∃ child m, (child = false ∧ m = t.root ∨ child = true ∧ ∃ c ∈ t.children, m = c.root) ∧ x.root.name = m.name ∧ x.root.span = m.span ∧
      (IsTrue (chosen o.value .none m.name child) → x.root.value = chosen o.value .none m.name child) ∧
      (o.value = .absent → x.root.lit = m.lit) := by
  have val : ∀ (m : Match) (child : Bool), ConfiguredMatch o idx child m x.root →
      (IsTrue (chosen o.value .none m.name child) → x.root.value = chosen o.value .none m.name child) ∧
      (o.value = .absent → x.root.lit = m.lit) := by
    intro m child hc
    constructor
    · intro ht
      unfold Match.value
      rw [hc.value ht, if_pos (isTrue_iff.2 ht)]
    · intro ha
      apply hc.noValue
      rw [← isTrue_iff, ha]
      unfold chosen
      cases m.name <;> simp [declared, Val.truthy]
  rcases emitted_origin id o hf hv hpre hpost idx t h x hx with hc | ⟨c, hm, hc⟩
  · exact ⟨false, t.root, Or.inl ⟨rfl, rfl⟩, hc.name, hc.span, (val _ _ hc).1, (val _ _ hc).2⟩
  · exact ⟨true, c.root, Or.inr ⟨rfl, c, hm, rfl⟩, hc.name, hc.span, (val _ _ hc).1, (val _ _ hc).2⟩

example : ∃ x, (Pattern.init 0 { value := .dict [(none, .int 5)] }).processMatches 0
    (.node { start := 0, stop := 1, inputString := some ['a'] } []) = .ok [x] ∧ x.root.value = .int 5 := ⟨_, rfl, rfl⟩

/-- **C49.** Every match emitted by a pattern carries the rank of the raw match it comes from (parent or child) among the raw matches of
the same sub-pattern. -/
theorem C49_match_index (id : Nat) (o : PatternOpts) (hf : Proper o.formatter) (hv : Proper o.validator)
    (hpre : o.preMatch = none) (hpost : o.postMatch = none) (hpp : o.postProcessor = none) (raws : List (List MTree)) {out : List MTree}
    (h : (Pattern.init id o).matchesOf raws = .ok out) (x : MTree) (hx : x ∈ out) :
    ∃ l ∈ raws, ∃ t, l[x.root.matchIndex]? = some t ∧
      ((x.root.span = t.root.span ∧ x.root.name = t.root.name) ∨ ∃ c ∈ t.children, x.root.span = c.root.span ∧ x.root.name = c.root.name) := by
  unfold Pattern.matchesOf at h
  cases h1 : Pattern.processAll (Pattern.init id o).processMatches raws with
  | error e => rw [h1] at h; cases h
  | ok l =>
    rw [h1] at h
    have hp : (Pattern.init id o).postProcessor = none := hpp
    simp only [Pattern.postProcess, hp, Except.ok.injEq] at h
    subst h
    obtain ⟨rs, k, t, r, hr, hk, hpr, hm⟩ := processAll_mem h1 x hx
    rcases emitted_origin id o hf hv hpre hpost k t hpr x hm with hc | ⟨c, hc1, hc⟩
    · exact ⟨rs, hr, t, by rw [hc.index]; exact hk, Or.inl ⟨hc.span, hc.name⟩⟩
    · exact ⟨rs, hr, t, by rw [hc.index]; exact hk, Or.inr ⟨c, hc1, hc.span, hc.name⟩⟩

example : ∃ x y, (Pattern.init 0 {}).runString (fun s => s) {} ["ab".toList] "abab".toList = .ok [x, y] ∧
    x.root.matchIndex = 0 ∧ y.root.matchIndex = 1 := ⟨_, _, rfl, rfl, rfl⟩

/-! ## C42 for the complete pattern -/

theorem flatMap_congr_mem {α β : Type} {f g : α → List β} : ∀ {l : List α}, (∀ x ∈ l, f x = g x) → l.flatMap f = l.flatMap g
  | [], _ => rfl
  | x :: l, h => by
    rw [List.flatMap_cons, List.flatMap_cons, h x (List.mem_cons_self ..), flatMap_congr_mem (fun y hy => h y (List.mem_cons_of_mem _ hy))]

/-- A plain pattern emits a childless raw match as it is. -/
theorem plain_emits (id : Nat) (mo : MatchOpts) (idx : Nat) (m : Match) (hlen : m.start < m.stop) :
    ∃ x, (Pattern.init id { opts := mo }).processMatches idx (.node m []) = .ok [x] ∧ ConfiguredMatch { opts := mo } idx false m x.root ∧
      x.children = [] := by
  obtain ⟨V, T, h1, h2, _, h4⟩ := C45_validation id { opts := mo } (by intro a h; cases h) (by intro a h; cases h) rfl rfl idx (.node m []) hlen
  have hacc : ∀ (child : Bool) (t : MTree), Accepts { opts := mo } child t := by
    intro child t _ v hvv
    have : chosen (DictArg.absent : DictArg Validator) (some (fun _ => true)) t.root.name child = some (fun _ => true) := by
      unfold chosen
      cases t.root.name <;> simp [declared]
    rw [show (({ opts := mo } : PatternOpts).validator) = .absent from rfl, this] at hvv
    cases hvv
    rfl
  have hcs : T.children = [] := by
    apply List.eq_nil_of_length_eq_zero
    rw [h2.count, h1.count]; rfl
  refine ⟨T, ?_, by rw [h2.root]; exact h1.root, hcs⟩
  rw [h4 ⟨hacc _ _, fun C _ => hacc _ _⟩]
  unfold emission
  rw [if_pos ⟨Or.inl (Or.inl rfl), by intro n _ h; cases h⟩, hcs]
  simp

/-- **C42**, the complete pattern: `StringPattern(*strings, **options).matches(input)` without other options is, string after string, the
list of its occurrences, each with the text as value. -/
theorem C42_string_matches (id : Nat) (mo : MatchOpts) (lower : Str → Str) (so : StringOpts) (hic : so.ignoreCase = false)
    (strings : List Str) (input : Str) (hne : ∀ s ∈ strings, s ≠ []) :
    ∃ (out : List MTree) (found : List (Str × List Nat)),
      (Pattern.init id { opts := mo }).runString lower so strings input = .ok out ∧
      found.map (fun x => x.1) = strings ∧ (∀ x ∈ found, Occurrences input x.1 so.start so.stop x.2) ∧
      out.map (fun t => (t.root.span, t.root.value)) =
        found.flatMap (fun x => x.2.map (fun (p : Nat) => (((p : Int), (p : Int) + x.1.length), Val.str x.1))) ∧
      ∀ t ∈ out, t.root.name = mo.name ∧ t.root.tags = mo.tags ∧ t.root.marker = mo.marker ∧ t.root.priv = mo.priv ∧ t.children = [] := by
  -- raw matches of each string
  have raw : ∃ (L : List (List MTree)) (found : List (Str × List Nat)),
      strings.map ((Pattern.init id { opts := mo }).matchString lower so input) = L.map Except.ok ∧
      found.map (fun x => x.1) = strings ∧ (∀ x ∈ found, Occurrences input x.1 so.start so.stop x.2) ∧
      L = found.map (fun x => x.2.map (fun (p : Nat) =>
        MTree.node ((Pattern.init id { opts := mo }).newMatch input p (p + x.1.length)) [])) := by
    induction strings with
    | nil => exact ⟨[], [], rfl, rfl, by simp, rfl⟩
    | cons s ss ih =>
      obtain ⟨L, found, h1, h2, h3, h4⟩ := ih (fun x hx => hne x (List.mem_cons_of_mem _ hx))
      have hs := hne s (List.mem_cons_self ..)
      obtain ⟨l, hl1, hl2⟩ := findAll_occurrences lower input s so.start so.stop so.ignoreCase (by rw [hic]; simpa using hs)
      rw [hic] at hl1 hl2
      simp only [Bool.false_eq_true, if_false] at hl1 hl2
      have hm : (Pattern.init id { opts := mo }).matchString lower so input s =
          .ok (l.map (fun (p : Nat) => MTree.node ((Pattern.init id { opts := mo }).newMatch input p (p + s.length)) [])) := by
        unfold Pattern.matchString
        rw [hic]
        simp only [Bool.false_eq_true, if_false]
        rw [hl1]
        simp only
        congr 1
        rw [List.filter_eq_self]
        intro t ht
        obtain ⟨i, _, rfl⟩ := List.mem_map.1 ht
        have : 0 < s.length := List.length_pos_iff.2 hs
        exact decide_eq_true (show ((i : Int) + s.length - i ≠ 0) by omega)
      refine ⟨l.map (fun (p : Nat) => MTree.node ((Pattern.init id { opts := mo }).newMatch input p (p + s.length)) []) :: L,
        (s, l) :: found, ?_, ?_, ?_, ?_⟩
      rotate_left
      · simp [h2]
      · intro x hx
        rcases List.mem_cons.1 hx with rfl | hx
        · exact hl2
        · exact h3 x hx
      · rw [List.map_cons, ← h4]
      · rw [List.map_cons, List.map_cons, h1, hm]
  obtain ⟨L, found, h1, h2, h3, h4⟩ := raw
  have hpos : ∀ x ∈ found, x.1 ≠ [] := by
    intro x hx
    apply hne
    rw [← h2]
    exact List.mem_map_of_mem hx
  -- processing
  let f : Nat → MTree → List MTree := fun i t => match (Pattern.init id { opts := mo }).processMatches i t with | .ok r => r | .error _ => []
  have hproc : ∀ (i : Nat) (x : Str × List Nat) (p : Nat), x ∈ found → p ∈ x.2 →
      ∃ T, (Pattern.init id { opts := mo }).processMatches i
          (.node ((Pattern.init id { opts := mo }).newMatch input p (p + x.1.length)) []) = .ok [T] ∧
        ConfiguredMatch { opts := mo } i false ((Pattern.init id { opts := mo }).newMatch input p (p + x.1.length)) T.root ∧ T.children = [] := by
    intro i x p hx _
    have : 0 < x.1.length := List.length_pos_iff.2 (hpos x hx)
    exact plain_emits id mo i _ (by show (p : Int) < (p : Int) + x.1.length; omega)
  have hok : ∀ l ∈ L, ∀ (k : Nat) t, l[k]? = some t → (Pattern.init id { opts := mo }).processMatches k t = .ok (f k t) := by
    intro l hl k t hk
    rw [h4] at hl
    obtain ⟨x, hx, rfl⟩ := List.mem_map.1 hl
    obtain ⟨p, hp, rfl⟩ := List.mem_map.1 (List.mem_of_getElem? hk)
    obtain ⟨T, hT, _⟩ := hproc k x p hx hp
    show _ = Except.ok (match (Pattern.init id { opts := mo }).processMatches k _ with | .ok r => r | .error _ => [])
    rw [hT]
  have hall := processAll_spec (Pattern.init id { opts := mo }).processMatches f L hok
  refine ⟨L.flatMap (fun l => l.zipIdx.flatMap (fun x => f x.2 x.1)), found, ?_, h2, h3, ?_, ?_⟩
  rotate_left
  · rw [h4, List.map_flatMap, List.flatMap_map]
    apply flatMap_congr_mem
    intro x hx
    have : ∀ (ps : List Nat) (k : Nat), (∀ p ∈ ps, p ∈ x.2) →
        List.map (fun t : MTree => (t.root.span, t.root.value)) (((ps.map (fun (p : Nat) =>
          MTree.node ((Pattern.init id { opts := mo }).newMatch input p (p + x.1.length)) [])).zipIdx k).flatMap (fun y => f y.2 y.1)) =
        ps.map (fun (p : Nat) => (((p : Int), (p : Int) + x.1.length), Val.str x.1)) := by
      intro ps
      induction ps with
      | nil => intro k _; rfl
      | cons p ps ih =>
        intro k hps
        obtain ⟨T, hT, hc, _⟩ := hproc k x p hx (hps p (List.mem_cons_self ..))
        have hfT : f k (MTree.node ((Pattern.init id { opts := mo }).newMatch input p (p + x.1.length)) []) = [T] := by
          show (match (Pattern.init id { opts := mo }).processMatches k _ with | .ok r => r | .error _ => []) = [T]
          rw [hT]
        rw [List.map_cons, List.zipIdx_cons, List.flatMap_cons, List.map_append, ih (k + 1) (fun q hq => hps q (List.mem_cons_of_mem _ hq)),
          List.map_cons]
        show List.map _ (f k _) ++ _ = _
        rw [hfT]
        have ho := ((h3 x hx).exact p).1 (hps p (List.mem_cons_self ..))
        have hl : 0 < x.1.length := List.length_pos_iff.2 (hpos x hx)
        have hraw : T.root.raw = .str x.1 := by
          rw [raw_of_span (n := x.1.length) (input := input) (pos := p) (hc.input.trans rfl) (hc.span.trans rfl)
            ⟨hc.raw.1.trans rfl, hc.raw.2.trans rfl⟩ ho.1.inside hl, occurs_take ho.1]
        have hval : T.root.value = .str x.1 := by
          unfold Match.value
          have hlit : T.root.lit = .none := (hc.noValue (by
            rw [← isTrue_iff]
            unfold chosen
            cases ((Pattern.init id { opts := mo }).newMatch input p (p + x.1.length)).name <;> simp [declared, Val.truthy])).trans rfl
          have hfm : T.root.formatter = some (fun v => v) := (hc.formatter (Or.inl (Or.inl rfl))).trans (by
            unfold chosen
            cases ((Pattern.init id { opts := mo }).newMatch input p (p + x.1.length)).name <;> simp [declared])
          rw [hlit, hfm]
          simp [Val.truthy, hraw]
        simp [hval, hc.span]
        rfl
    exact this x.2 0 (fun p hp => hp)
  · intro t ht
    obtain ⟨l, hl, ht⟩ := List.mem_flatMap.1 ht
    obtain ⟨⟨r, k⟩, hk, ht⟩ := List.mem_flatMap.1 ht
    rw [h4] at hl
    obtain ⟨x, hx, rfl⟩ := List.mem_map.1 hl
    have hr := (List.mem_zipIdx' hk).2
    have hr2 : r ∈ x.2.map (fun (p : Nat) => MTree.node ((Pattern.init id { opts := mo }).newMatch input p (p + x.1.length)) []) := by
      have := (List.mem_zipIdx' hk)
      rw [this.2]; exact List.getElem_mem _
    obtain ⟨p, hp, rfl⟩ := List.mem_map.1 hr2
    obtain ⟨T, hT, hc, hch⟩ := hproc k x p hx hp
    have hfT : f k (MTree.node ((Pattern.init id { opts := mo }).newMatch input p (p + x.1.length)) []) = [T] := by
      show (match (Pattern.init id { opts := mo }).processMatches k _ with | .ok r => r | .error _ => []) = [T]
      rw [hT]
    simp only at ht
    rw [hfT, List.mem_singleton] at ht
    subst ht
    refine ⟨hc.name.trans rfl, hc.tags.trans rfl, hc.marker.trans rfl, ?_, hch⟩
    rw [Bool.eq_iff_iff, hc.priv]
    simp [Named]
    rfl
  · unfold Pattern.runString Pattern.run
    rw [h1, collectRaws_ok]
    simp only [Pattern.matchesOf, hall]
    rfl

end Rebulk
