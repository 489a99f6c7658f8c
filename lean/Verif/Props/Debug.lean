import Verif.Spec.Debug
/-!
# Length and truth of matches (C113); debugging switches (C114)
-/
namespace Rebulk
open Spec

/-! ## C113 -/

theorem covered_range (m : Match) : CoveredBy m (pyRange m.start m.stop) := by
  constructor
  · unfold pyRange
    rw [List.Nodup, List.pairwise_map]
    exact List.Pairwise.imp (fun {a b} h e => h (by omega)) List.nodup_range
  · intro i
    unfold pyRange Covers
    simp only [List.mem_map, List.mem_range]
    constructor
    · rintro ⟨k, hk, rfl⟩; omega
    · rintro ⟨h1, h2⟩; exact ⟨(i - m.start).toNat, by omega, by omega⟩

theorem covered_length {m : Match} {l : List Int} (h : CoveredBy m l) : l.length = (m.stop - m.start).toNat := by
  have hp : l.Perm (pyRange m.start m.stop) := by
    refine (List.perm_ext_iff_of_nodup h.1 (covered_range m).1).2 ?_
    intro i
    rw [h.2 i, (covered_range m).2 i]
  rw [hp.length_eq]
  unfold pyRange
  simp

/-- **C113**: the length of a match is the number of indexes it covers. -/
theorem C113_length (m : Match) {l : List Int} (h : CoveredBy m l) (hm : m.start ≤ m.stop) : m.len? = .ok (l.length : Int) := by
  unfold Match.len?
  rw [if_neg (by omega), covered_length h]
  congr 1
  omega

/-- **C113**: a match that ends before it starts has no length and no truth value. -/
theorem C113_reversed (m : Match) : (m.stop < m.start ↔ m.len? = .error .valueError) ∧ (m.stop < m.start ↔ m.truthy? = .error .valueError) := by
  unfold Match.len? Match.truthy?
  constructor <;> constructor
  · intro h; rw [if_pos (by omega)]
  · intro h
    split at h
    · omega
    · cases h
  · intro h; rw [if_pos (by omega)]
  · intro h
    split at h
    · omega
    · cases h

/-- **C113**: a match is true when it covers an index, false when it does not, whatever its value and name. -/
theorem C113_truth (m : Match) (hm : m.start ≤ m.stop) :
    (m.truthy? = .ok true ↔ ∃ i, Covers m i) ∧ (m.truthy? = .ok false ↔ ¬ ∃ i, Covers m i) := by
  have key : m.truthy? = .ok (decide (m.start < m.stop)) := by
    unfold Match.truthy?
    rw [if_neg (by omega)]
    congr 1
    by_cases h : m.start < m.stop
    · simp [h]; omega
    · simp [h]; omega
  have hc : (∃ i, Covers m i) ↔ m.start < m.stop := by
    constructor
    · rintro ⟨i, h1, h2⟩; omega
    · intro h; exact ⟨m.start, by omega, h⟩
  rw [key, hc]
  constructor
  · simp
  · simp

/-- **C113**: inside its (non empty) input string, a match whose raw start and end are not set is as long as its raw text, which is the text at the indexes
covered. -/
theorem C113_raw (m : Match) {s : Str} (hs : m.inputString = some s) (hne : s ≠ []) (h0 : 0 ≤ m.start) (h1 : m.start ≤ m.stop) (h2 : m.stop ≤ s.length)
    (hr : m.rawStart = none) (hr' : m.rawStop = none) :
    ∃ x, m.raw = .str x ∧ m.len? = .ok (x.length : Int) ∧ ∀ k : Nat, k < x.length → x[k]? = s[(m.start + k).toNat]? := by
  have hi : s.isEmpty = false := by cases s with | nil => exact absurd rfl hne | cons => rfl
  refine ⟨pySlice s (some m.start) (some m.stop), ?_, ?_, ?_⟩
  · unfold Match.raw Match.rawStartOf Match.rawEndOf
    rw [hs, hr, hr']
    simp only [hi, Option.getD_none]
    rfl
  · unfold Match.len? pySlice clampIdx
    rw [if_neg (by omega)]
    congr 1
    simp only [List.length_drop, List.length_take]
    rw [if_neg (by omega), if_neg (by omega)]
    omega
  · intro k hk
    have e : pySlice s (some m.start) (some m.stop) = (s.take m.stop.toNat).drop m.start.toNat := by
      unfold pySlice clampIdx
      simp only
      rw [if_neg (c := m.stop < 0) (by omega), if_neg (c := m.start < 0) (by omega), Nat.min_eq_left (by omega), Nat.min_eq_left (by omega)]
    rw [e] at hk ⊢
    simp only [List.length_drop, List.length_take] at hk
    rw [List.getElem?_drop, List.getElem?_take, if_pos (by omega)]
    congr 1
    omega

/-- A match of two characters whose value is empty is true all the same; an empty one with a value is false. -/
example : let m : Match := { start := 1, stop := 3, inputString := some "abcd".toList }
    let z : Match := { start := 2, stop := 2, lit := .int 7 }
    m.len? = .ok 2 ∧ m.raw = .str "bc".toList ∧ m.truthy? = .ok true ∧ z.value = .int 7 ∧ z.truthy? = .ok false ∧
    ({ start := 3, stop := 1 } : Match).len? = .error .valueError := ⟨rfl, rfl, rfl, rfl, rfl, rfl⟩

example : CoveredBy { start := 1, stop := 3 } [2, 1] := by
  refine ⟨by decide, ?_⟩
  intro i
  unfold Covers
  simp only [List.mem_cons, List.not_mem_nil, or_false]
  omega

/-! ## C114 -/

theorem frameOutside_some {own : Option String} : ∀ {stack : List StackFrame} {f : StackFrame},
    frameOutside own stack = some f → InnermostOutside own stack f
  | [], f, h => by cases h
  | g :: fs, f, h => by
    unfold frameOutside at h
    cases hp : g.package with
    | none =>
      rw [hp] at h
      cases h
      exact ⟨[], fs, rfl, by simp, by unfold OwnFrame; rw [hp]; simp⟩
    | some p =>
      rw [hp] at h
      simp only at h
      by_cases ho : p = own
      · rw [if_neg (by simpa using ho)] at h
        obtain ⟨inner, outer, e, h1, h2⟩ := frameOutside_some h
        refine ⟨g :: inner, outer, by rw [e]; rfl, ?_, h2⟩
        intro x hx
        rcases List.mem_cons.1 hx with rfl | hx
        · unfold OwnFrame; rw [hp, ho]
        · exact h1 x hx
      · rw [if_pos ho] at h
        cases h
        refine ⟨[], fs, rfl, by simp, ?_⟩
        unfold OwnFrame
        rw [hp]
        intro e
        exact ho (Option.some.inj e)

theorem frameOutside_none {own : Option String} : ∀ {stack : List StackFrame}, frameOutside own stack = none → ∀ g ∈ stack, OwnFrame own g
  | [], _ => by simp
  | g :: fs, h => by
    unfold frameOutside at h
    cases hp : g.package with
    | none => rw [hp] at h; cases h
    | some p =>
      rw [hp] at h
      simp only at h
      by_cases ho : p = own
      · rw [if_neg (by simpa using ho)] at h
        intro x hx
        rcases List.mem_cons.1 hx with rfl | hx
        · unfold OwnFrame; rw [hp, ho]
        · exact frameOutside_none h x hx
      · rw [if_pos ho] at h; cases h

theorem innermost_unique {own : Option String} {stack : List StackFrame} {f g : StackFrame} (hf : InnermostOutside own stack f)
    (hg : InnermostOutside own stack g) : f = g := by
  obtain ⟨i1, o1, e1, a1, b1⟩ := hf
  obtain ⟨i2, o2, e2, a2, b2⟩ := hg
  rw [e1] at e2
  clear e1
  induction i1 generalizing i2 with
  | nil =>
    cases i2 with
    | nil => exact (List.cons.inj e2).1
    | cons x xs =>
      have := (List.cons.inj e2).1
      exact absurd (a2 x (by simp)) (by rw [← this]; exact b1)
  | cons y ys ih =>
    cases i2 with
    | nil =>
      have := (List.cons.inj e2).1
      exact absurd (a1 y (by simp)) (by rw [this]; exact b2)
    | cons x xs =>
      exact ih (fun z h => a1 z (List.mem_cons_of_mem _ h)) _ (List.cons.inj e2).2 (fun z h => a2 z (List.mem_cons_of_mem _ h))

/-- **C114**: with debugging on, an object is reported to be defined at the innermost frame outside of rebulk. -/
theorem C114_defined_at (own : Option String) (stack : List StackFrame) (f : StackFrame) (h : InnermostOutside own stack f) :
    definedAt true own stack = .ok (some ⟨f.lineno, f.package.getD none, f.name, f.filename⟩) := by
  unfold definedAt
  simp only [if_true]
  cases hf : frameOutside own stack with
  | none =>
    obtain ⟨_, _, e, _, hn⟩ := h
    exact absurd (frameOutside_none hf f (by rw [e]; simp)) hn
  | some g => rw [innermost_unique (frameOutside_some hf) h]

/-- **C114**: it raises only if there is no such frame, and nothing is reported with debugging off. -/
theorem C114_otherwise (own : Option String) (stack : List StackFrame) :
    definedAt false own stack = .ok none ∧
    (definedAt true own stack = .error .attributeError ↔ ∀ g ∈ stack, OwnFrame own g) := by
  refine ⟨rfl, ?_⟩
  unfold definedAt
  simp only [if_true]
  cases hf : frameOutside own stack with
  | none => simp only [true_iff]; exact frameOutside_none hf
  | some g =>
    constructor
    · intro h; cases h
    · intro h
      obtain ⟨_, _, e, _, hn⟩ := frameOutside_some hf
      exact absurd (h g (by rw [e]; simp)) hn

theorem blank_iff {c : Char} : isBlank c = true ↔ BlankChar c := by
  unfold isBlank BlankChar
  simp only [Bool.or_eq_true, beq_iff_eq, or_assoc]

theorem takeWhile_blank (s : Str) : ∀ c ∈ s.takeWhile isBlank, BlankChar c := by
  intro c hc
  exact blank_iff.1 (List.all_eq_true.1 List.all_takeWhile c hc)

theorem strip_split (s : Str) : ∃ before after, s = before ++ stripBlanks s ++ after ∧ (∀ c ∈ before, BlankChar c) ∧ (∀ c ∈ after, BlankChar c) := by
  refine ⟨s.takeWhile isBlank, ((s.dropWhile isBlank).reverse.takeWhile isBlank).reverse, ?_, takeWhile_blank s, ?_⟩
  · unfold stripBlanks
    rw [List.append_assoc, ← List.reverse_append, List.takeWhile_append_dropWhile, List.reverse_reverse, List.takeWhile_append_dropWhile]
  · intro c hc
    exact takeWhile_blank _ c (List.mem_reverse.1 hc)

theorem strip_solid {before w after : Str} (hb : ∀ c ∈ before, BlankChar c) (ha : ∀ c ∈ after, BlankChar c) (hw : w ≠ [])
    (hh : ∀ c, w.head? = some c → ¬ BlankChar c) (hl : ∀ c, w.getLast? = some c → ¬ BlankChar c) : stripBlanks (before ++ w ++ after) = w := by
  have h1 : (before ++ w ++ after).dropWhile isBlank = w ++ after := by
    rw [List.append_assoc, List.dropWhile_append_of_pos (fun c hc => blank_iff.2 (hb c hc))]
    cases w with
    | nil => exact absurd rfl hw
    | cons c cs =>
      rw [List.cons_append, List.dropWhile_cons_of_neg]
      rw [blank_iff]; exact hh c rfl
  unfold stripBlanks
  rw [h1, List.reverse_append, List.dropWhile_append_of_pos (fun c hc => blank_iff.2 (ha c (List.mem_reverse.1 hc)))]
  cases hr : w.reverse with
  | nil => exact absurd (List.reverse_eq_nil_iff.1 hr) hw
  | cons c cs =>
    rw [List.dropWhile_cons_of_neg, ← hr, List.reverse_reverse]
    rw [blank_iff]
    apply hl c
    rw [← List.head?_reverse, hr]; rfl

theorem blank_lower {c : Char} (h : BlankChar c) : BlankChar c.toLower := by
  rcases h with rfl | rfl | rfl | rfl | rfl | rfl <;> (unfold BlankChar; decide)

theorem affirmative_mem {w : Str} : ["1".toList, "true".toList, "yes".toList, "on".toList].contains (w.map Char.toLower) = true ↔ Affirmative w := by
  unfold Affirmative
  rw [List.contains_iff_mem]
  simp only [List.mem_cons, List.not_mem_nil, or_false]
  rfl

theorem affirmative_solid {w : Str} (h : Affirmative w) : w ≠ [] ∧ (∀ c, w.head? = some c → ¬ BlankChar c) ∧ (∀ c, w.getLast? = some c → ¬ BlankChar c) := by
  have key : ∀ v : Str, w.map Char.toLower = v → v ≠ [] → (∀ c ∈ v, ¬ BlankChar c) →
      w ≠ [] ∧ (∀ c, w.head? = some c → ¬ BlankChar c) ∧ (∀ c, w.getLast? = some c → ¬ BlankChar c) := by
    intro v hv hne hb
    have hall : ∀ c ∈ w, ¬ BlankChar c := fun c hc hbl => hb c.toLower (by rw [← hv]; exact List.mem_map_of_mem hc) (blank_lower hbl)
    refine ⟨by rintro rfl; exact hne hv.symm, ?_, ?_⟩
    · intro c hc; exact hall c (List.mem_of_mem_head? hc)
    · intro c hc; exact hall c (List.mem_of_getLast? hc)
  rcases h with h | h | h | h <;> refine key _ h (by simp) ?_ <;> intro c hc <;> simp only [List.mem_cons, List.not_mem_nil, or_false] at hc
  · subst hc; unfold BlankChar; decide
  · rcases hc with rfl | rfl | rfl | rfl <;> (unfold BlankChar; decide)
  · rcases hc with rfl | rfl | rfl <;> (unfold BlankChar; decide)
  · rcases hc with rfl | rfl <;> (unfold BlankChar; decide)

/-- **C114**: the environment switches the check of declared keys on exactly when its variable is set to one of the four words, in any case and with blanks
around it or not. -/
theorem C114_switch (env : Option Str) : truthyEnv env = true ↔ ∃ s, env = some s ∧ SwitchesOn s := by
  unfold truthyEnv
  rw [affirmative_mem]
  constructor
  · intro h
    cases env with
    | none => exact absurd rfl (affirmative_solid h).1
    | some s =>
      obtain ⟨b, a, e, hb, ha⟩ := strip_split s
      exact ⟨s, rfl, b, stripBlanks s, a, e, hb, ha, h⟩
  · rintro ⟨s, rfl, b, w, a, e, hb, ha, hw⟩
    obtain ⟨h1, h2, h3⟩ := affirmative_solid hw
    show Affirmative (stripBlanks s)
    rw [e, strip_solid hb ha h1 h2 h3]
    exact hw

example : truthyEnv (some " TruE\n".toList) = true ∧ truthyEnv (some "0".toList) = false ∧ truthyEnv none = false ∧ truthyEnv (some "o n".toList) = false := by
  decide

/-- A rule module of the user calls the builder, which calls `defined_at`. -/
def debugStack : List StackFrame :=
  [⟨64, some (some "rebulk"), some "rebulk.debug", "debug.py"⟩, ⟨12, some (some "rebulk"), some "rebulk.match", "match.py"⟩,
   ⟨7, some none, some "__main__", "app.py"⟩, ⟨3, some (some "rebulk"), some "rebulk.x", "x.py"⟩]

example : InnermostOutside (some "rebulk") debugStack ⟨7, some none, some "__main__", "app.py"⟩ ∧
    definedAt true (some "rebulk") debugStack = .ok (some ⟨7, none, some "__main__", "app.py"⟩) := by
  refine ⟨⟨debugStack.take 2, debugStack.drop 3, rfl, ?_, ?_⟩, rfl⟩
  · intro g hg
    simp only [debugStack, List.take, List.mem_cons, List.not_mem_nil, or_false] at hg
    rcases hg with rfl | rfl <;> rfl
  · unfold OwnFrame; simp

end Rebulk
