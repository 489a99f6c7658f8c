import Verif.Props.RawMatches
import Verif.Spec.PatternRun
/-!
# C106: what a whole pattern returns
-/
namespace Rebulk
open Spec

/-- Same as membership index by index. -/
theorem Spec.Each.of_getElem? {α β : Type} {R : α → β → Prop} : ∀ {as : List α} {bs : List β}, bs.length = as.length →
    (∀ (i : Nat) a b, as[i]? = some a → bs[i]? = some b → R a b) → Each R as bs
  | [], [], _, _ => .nil
  | [], _ :: _, h, _ => by cases h
  | _ :: _, [], h, _ => by cases h
  | a :: as, b :: bs, h, hR => .cons (hR 0 a b rfl rfl)
      (Spec.Each.of_getElem? (by simpa using h) (fun i x y hx hy => hR (i + 1) x y (by simpa using hx) (by simpa using hy)))

theorem after_total (f : Option (MTree → ProcRet)) (t : MTree) : ∃ r, After f t r := ⟨_, (after_iff f t _).2 rfl⟩

/-- One raw match: what is emitted, or `ValueError` because of a reversed match. -/
theorem processMatches_emits (id : Nat) (o : PatternOpts) (hf : Proper o.formatter) (hv : Proper o.validator) (idx : Nat) (t : MTree) :
    (∃ l, (Pattern.init id o).processMatches idx t = .ok l ∧ Emits o idx t l) ∨
      ((Pattern.init id o).processMatches idx t = .error .valueError ∧ ∃ (f : Option (MTree → ProcRet)) (x r : MTree),
        (f = o.preMatch ∧ x = t ∨ f = o.postMatch ∧ x.root.start < x.root.stop) ∧ After f x (some r) ∧ r.root.stop < r.root.start) := by
  obtain ⟨r, hr⟩ := after_total o.preMatch t
  cases r with
  | none => exact Or.inl ⟨[], processMatches_dropped id o idx t none hr (Or.inl rfl), .dropped hr⟩
  | some t1 =>
    rcases Int.lt_trichotomy t1.root.start t1.root.stop with hlt | heq | hgt
    · obtain ⟨V, T, h1, h2, h3, h4⟩ := processMatches_spec id o hf hv idx t t1 hr hlt
      by_cases ha : Accepted o V T
      · obtain ⟨r, hr'⟩ := after_total o.postMatch T
        obtain ⟨k1, k2, k3, k4⟩ := h4 ha r hr'
        cases r with
        | none => exact Or.inl ⟨[], k1 rfl, .droppedAfter hr hlt h1 h2 ha hr'⟩
        | some T' =>
          rcases Int.lt_trichotomy T'.root.start T'.root.stop with hl | he | hg
          · exact Or.inl ⟨_, k3 T' rfl hl, .emitted hr hlt h1 h2 ha hr' hl⟩
          · exact Or.inl ⟨_, k2 T' rfl he, .emptiedAfter hr hlt h1 h2 ha hr' he⟩
          · refine Or.inr ⟨?_, o.postMatch, T, T', Or.inr ⟨rfl, ?_⟩, hr', hg⟩
            · exact k4 T' rfl hg
            · have : T.root.span = t1.root.span := by rw [h2.root, h1.root.span]
              have e1 : T.root.start = t1.root.start := congrArg Prod.fst this
              have e2 : T.root.stop = t1.root.stop := congrArg Prod.snd this
              omega
      · exact Or.inl ⟨[], h3 ha, .refused hr hlt h1 h2 ha⟩
    · exact Or.inl ⟨[], processMatches_dropped id o idx t _ hr (Or.inr ⟨t1, rfl, heq⟩), .emptied hr heq⟩
    · refine Or.inr ⟨?_, o.preMatch, t, t1, Or.inl ⟨rfl, rfl⟩, hr, hgt⟩
      rw [after_iff] at hr
      unfold Pattern.processMatches Pattern.processMatchesWith
      have : (Pattern.init id o).preMatch = o.preMatch := rfl
      rw [this, hr, keepGoing_neg hgt]

theorem processRaws_emits (id : Nat) (o : PatternOpts) (hf : Proper o.formatter) (hv : Proper o.validator) : ∀ (l : List MTree) (i : Nat),
    (∃ out, Pattern.processRaws (Pattern.init id o).processMatches i l = .ok out ∧ EmitsAll o i l out) ∨
      (Pattern.processRaws (Pattern.init id o).processMatches i l = .error .valueError ∧ Reversed o l)
  | [], i => Or.inl ⟨[], rfl, .nil⟩
  | t :: ts, i => by
    unfold Pattern.processRaws
    rcases processMatches_emits id o hf hv i t with ⟨l, h1, h2⟩ | ⟨h1, f, x, r, hx, hr⟩
    · rw [h1]
      simp only
      rcases processRaws_emits id o hf hv ts (i + 1) with ⟨ls, h3, h4⟩ | ⟨h3, h4⟩
      · rw [h3]; exact Or.inl ⟨_, rfl, .cons h2 h4⟩
      · rw [h3]
        refine Or.inr ⟨rfl, ?_⟩
        rcases h4 with ⟨t', h, k⟩ | h
        · exact Or.inl ⟨t', List.mem_cons_of_mem _ h, k⟩
        · exact Or.inr h
    · rw [h1]
      refine Or.inr ⟨rfl, ?_⟩
      rcases hx with ⟨rfl, rfl⟩ | ⟨rfl, hx⟩
      · exact Or.inl ⟨x, List.mem_cons_self .., r, hr⟩
      · exact Or.inr ⟨x, r, hx, hr⟩

theorem processAll_emits (id : Nat) (o : PatternOpts) (hf : Proper o.formatter) (hv : Proper o.validator) : ∀ (L : List (List MTree)),
    (∃ parts, Pattern.processAll (Pattern.init id o).processMatches L = .ok parts.flatten ∧ Each (fun rs l => EmitsAll o 0 rs l) L parts) ∨
      (Pattern.processAll (Pattern.init id o).processMatches L = .error .valueError ∧ Reversed o L.flatten)
  | [] => Or.inl ⟨[], rfl, .nil⟩
  | l :: L => by
    unfold Pattern.processAll
    rcases processRaws_emits id o hf hv l 0 with ⟨a, h1, h2⟩ | ⟨h1, h2⟩
    · rw [h1]
      simp only
      rcases processAll_emits id o hf hv L with ⟨parts, h3, h4⟩ | ⟨h3, h4⟩
      · rw [h3]; exact Or.inl ⟨a :: parts, rfl, .cons h2 h4⟩
      · rw [h3]
        refine Or.inr ⟨rfl, ?_⟩
        rcases h4 with ⟨t', h, k⟩ | h
        · exact Or.inl ⟨t', List.mem_append.2 (Or.inr h), k⟩
        · exact Or.inr h
    · rw [h1]
      refine Or.inr ⟨rfl, ?_⟩
      rcases h2 with ⟨t', h, k⟩ | h
      · exact Or.inl ⟨t', List.mem_append.2 (Or.inl h), k⟩
      · exact Or.inr h

/-- Given raw matches, a pattern returns what it emits for them; or a reversed match makes it raise `ValueError`. -/
theorem matchesOf_returns (id : Nat) (o : PatternOpts) (hf : Proper o.formatter) (hv : Proper o.validator) (raws : List (List MTree)) :
    (∃ out, (Pattern.init id o).matchesOf raws = .ok out ∧ Returns o raws out) ∨
      ((Pattern.init id o).matchesOf raws = .error .valueError ∧ Reversed o raws.flatten) := by
  unfold Pattern.matchesOf
  rcases processAll_emits id o hf hv raws with ⟨parts, h1, h2⟩ | ⟨h1, h2⟩
  · rw [h1]
    exact Or.inl ⟨_, rfl, parts, h2, by unfold Pattern.postProcess; rw [show (Pattern.init id o).postProcessor = o.postProcessor from rfl]; cases o.postProcessor <;> rfl⟩
  · rw [h1]; exact Or.inr ⟨rfl, h2⟩

theorem collectRaws_found {α : Type} {R : α → List MTree → Prop} {f : α → Except PyErr (List MTree)} : ∀ {as : List α},
    (∀ a ∈ as, ∃ l, f a = .ok l ∧ R a l) → ∃ raws, collectRaws (as.map f) = .ok raws ∧ Each R as raws
  | [], _ => ⟨[], rfl, .nil⟩
  | a :: as, h => by
    obtain ⟨l, h1, h2⟩ := h a (List.mem_cons_self ..)
    obtain ⟨raws, h3, h4⟩ := collectRaws_found (R := R) (f := f) (as := as) (fun x hx => h x (List.mem_cons_of_mem _ hx))
    refine ⟨l :: raws, ?_, .cons h2 h4⟩
    rw [List.map_cons, h1]
    simp only [collectRaws, h3]

/-- When processors keep the order of positions, and so do the raw matches, nothing is raised. -/
theorem not_reversed {o : PatternOpts} (h1 : KeepsOrder o.preMatch) (h2 : KeepsOrder o.postMatch) {l : List MTree}
    (hl : ∀ t ∈ l, t.root.start ≤ t.root.stop) : ¬ Reversed o l := by
  rintro (⟨t, ht, r, hr, hlt⟩ | ⟨x, r, hx, hr, hlt⟩)
  · have := hl t ht
    cases hr with
    | absent _ => omega
    | unchanged _ _ _ => omega
    | replaced g _ hg hr => have := h1 g hg _ _ hr; omega
  · cases hr with
    | absent _ => omega
    | unchanged _ _ _ => omega
    | replaced g _ hg hr => have := h2 g hg _ _ hr; omega

theorem run_returns (id : Nat) (o : PatternOpts) (hf : Proper o.formatter) (hv : Proper o.validator) (h1 : KeepsOrder o.preMatch) (h2 : KeepsOrder o.postMatch)
    {α : Type} {R : α → List MTree → Prop} {f : α → Except PyErr (List MTree)} {as : List α} (h : ∀ a ∈ as, ∃ l, f a = .ok l ∧ R a l)
    (hR : ∀ a ∈ as, ∀ l, R a l → ∀ t ∈ l, t.root.start ≤ t.root.stop) :
    ∃ raws out, (Pattern.init id o).run (as.map f) = .ok out ∧ Each R as raws ∧ Returns o raws out := by
  obtain ⟨raws, hc, he⟩ := collectRaws_found h
  unfold Pattern.run
  rw [hc]
  simp only
  rcases matchesOf_returns id o hf hv raws with ⟨out, h3, h4⟩ | ⟨h5, h3⟩
  · exact ⟨raws, out, h3, he, h4⟩
  · refine absurd h3 (not_reversed h1 h2 ?_)
    clear hc h3 h h5
    intro t ht
    induction he with
    | nil => cases ht
    | @cons a b as bs hab hrest ih =>
      rw [List.flatten_cons] at ht
      rcases List.mem_append.1 ht with ht | ht
      · exact hR a (List.mem_cons_self ..) b hab t ht
      · exact ih (fun x hx => hR x (List.mem_cons_of_mem _ hx)) ht

theorem each_mem_right {α β : Type} {R : α → β → Prop} {as : List α} {bs : List β} (h : Each R as bs) : ∀ b ∈ bs, ∃ a ∈ as, R a b := by
  induction h with
  | nil => intro b hb; cases hb
  | cons hab _ ih =>
    intro b hb
    rcases List.mem_cons.1 hb with rfl | hb
    · exact ⟨_, List.mem_cons_self .., hab⟩
    · obtain ⟨a, ha, hr⟩ := ih b hb
      exact ⟨a, List.mem_cons_of_mem _ ha, hr⟩

variable {Ctx : Type}

/-- **C106**, strings. -/
theorem C106_strings (id : Nat) (o : PatternOpts) (info : PatternInfo Ctx) (lower : Str → Str) (so : StringOpts) (strings : List Str) (input : Str)
    (hf : Proper o.formatter) (hv : Proper o.validator) (h1 : KeepsOrder o.preMatch) (h2 : KeepsOrder o.postMatch)
    (hs : ∀ s ∈ strings, s ≠ [] ∧ (so.ignoreCase = true → lower s ≠ [])) :
    ∃ raws out, (PatternObj.string info (Pattern.init id o) so strings).matches_ lower input = .ok out ∧
      Each (StringRaws id o lower so input) strings raws ∧ Returns o raws out := by
  rw [(C91_same_matches lower info (Pattern.init id o) input).1]
  refine run_returns id o hf hv h1 h2 (R := StringRaws id o lower so input) ?_ ?_
  · intro s hs'
    obtain ⟨l, ps, k1, k2, k3, k4⟩ := C42_string_occurrences id o lower so input s (hs s hs').1 (hs s hs').2
    exact ⟨l, k1, ps, k2, .of_getElem? k3 (fun i pos t hp ht => k4 i t pos ht hp)⟩
  · rintro s _ l ⟨ps, _, he⟩ t ht
    obtain ⟨pos, _, hm, _⟩ := each_mem_right he t ht
    have e1 : t.root.start = _ := congrArg Prod.fst hm.span
    have e2 : t.root.stop = _ := congrArg Prod.snd hm.span
    simp only at e1 e2
    omega

/-- **C106**, regular expressions. -/
theorem C106_regexes (id : Nat) (o : PatternOpts) (info : PatternInfo Ctx) (lower : Str → Str) (rc : Bool) (regexes : List Regex) (input : Str)
    (hf : Proper o.formatter) (hv : Proper o.validator) (h1 : KeepsOrder o.preMatch) (h2 : KeepsOrder o.postMatch) (hm : o.opts.marker = false)
    (hg : ∀ re ∈ regexes, ∀ obj ∈ re.finditer input, obj.start ≤ obj.stop ∧ ∀ g ∈ obj.groups, EngineGroup g) :
    ∃ raws out, (PatternObj.regex info (Pattern.init id o) rc regexes).matches_ lower input = .ok out ∧
      Each (RegexRaws id o rc input) regexes raws ∧ Returns o raws out := by
  rw [(C91_same_matches lower info (Pattern.init id o) input).2.1]
  refine run_returns id o hf hv h1 h2 (f := fun re => (Pattern.init id o).matchRegex rc re input)
    (R := fun re l => RegexRaws id o rc input re l) ?_ ?_
  · intro re hre
    obtain ⟨l, k1, k2, k3⟩ := C43_regex_children id o hm rc re input (fun obj ho => (hg re hre obj ho).2)
    exact ⟨l, k1, .of_getElem? k2 k3⟩
  · intro re hre l he t ht
    obtain ⟨obj, ho, hmm⟩ := each_mem_right he t ht
    have e1 : t.root.start = _ := congrArg Prod.fst hmm.main.span
    have e2 : t.root.stop = _ := congrArg Prod.snd hmm.main.span
    have := (hg re hre obj (List.mem_filter.1 ho).1).1
    simp only at e1 e2
    omega

/-- **C106**, functions. -/
theorem C106_functions (id : Nat) (o : PatternOpts) (info : PatternInfo Ctx) (lower : Str → Str) (functions : List (Str → FRet)) (input : Str)
    (hf : Proper o.formatter) (hv : Proper o.validator) (h1 : KeepsOrder o.preMatch) (h2 : KeepsOrder o.postMatch)
    (results : (Str → FRet) → List (FRet × (Int × Int) × MatchArgs))
    (hr : ∀ f ∈ functions, ReturnsResults o.opts.name.isSome (f input) (results f)) :
    ∃ raws out, (PatternObj.functional info (Pattern.init id o) functions).matches_ lower input = .ok out ∧
      Each (fun f l => FunctionRaws id o input (results f) l) functions raws ∧ Returns o raws out := by
  rw [(C91_same_matches lower info (Pattern.init id o) input).2.2]
  refine run_returns id o hf hv h1 h2 (f := fun f => (Pattern.init id o).matchFunctional f input)
    (R := fun f l => FunctionRaws id o input (results f) l) ?_ ?_
  · intro f hf'
    obtain ⟨hd, hsh⟩ := hr f hf'
    rcases hsh with ⟨hn, hrs⟩ | ⟨x, hrs, hx⟩ | hl | hl
    · exact ⟨[], C44_functional_none id o f input (Or.inl hn), by unfold FunctionRaws; rw [hrs]; exact .nil⟩
    · have hdx := hd x (by rw [hrs]; exact List.mem_singleton_self _)
      rw [← hx] at hdx
      obtain ⟨l, k1, k2, k3⟩ := C44_functional_one id o f input _ _ _ hdx.1 hdx.2
      refine ⟨l, k1, ?_⟩
      unfold FunctionRaws
      rw [hrs]
      by_cases hse : x.2.1.1 = x.2.1.2
      · rw [if_neg (by simpa using hse), List.length_eq_zero_iff] at k2
        rw [k2, List.filter_cons_of_neg (by simpa using hse)]
        exact .nil
      · rw [if_pos hse] at k2
        obtain ⟨t, rfl⟩ := List.length_eq_one_iff.1 k2
        rw [List.filter_cons_of_pos (by simpa using hse)]
        exact .cons (k3 t (List.mem_singleton_self _)) .nil
    · obtain ⟨l, k1, k2, k3⟩ := C44_functional_many id o f input (results f) (Or.inl hl) hd
      exact ⟨l, k1, .of_getElem? k2 k3⟩
    · obtain ⟨l, k1, k2, k3⟩ := C44_functional_many id o f input (results f) (Or.inr hl) hd
      exact ⟨l, k1, .of_getElem? k2 k3⟩
  · intro f hf' l he t ht
    obtain ⟨x, hx, hmm⟩ := each_mem_right he t ht
    have e1 : t.root.start = _ := congrArg Prod.fst hmm.1.span
    have e2 : t.root.stop = _ := congrArg Prod.snd hmm.1.span
    have := ((hr f hf').1 x (List.mem_filter.1 hx).1).2
    simp only at e1 e2
    omega

/-- A pattern of two strings whose matches are refused when they start at 1, and then reversed by the post-processor: its result on `abab`. -/
def runDemo : PatternOpts :=
  { opts := { name := some "n" }, validator := .one (some (fun t => t.root.start != 1)), postProcessor := some List.reverse }

example : ∃ raws out, (PatternObj.string (Ctx := Unit) {} (Pattern.init 0 runDemo) {} ["a".toList, "b".toList]).matches_ (fun s => s) "abab".toList = .ok out ∧
    Each (StringRaws 0 runDemo (fun s => s) {} "abab".toList) ["a".toList, "b".toList] raws ∧ Returns runDemo raws out :=
  C106_strings 0 runDemo {} _ _ _ _ (by intro a h; cases h) (by intro a h; cases h; simp) (by intro g h; cases h) (by intro g h; cases h)
    (by intro s hs; simp at hs; rcases hs with rfl | rfl <;> exact ⟨by simp, by intro h; cases h⟩)

example : ∃ x y z, (PatternObj.string (Ctx := Unit) {} (Pattern.init 0 runDemo) {} ["a".toList, "b".toList]).matches_ (fun s => s) "abab".toList = .ok [x, y, z] ∧
    x.root.span = (3, 4) ∧ y.root.span = (2, 3) ∧ z.root.span = (0, 1) := ⟨_, _, _, rfl, rfl, rfl, rfl⟩

/-- Two regular expressions, the second one with a group that is asked for. -/
def runDemoRe : List Regex :=
  [{ names := [], finditer := fun _ => [{ start := 1, stop := 2, groups := [] }, { start := 3, stop := 3, groups := [] }] },
   { names := [some "g"], finditer := fun _ => [{ start := 0, stop := 3, groups := [{ span := (1, 3), spans := [(1, 3)] }] }] }]

example : ∃ raws out, (PatternObj.regex (Ctx := Unit) {} (Pattern.init 0 { every := true }) false runDemoRe).matches_ (fun s => s) "abab".toList = .ok out ∧
    Each (RegexRaws 0 { every := true } false "abab".toList) runDemoRe raws ∧ Returns { every := true } raws out :=
  C106_regexes 0 { every := true } {} _ _ _ _ (by intro a h; cases h) (by intro a h; cases h) (by intro g h; cases h) (by intro g h; cases h) rfl
    (by
      intro re hre obj ho
      simp only [runDemoRe, List.mem_cons, List.not_mem_nil, or_false] at hre
      rcases hre with rfl | rfl
      · simp only [List.mem_cons, List.not_mem_nil, or_false] at ho
        rcases ho with rfl | rfl <;> exact ⟨by decide, by intro g hg; cases hg⟩
      · simp only [List.mem_cons, List.not_mem_nil, or_false] at ho
        subst ho
        refine ⟨by decide, ?_⟩
        intro g hg
        simp only [List.mem_cons, List.not_mem_nil, or_false] at hg
        subst hg
        exact ⟨Or.inr (by decide), by intro sp hs; simp only [List.mem_cons, List.not_mem_nil, or_false] at hs; subst hs; decide⟩)

example : ∃ x y z, (PatternObj.regex (Ctx := Unit) {} (Pattern.init 0 { every := true }) false runDemoRe).matches_ (fun s => s) "abab".toList = .ok [x, y, z] ∧
    x.root.span = (1, 2) ∧ y.root.span = (0, 3) ∧ z.root.span = (1, 3) ∧ z.root.name = some "g" ∧ x.root.matchIndex = 0 ∧ y.root.matchIndex = 0 :=
  ⟨_, _, _, rfl, rfl, rfl, rfl, rfl, rfl, rfl⟩

/-- Two functions: a single span with a bool as a start, and a list of a dict and an empty span. -/
def runDemoFn : List (Str → FRet) :=
  [fun _ => .seq [.val (.bool true), .val (.int 3)],
   fun _ => .seq [.dict { start := some 0, stop := some 2, name := some (some "d") }, .seq [.val (.int 1), .val (.int 1)]]]

example : ∃ x y, (PatternObj.functional (Ctx := Unit) {} (Pattern.init 0 {}) runDemoFn).matches_ (fun s => s) "abab".toList = .ok [x, y] ∧
    x.root.span = (1, 3) ∧ y.root.span = (0, 2) ∧ y.root.name = some "d" := ⟨_, _, rfl, rfl, rfl, rfl⟩

example : ReturnsResults false (.seq [.val (.bool true), .val (.int 3)]) [(.seq [.val (.bool true), .val (.int 3)], (1, 3), {})] :=
  ⟨by intro x hx; rw [List.mem_singleton] at hx; subst hx; exact ⟨.span .true_ (.int 3), by decide⟩, Or.inr (Or.inl ⟨_, rfl, rfl⟩)⟩

example : ReturnsResults false (.seq [.dict { start := some 0, stop := some 2, name := some (some "d") }, .seq [.val (.int 1), .val (.int 1)]])
    [(.dict { start := some 0, stop := some 2, name := some (some "d") }, (0, 2), { start := some 0, stop := some 2, name := some (some "d") }),
     (.seq [.val (.int 1), .val (.int 1)], (1, 1), {})] := by
  refine ⟨?_, Or.inr (Or.inr (Or.inl rfl))⟩
  intro x hx
  simp only [List.mem_cons, List.not_mem_nil, or_false] at hx
  rcases hx with rfl | rfl
  · exact ⟨.dict _ rfl rfl, by decide⟩
  · exact ⟨.span (.int 1) (.int 1), by decide⟩

end Rebulk
