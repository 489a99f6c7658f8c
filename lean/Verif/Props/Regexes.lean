import Verif.Spec.Regexes
/-!
# Abbreviations and flags of regular expressions (`C103`)
-/
namespace Rebulk
open Spec

/-! ## `str.replace` -/

theorem replaceFrom_skip (k r : Str) : ∀ (n : Nat) (s : Str), replaceFrom k r n s = replaceFrom k r 0 (s.drop n)
  | 0, s => by simp
  | n + 1, [] => by simp [replaceFrom]
  | n + 1, c :: s => by simp only [replaceFrom, List.drop_succ_cons]; exact replaceFrom_skip k r n s

theorem isPrefixOf_split {k s : Str} (h : k.isPrefixOf s = true) : ∃ t, s = k ++ t := by
  obtain ⟨t, ht⟩ := List.isPrefixOf_iff_prefix.1 h
  exact ⟨t, ht.symm⟩

theorem replaceFrom_replaced {k : Str} (hk : k ≠ []) (r : Str) : ∀ (n : Nat) (s : Str), s.length ≤ n → Replaced k r s (replaceFrom k r 0 s)
  | _, [], _ => by
    refine .none ?_
    intro p t h
    have := congrArg List.length h
    have hl : k.length ≠ 0 := by simpa using hk
    simp at this
    omega
  | 0, c :: s, h => by simp at h
  | n + 1, c :: s, h => by
    simp only [List.length_cons] at h
    by_cases hp : k.isPrefixOf (c :: s) = true
    · obtain ⟨t, ht⟩ := isPrefixOf_split hp
      have hs : replaceFrom k r 0 (c :: s) = r ++ replaceFrom k r 0 t := by
        simp only [replaceFrom]
        rw [if_pos hp, replaceFrom_skip]
        have : s.drop (k.length - 1) = t := by
          cases k with
          | nil => exact absurd rfl hk
          | cons a k =>
            simp only [List.cons_append, List.cons.injEq] at ht
            rw [ht.2]; simp
        rw [this]
      have hlen : t.length ≤ n := by
        have := congrArg List.length ht
        have hl : k.length ≠ 0 := by simpa using hk
        simp at this
        omega
      rw [hs, ht]
      exact Replaced.first (p := []) hk (by intro p' u _; exact Nat.zero_le _) (replaceFrom_replaced hk r n t hlen)
    · have hs : replaceFrom k r 0 (c :: s) = c :: replaceFrom k r 0 s := by
        simp only [replaceFrom]
        rw [if_neg hp]
      rw [hs]
      have hno : ∀ t, c :: s ≠ k ++ t := by
        intro t he
        exact hp (List.isPrefixOf_iff_prefix.2 ⟨t, he.symm⟩)
      have ih := replaceFrom_replaced hk r n s (by omega)
      generalize hx : replaceFrom k r 0 s = x at ih
      cases ih with
      | emptyEnd h0 => exact absurd ‹k = []› hk
      | emptyChar h0 _ => exact absurd ‹k = []› hk
      | none hn =>
        refine .none ?_
        intro p t he
        cases p with
        | nil => exact hno t he
        | cons a p =>
          simp only [List.cons_append, List.cons.injEq] at he
          exact hn p t he.2
      | @first p t t' _ hf hr =>
        refine Replaced.first (p := c :: p) hk ?_ hr
        intro p' u he
        cases p' with
        | nil => exact absurd he (hno u)
        | cons a p' =>
          simp only [List.cons_append, List.cons.injEq] at he
          have := hf p' u he.2
          simp only [List.length_cons]
          omega

theorem pyReplace_replaced (k r s : Str) : Replaced k r s (pyReplace k r s) := by
  by_cases hk : k = []
  · subst hk
    show Replaced [] r s (s.flatMap (fun c => r ++ [c]) ++ r)
    induction s with
    | nil => exact .emptyEnd rfl
    | cons c s ih =>
      have : (c :: s).flatMap (fun c => r ++ [c]) ++ r = r ++ c :: (s.flatMap (fun c => r ++ [c]) ++ r) := by simp
      rw [this]
      exact .emptyChar rfl ih
  · unfold pyReplace
    rw [if_neg (by simpa using hk)]
    exact replaceFrom_replaced hk r s.length s (Nat.le_refl _)

/-- The specification determines the text. -/
theorem replaced_unique {k r : Str} {s s₁ : Str} (h₁ : Replaced k r s s₁) : ∀ {s₂ : Str}, Replaced k r s s₂ → s₁ = s₂ := by
  induction h₁ with
  | emptyEnd hk =>
    intro s₂ h₂
    generalize he : ([] : Str) = s at h₂
    cases h₂ with
    | emptyEnd _ => rfl
    | emptyChar _ _ => cases he
    | none hn => exact absurd (by simp [hk]) (hn [] s₂)
    | first hk' _ _ => exact absurd hk hk'
  | @emptyChar c t t' hk hr ih =>
    intro s₂ h₂
    generalize he : c :: t = s at h₂
    cases h₂ with
    | emptyEnd _ => cases he
    | emptyChar _ hr' =>
      cases he
      rw [ih hr']
    | none hn => exact absurd (by simp [hk]) (hn [] s₂)
    | first hk' _ _ => exact absurd hk hk'
  | @none s hn =>
    intro s₂ h₂
    cases h₂ with
    | emptyEnd hk => subst hk; exact absurd rfl (hn [] [])
    | emptyChar hk _ => subst hk; exact absurd rfl (hn [] _)
    | none _ => rfl
    | first _ _ _ => exact absurd rfl (hn _ _)
  | @first p t t' hk hf hr ih =>
    intro s₂ h₂
    generalize he : p ++ k ++ t = s at h₂
    cases h₂ with
    | emptyEnd hk' => exact absurd hk' hk
    | emptyChar hk' _ => exact absurd hk' hk
    | none hn => exact absurd he.symm (hn _ _)
    | @first q u u' _ hf' hr' =>
      have hl1 := hf q u he
      have hl2 := hf' p t he.symm
      have hpq : p = q := by
        have h1 := congrArg (List.take p.length) he
        rw [List.append_assoc, List.append_assoc, List.take_left' rfl, List.take_left' (by omega)] at h1
        exact h1
      subst hpq
      rw [List.append_assoc, List.append_assoc] at he
      have := List.append_cancel_left (List.append_cancel_left he)
      subst this
      rw [ih hr']

theorem expandText_expanded : ∀ (l : List (Str × Str)) (s : Str), Expanded l s (expandText l s)
  | [], s => .nil s
  | (k, r) :: l, s => by
    have : expandText ((k, r) :: l) s = expandText l (pyReplace k r s) := rfl
    rw [this]
    exact .cons (pyReplace_replaced k r s) (expandText_expanded l _)

theorem expanded_unique {l : List (Str × Str)} {s s₁ : Str} (h₁ : Expanded l s s₁) : ∀ {s₂ : Str}, Expanded l s s₂ → s₁ = s₂ := by
  induction h₁ with
  | nil => intro s₂ h₂; cases h₂; rfl
  | cons hr _ ih =>
    intro s₂ h₂
    cases h₂ with
    | cons hr' he' =>
      have := replaced_unique hr hr'
      subst this
      exact ih he'

theorem expandString_expanded (o : ReOpts) (s : Str) :
    (s = [] → o.expandString s = []) ∧ (s ≠ [] → Expanded o.abbreviations s (o.expandString s)) := by
  unfold ReOpts.expandString
  split
  · rename_i h
    have : s = [] := by simpa using h
    exact ⟨fun h => h, fun h => absurd this h⟩
  · rename_i h
    exact ⟨fun e => absurd (by simp [e]) h, fun _ => expandText_expanded _ _⟩

/-! ## The expressions of a pattern -/

variable (engine : Str → Int → Except PyErr Regex)

theorem dictsOf_cons_dict (a : Nat) (as : List ReArg) : dictsOf (.dict a :: as) = a :: dictsOf as := rfl

theorem usedExpr_heap (o : ReOpts) {h h' : List ReDict} {arg : ReArg} (hd : ∀ a, arg = .dict a → h'[a]? = h[a]?) (t : Str) (f : Int) :
    UsedExpr o h' arg t f → UsedExpr o h arg t f := by
  cases arg with
  | dict a =>
    rintro ⟨d, s, h1, h2⟩
    exact ⟨d, s, by rw [← hd a rfl]; exact h1, h2⟩
  | _ => exact fun h => h

theorem compileArg_used (o : ReOpts) (h : List ReDict) (arg : ReArg) {h' : List ReDict} {r : Regex}
    (he : compileArg engine o h arg = (h', .ok r)) : CompiledAs engine (UsedExpr o h) arg r := by
  cases arg with
  | text s =>
    simp only [compileArg, Prod.mk.injEq] at he
    exact Or.inr ⟨_, _, ⟨(expandString_expanded o s).1, (expandString_expanded o s).2, rfl⟩, he.2⟩
  | items s f =>
    simp only [compileArg, Prod.mk.injEq] at he
    exact Or.inr ⟨_, _, ⟨rfl, rfl⟩, he.2⟩
  | compiled r' =>
    simp only [compileArg, Prod.mk.injEq, Except.ok.injEq] at he
    exact Or.inl (by rw [he.2])
  | dict a =>
    simp only [compileArg, Prod.mk.injEq] at he
    obtain ⟨_, he⟩ := he
    by_cases ha : a < h.length
    · have hg : h[a]? = some h[a] := List.getElem?_eq_getElem ha
      have : (h.modify a o.expandDict).getD a {} = o.expandDict h[a] := by
        rw [List.getD_eq_getElem?_getD, List.getElem?_modify_eq, hg]
        rfl
      rw [this] at he
      unfold compileDict at he
      cases ho' : (o.expandDict h[a]).other with
      | true => rw [ho'] at he; cases he
      | false =>
        cases ht : h[a].text with
        | none =>
          have : (o.expandDict h[a]).text = none := by simp [ReOpts.expandDict, ht]
          rw [ho', this] at he
          cases he
        | some s =>
          have htx : (o.expandDict h[a]).text = some (expandText o.abbreviations s) := by simp [ReOpts.expandDict, ht]
          rw [ho', htx] at he
          exact Or.inr ⟨_, _, ⟨h[a], s, hg, ht, ho', expandText_expanded _ _, rfl⟩, he⟩
    · have : (h.modify a o.expandDict).getD a {} = {} := by
        rw [List.getD_eq_getElem?_getD, List.getElem?_eq_none (by simp; omega)]
        rfl
      rw [this] at he
      cases he

theorem compileArg_heap (o : ReOpts) (h : List ReDict) (arg : ReArg) : (compileArg engine o h arg).1 =
    match arg with | .dict a => h.modify a o.expandDict | _ => h := by
  cases arg <;> rfl

theorem compileArgs_used (o : ReOpts) : ∀ (args : List ReArg) (h h' : List ReDict) (rs : List Regex),
    (dictsOf args).Nodup → compileArgs engine o h args = (h', .ok rs) → Each (CompiledAs engine (UsedExpr o h)) args rs
  | [], h, h', rs, _, he => by
    simp only [compileArgs, Prod.mk.injEq, Except.ok.injEq] at he
    rw [← he.2]
    exact .nil
  | arg :: args, h, h', rs, hn, he => by
    simp only [compileArgs] at he
    cases h1 : compileArg engine o h arg with
    | mk g res =>
      rw [h1] at he
      cases res with
      | error e => cases he
      | ok r =>
        simp only at he
        cases h2 : compileArgs engine o g args with
        | mk g' res' =>
          rw [h2] at he
          cases res' with
          | error e => cases he
          | ok rs' =>
            simp only [Prod.mk.injEq, Except.ok.injEq] at he
            rw [← he.2]
            have hn' : (dictsOf args).Nodup := by
              cases arg with
              | dict a => rw [dictsOf_cons_dict] at hn; exact (List.nodup_cons.1 hn).2
              | _ => exact hn
            refine .cons (compileArg_used engine o h arg h1) ?_
            have ih := compileArgs_used o args g g' rs' hn' h2
            have hg : ∀ x ∈ args, ∀ a, x = .dict a → g[a]? = h[a]? := by
              intro x hx a hxa
              have := compileArg_heap engine o h arg
              rw [h1] at this
              simp only at this
              cases arg with
              | dict b =>
                simp only at this
                rw [this, List.getElem?_modify_ne]
                intro e
                subst e
                rw [dictsOf_cons_dict] at hn
                refine (List.nodup_cons.1 hn).1 ?_
                subst hxa
                exact List.mem_filterMap.2 ⟨_, hx, rfl⟩
              | _ => rw [this]
            clear h2 he hn hn'
            induction ih with
            | nil => exact .nil
            | cons hr _ ihe =>
              refine .cons ?_ (ihe (fun x hx => hg x (by simp [hx])))
              rcases hr with hr | ⟨t, f, ht, hf⟩
              · exact Or.inl hr
              · exact Or.inr ⟨t, f, usedExpr_heap o (hg _ (by simp)) t f ht, hf⟩

theorem compileArgs_other (o : ReOpts) (a : Nat) : ∀ (args : List ReArg) (h h' : List ReDict) (rs : List Regex),
    compileArgs engine o h args = (h', .ok rs) → a ∉ dictsOf args → h'[a]? = h[a]? := by
  intro args
  induction args with
  | nil =>
    intro h h' rs h1 _
    simp only [compileArgs, Prod.mk.injEq] at h1
    rw [h1.1]
  | cons arg args ih =>
    intro h h' rs h1 ha
    simp only [compileArgs] at h1
    cases e1 : compileArg engine o h arg with
    | mk g res =>
      rw [e1] at h1
      have hh := compileArg_heap engine o h arg
      rw [e1] at hh
      cases res with
      | error e => cases h1
      | ok r =>
        simp only at h1
        cases e2 : compileArgs engine o g args with
        | mk g' res' =>
          rw [e2] at h1
          cases res' with
          | error e => cases h1
          | ok rs' =>
            simp only [Prod.mk.injEq, Except.ok.injEq] at h1
            obtain ⟨rfl, rfl⟩ := h1
            cases arg with
            | dict b =>
              rw [dictsOf_cons_dict, List.mem_cons, not_or] at ha
              rw [ih g _ rs' e2 ha.2]
              simp only at hh
              rw [hh, List.getElem?_modify_ne]
              exact fun e => ha.1 e.symm
            | text s => simp only at hh; rw [ih g _ rs' e2 ha, hh]
            | items s f => simp only at hh; rw [ih g _ rs' e2 ha, hh]
            | compiled s => simp only at hh; rw [ih g _ rs' e2 ha, hh]

theorem initRegexes_ok {regexEnabled : Bool} {o : ReOpts} {h h' : List ReDict} {args : List ReArg} {c : Bool} {rs : List Regex}
    (he : initRegexes engine regexEnabled o h args = (h', .ok (c, rs))) :
    compileArgs engine o h args = (h', .ok rs) ∧ c = o.repeatedCaptures.getD regexEnabled ∧ (c = true → regexEnabled = true) := by
  unfold initRegexes ReOpts.captures at he
  simp only at he
  by_cases hc : (o.repeatedCaptures.getD regexEnabled && !regexEnabled) = true
  · rw [if_pos hc] at he; cases he
  · rw [if_neg hc] at he
    simp only at he
    cases h1 : compileArgs engine o h args with
    | mk g res =>
      rw [h1] at he
      cases res with
      | error e => cases he
      | ok rs' =>
        simp only [Prod.mk.injEq, Except.ok.injEq] at he
        obtain ⟨rfl, rfl, rfl⟩ := he
        refine ⟨rfl, rfl, ?_⟩
        intro ht
        rw [ht] at hc
        simpa using hc

/-- **C103, false as stated.** (1) The abbreviations and the flags of the pattern are not used for an expression given as a tuple. (2) The flags of the pattern
are not used for one given as a dict. (3) The dict of the caller is changed, so that a second pattern made of it expands it twice. -/
theorem C103_refuted : ∃ (engine : Str → Int → Except PyErr Regex) (o : ReOpts), (∀ a ∈ o.abbreviations, a.1 ≠ []) ∧
    (∃ rs, (initRegexes engine false o [] [.items "a-b".toList none]).2 = .ok (false, rs) ∧
      ¬ Each (CompiledAs engine (WantedExpr o [])) [.items "a-b".toList none] rs) ∧
    (∃ rs, (initRegexes engine false { o with abbreviations := [] } [{ text := some "a-b".toList }] [.dict 0]).2 = .ok (false, rs) ∧
      ¬ Each (CompiledAs engine (WantedExpr { o with abbreviations := [] } [{ text := some "a-b".toList }])) [.dict 0] rs) ∧
    (initRegexes engine false o [{ text := some "a-b".toList }] [.dict 0]).1 = [{ text := some "a[-_]b".toList }] ∧
    (initRegexes engine false o (initRegexes engine false o [{ text := some "a-b".toList }] [.dict 0]).1 [.dict 0]).1 =
      [{ text := some "a[[-_]_]b".toList }] := by
  -- an engine whose expressions show what they were compiled from
  refine ⟨fun t f => .ok ⟨[], fun _ => [⟨t.length, f, []⟩]⟩, { abbreviations := [("-".toList, "[-_]".toList)], flags := some 2 }, ?_, ?_, ?_, ?_, ?_⟩
  · intro a ha
    simp only [List.mem_singleton] at ha
    subst ha
    decide
  · refine ⟨_, rfl, ?_⟩
    intro h
    cases h with
    | cons hr _ =>
      rcases hr with hr | ⟨t, f, ⟨_, hf⟩, he⟩
      · cases hr
      · have h2 : f = 2 := hf
        subst h2
        have := congrArg (fun (x : Except PyErr Regex) => match x with | .ok r => (r.finditer []).map (fun (o : ReObj) => o.stop) | _ => []) he
        simp at this
  · refine ⟨_, rfl, ?_⟩
    intro h
    cases h with
    | cons hr _ =>
      rcases hr with hr | ⟨t, f, ⟨d, s, hd, _, _, hf⟩, he⟩
      · cases hr
      · simp only [List.getElem?_cons_zero, Option.some.injEq] at hd
        subst hd
        have h2 : f = 2 := hf
        subst h2
        have := congrArg (fun (x : Except PyErr Regex) => match x with | .ok r => (r.finditer []).map (fun (o : ReObj) => o.stop) | _ => []) he
        have h2 : [(2 : Int)] = [0] := this
        exact absurd h2 (by decide)
  · rfl
  · rfl

/-- **C103, what is true.** (`UsedExpr`) A string is compiled with its abbreviations expanded, one after the other, each from the left without overlap, and with
the flags of the pattern; a dict is expanded the same way and compiled with flags of its own only; the items of another iterable and compiled expressions
are used as they are. The expressions are kept in the order of the arguments; nothing but the dicts among the arguments changes, and of these only the text. `repeated_captures` is the
option, or whether the `regex` module is enabled; without this module it cannot be true. (No dict object is given twice.) -/
theorem C103_partial (regexEnabled : Bool) (o : ReOpts) (h h' : List ReDict) (args : List ReArg) (hn : (dictsOf args).Nodup)
    (c : Bool) (rs : List Regex) (he : initRegexes engine regexEnabled o h args = (h', .ok (c, rs))) :
    Each (CompiledAs engine (UsedExpr o h)) args rs ∧
    (∀ a, a ∉ dictsOf args → h'[a]? = h[a]?) ∧
    (∀ a ∈ dictsOf args, ∀ d, h[a]? = some d → ∃ d', h'[a]? = some d' ∧ d'.flags = d.flags ∧ d'.other = d.other ∧
      (d.text = none → d'.text = none) ∧ ∀ s, d.text = some s → ∃ t, d'.text = some t ∧ Expanded o.abbreviations s t) ∧
    c = o.repeatedCaptures.getD regexEnabled ∧ (c = true → regexEnabled = true) := by
  obtain ⟨h1, h2, h3⟩ := initRegexes_ok engine he
  refine ⟨compileArgs_used engine o args h h' rs hn h1, ?_, ?_, h2, h3⟩
  · exact fun a ha => compileArgs_other engine o a args h h' rs h1 ha
  · clear he h2 h3
    intro a ha d hd
    suffices h'[a]? = some (o.expandDict d) by
      refine ⟨_, this, rfl, rfl, ?_, ?_⟩
      · intro ht; simp [ReOpts.expandDict, ht]
      · intro s hs; exact ⟨expandText o.abbreviations s, by simp [ReOpts.expandDict, hs], expandText_expanded _ _⟩
    induction args generalizing h rs with
    | nil => cases ha
    | cons arg args ih =>
      simp only [compileArgs] at h1
      cases e1 : compileArg engine o h arg with
      | mk g res =>
        rw [e1] at h1
        have hh := compileArg_heap engine o h arg
        rw [e1] at hh
        cases res with
        | error e => cases h1
        | ok r =>
          simp only at h1
          cases e2 : compileArgs engine o g args with
          | mk g' res' =>
            rw [e2] at h1
            cases res' with
            | error e => cases h1
            | ok rs' =>
              simp only [Prod.mk.injEq, Except.ok.injEq] at h1
              obtain ⟨rfl, rfl⟩ := h1
              cases arg with
              | dict b =>
                rw [dictsOf_cons_dict] at hn ha
                obtain ⟨hn1, hn2⟩ := List.nodup_cons.1 hn
                simp only at hh
                by_cases hab : a = b
                · subst hab
                  rw [compileArgs_other engine o a args g _ rs' e2 hn1, hh, List.getElem?_modify_eq, hd]
                  rfl
                · refine ih g hn2 rs' e2 ?_ ?_
                  · rcases List.mem_cons.1 ha with h | h
                    · exact absurd h hab
                    · exact h
                  · rw [hh, List.getElem?_modify_ne]
                    · exact hd
                    · exact fun e => hab e.symm
              | text s => simp only at hh; exact ih g hn rs' e2 ha (by rw [hh]; exact hd)
              | items s f => simp only at hh; exact ih g hn rs' e2 ha (by rw [hh]; exact hd)
              | compiled s => simp only at hh; exact ih g hn rs' e2 ha (by rw [hh]; exact hd)

/-- **C103.** The only exceptions: `NotImplementedError` for `repeated_captures=True` without the `regex` module, what the compilation of an expression (as in
`C103_partial`) raises, and `TypeError` for a dict without `pattern` or with an unknown key. -/
theorem C103_raises (regexEnabled : Bool) (o : ReOpts) (h : List ReDict) (args : List ReArg) (hn : (dictsOf args).Nodup) (e : PyErr)
    (he : (initRegexes engine regexEnabled o h args).2 = .error e) :
    (e = .runtimeError ∧ o.repeatedCaptures = some true ∧ regexEnabled = false) ∨
    (∃ arg ∈ args, ∃ t f, UsedExpr o h arg t f ∧ engine t f = .error e) ∨
    (e = .typeError ∧ ∃ a ∈ dictsOf args, ∀ d, h[a]? = some d → d.text = none ∨ d.other = true) := by
  unfold initRegexes ReOpts.captures at he
  simp only at he
  by_cases hc : (o.repeatedCaptures.getD regexEnabled && !regexEnabled) = true
  · rw [if_pos hc] at he
    left
    simp only [Except.error.injEq] at he
    cases regexEnabled with
    | true => simp at hc
    | false =>
      cases ho' : o.repeatedCaptures with
      | none => rw [ho'] at hc; simp at hc
      | some b =>
        rw [ho'] at hc
        simp at hc
        subst hc
        exact ⟨he.symm, rfl, rfl⟩
  · rw [if_neg hc] at he
    right
    simp only at he
    have he' : (compileArgs engine o h args).2 = .error e := by
      cases h1 : compileArgs engine o h args with
      | mk g res =>
        rw [h1] at he
        cases res with
        | error x => simp only [Except.error.injEq] at he; rw [he]
        | ok r => cases he
    clear he hc
    induction args generalizing h with
    | nil => cases he'
    | cons arg args ih =>
      simp only [compileArgs] at he'
      have hh := compileArg_heap engine o h arg
      cases h1 : compileArg engine o h arg with
      | mk g res =>
        rw [h1] at he' hh
        simp only at hh
        cases res with
        | error x =>
          simp only [Except.error.injEq] at he'
          subst he'
          cases arg with
          | text s =>
            simp only [compileArg, Prod.mk.injEq] at h1
            exact Or.inl ⟨_, List.mem_cons_self, _, _, ⟨(expandString_expanded o s).1, (expandString_expanded o s).2, rfl⟩, h1.2⟩
          | items s f =>
            simp only [compileArg, Prod.mk.injEq] at h1
            exact Or.inl ⟨_, List.mem_cons_self, _, _, ⟨rfl, rfl⟩, h1.2⟩
          | compiled r => simp [compileArg] at h1
          | dict a =>
            simp only [compileArg, Prod.mk.injEq] at h1
            obtain ⟨_, h1⟩ := h1
            cases hg : h[a]? with
            | none =>
              have : (h.modify a o.expandDict).getD a {} = {} := by
                rw [List.getD_eq_getElem?_getD, List.getElem?_modify_eq, hg]; rfl
              rw [this] at h1
              simp only [compileDict] at h1
              exact Or.inr ⟨(Except.error.inj h1).symm, a, List.mem_cons_self, by intro d hd; rw [hg] at hd; cases hd⟩
            | some d =>
              have : (h.modify a o.expandDict).getD a {} = o.expandDict d := by
                rw [List.getD_eq_getElem?_getD, List.getElem?_modify_eq, hg]; rfl
              rw [this] at h1
              have hod : (o.expandDict d).other = d.other := rfl
              unfold compileDict at h1
              cases ho2 : d.other with
              | true =>
                rw [hod, ho2] at h1
                exact Or.inr ⟨(Except.error.inj h1).symm, a, List.mem_cons_self, by
                  intro d' hd'; rw [hg] at hd'; cases hd'; exact Or.inr ho2⟩
              | false =>
                cases ht : d.text with
                | none =>
                  have htx : (o.expandDict d).text = none := by simp [ReOpts.expandDict, ht]
                  rw [hod, ho2, htx] at h1
                  exact Or.inr ⟨(Except.error.inj h1).symm, a, List.mem_cons_self, by
                    intro d' hd'; rw [hg] at hd'; cases hd'; exact Or.inl ht⟩
                | some s =>
                  have htx : (o.expandDict d).text = some (expandText o.abbreviations s) := by simp [ReOpts.expandDict, ht]
                  rw [hod, ho2, htx] at h1
                  exact Or.inl ⟨_, List.mem_cons_self, _, _, ⟨d, s, hg, ht, ho2, expandText_expanded _ _, rfl⟩, h1⟩
        | ok r =>
          simp only at he'
          have hn' : (dictsOf args).Nodup := by
            cases arg with
            | dict a => rw [dictsOf_cons_dict] at hn; exact (List.nodup_cons.1 hn).2
            | _ => exact hn
          have hg : ∀ a ∈ dictsOf args, g[a]? = h[a]? := by
            intro a ha
            cases arg with
            | dict b =>
              simp only at hh
              rw [hh, List.getElem?_modify_ne]
              intro e
              subst e
              rw [dictsOf_cons_dict] at hn
              exact (List.nodup_cons.1 hn).1 ha
            | _ => rw [hh]
          have hx : (compileArgs engine o g args).2 = .error e := by
            cases h2 : compileArgs engine o g args with
            | mk g' res' =>
              rw [h2] at he'
              cases res' with
              | error x => simp only [Except.error.injEq] at he'; rw [he']
              | ok r => cases he'
          rcases ih g hn' hx with ⟨x, hx, t, f, hu, hf⟩ | ⟨h1, a, ha, h2⟩
          · refine Or.inl ⟨x, by simp [hx], t, f, usedExpr_heap o ?_ t f hu, hf⟩
            intro a hxa
            subst hxa
            exact hg a (List.mem_filterMap.2 ⟨_, hx, rfl⟩)
          · refine Or.inr ⟨h1, a, ?_, fun d hd => h2 d (by rw [hg a ha]; exact hd)⟩
            cases arg with
            | dict b => rw [dictsOf_cons_dict]; exact List.mem_cons_of_mem _ ha
            | _ => exact ha

/-! ## Abbreviations of one character -/

theorem replaceFrom_char (c : Char) (r : Str) : ∀ s : Str, replaceFrom [c] r 0 s = s.flatMap (fun x => if x = c then r else [x])
  | [] => rfl
  | x :: s => by
    have ih := replaceFrom_char c r s
    simp only [replaceFrom, List.flatMap_cons]
    by_cases hx : x = c
    · subst hx
      rw [if_pos (by simp), if_pos rfl]
      simp [ih]
    · rw [if_neg (by simpa using fun e => hx e.symm), if_neg hx, ih]
      rfl

theorem standsFor_plain {l : List (Char × Str)} {c : Char} (h : ∀ a ∈ l, a.1 ≠ c) : standsFor l c = [c] := by
  unfold standsFor
  have : l.find? (fun a => a.1 == c) = none := by
    rw [List.find?_eq_none]
    intro a ha
    simpa using h a ha
  rw [this]

theorem flatMap_plain {l : List (Char × Str)} : ∀ {s : Str}, (∀ c ∈ s, ∀ a ∈ l, a.1 ≠ c) → s.flatMap (standsFor l) = s
  | [], _ => rfl
  | c :: s, h => by
    rw [List.flatMap_cons, standsFor_plain (h c (by simp)), flatMap_plain (fun x hx => h x (by simp [hx]))]
    rfl

theorem expandText_chars : ∀ (l : List (Char × Str)), PlainAbbreviations l → ∀ s : Str,
    expandText (l.map (fun a => ([a.1], a.2))) s = s.flatMap (standsFor l)
  | [], _, s => by
    show s = _
    rw [flatMap_plain (by intro c _ a ha; cases ha)]
  | a :: l, h, s => by
    have hs : expandText ((a :: l).map (fun a => ([a.1], a.2))) s = expandText (l.map (fun a => ([a.1], a.2))) (pyReplace [a.1] a.2 s) := rfl
    rw [hs, expandText_chars l (fun x hx y hy => h x (by simp [hx]) y (by simp [hy]))]
    have : pyReplace [a.1] a.2 s = s.flatMap (fun x => if x = a.1 then a.2 else [x]) := by
      unfold pyReplace
      rw [if_neg (by simp)]
      exact replaceFrom_char _ _ _
    rw [this, List.flatMap_assoc]
    congr 1
    funext x
    by_cases hx : x = a.1
    · subst hx
      rw [if_pos rfl, flatMap_plain]
      · simp [standsFor]
      · intro c hc b hb e
        exact h a (by simp) b (by simp [hb]) (e ▸ hc)
    · rw [if_neg hx]
      have : (a.1 == x) = false := by simpa using fun e => hx e.symm
      simp [standsFor, List.find?_cons, this]

/-- **C103.** With abbreviations of one character that occur in no replacement (such as `-` for `[\W_]`) the order of the abbreviations does not matter: every
character of the text is replaced by what it stands for (the first abbreviation listed for it). Nothing is then replaced twice, so that giving the same dict to several patterns does no
harm. -/
theorem C103_plain (l : List (Char × Str)) (hl : PlainAbbreviations l) (s t : Str) :
    (Expanded (l.map (fun a => ([a.1], a.2))) s t ↔ t = s.flatMap (standsFor l)) ∧
    (Expanded (l.map (fun a => ([a.1], a.2))) s t → Expanded (l.map (fun a => ([a.1], a.2))) t t) := by
  have key : ∀ s, Expanded (l.map (fun a => ([a.1], a.2))) s (s.flatMap (standsFor l)) := by
    intro s
    rw [← expandText_chars l hl]
    exact expandText_expanded _ _
  have hiff : ∀ s t, Expanded (l.map (fun a => ([a.1], a.2))) s t ↔ t = s.flatMap (standsFor l) := by
    intro s t
    exact ⟨fun h => expanded_unique h (key s), fun h => h ▸ key s⟩
  refine ⟨hiff s t, ?_⟩
  intro h
  rw [hiff] at h ⊢
  symm
  apply flatMap_plain
  intro c hc a ha e
  rw [h] at hc
  obtain ⟨x, hx, hcx⟩ := List.mem_flatMap.1 hc
  unfold standsFor at hcx
  cases hf : l.find? (fun a => a.1 == x) with
  | some b =>
    rw [hf] at hcx
    exact hl b (List.mem_of_find?_eq_some hf) a ha (e ▸ hcx)
  | none =>
    rw [hf] at hcx
    simp only [List.mem_singleton] at hcx
    rw [List.find?_eq_none] at hf
    exact hf a ha (by simp [e, hcx])

example : expandText [([], "-".toList), ("a-".toList, "b".toList)] "xa".toList = "-x-b".toList ∧
    expandText [("-".toList, "[-_]".toList), ("@".toList, "a-b".toList)] "x-@".toList = "x[-_]a-b".toList ∧
    PlainAbbreviations [('-', "[_ ]".toList), ('@', "ab".toList)] ∧
    "x-@".toList.flatMap (standsFor [('-', "[_ ]".toList), ('@', "ab".toList)]) = "x[_ ]ab".toList ∧
    (dictsOf [.text "a".toList, .dict 0, .items "b".toList (some 2)]).Nodup := by
  refine ⟨by decide, by decide, by unfold PlainAbbreviations; decide, by decide, by decide⟩

/-- An engine for which an expression is its text, and everything is found at once. -/
def echoEngine (t : Str) (f : Int) : Except PyErr Regex := if t = [] then .error .valueError else .ok ⟨[], fun _ => [⟨f, t.length, []⟩]⟩

example : ∃ rs, initRegexes echoEngine true { abbreviations := [("-".toList, "[-_]".toList)], flags := some 2 }
      [{ text := some "-".toList, flags := some 4 }] [.text "a-".toList, .dict 0, .items "-".toList none] =
      ([{ text := some "[-_]".toList, flags := some 4 }], .ok (true, rs)) ∧
    rs.map (fun r => (r.finditer []).map (fun (o : ReObj) => (o.start, o.stop))) = [[(2, 5)], [(4, 4)], [(0, 1)]] := ⟨_, rfl, by decide⟩

example : (initRegexes echoEngine false { repeatedCaptures := some true } [] [.text "a".toList]).2 = .error .runtimeError ∧
    (initRegexes echoEngine false {} [{}] [.text "a".toList, .dict 0]).2 = .error .typeError ∧
    (initRegexes echoEngine false {} [] [.text []]).2 = .error .valueError := ⟨rfl, rfl, rfl⟩

end Rebulk
