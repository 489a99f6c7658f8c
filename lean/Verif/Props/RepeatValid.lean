import Verif.Spec.RepeatValid
import Verif.Props.RepeatSearch
/-!
# C122: chains of repeated strings with a validator
-/
namespace Rebulk
open Spec
variable {Ctx : Type}

/-! ## The copies of the last string -/

/-- The visible copies end with all the copies of one string; those before are of other ones. -/
theorem visible_tail : ∀ {run : List Placed}, (run.map (fun p => p.part.id)).Nodup → visible run ≠ [] →
    ∃ pre p k, p ∈ run ∧ visible run = pre ++ (List.range (k + 1)).map (Placed.copy p) ∧ ∀ y ∈ pre, y.part.id ≠ p.part.id
  | [], _, h => absurd rfl h
  | q :: run, hn, h => by
    rw [List.map_cons] at hn
    obtain ⟨hq, hn⟩ := List.nodup_cons.1 hn
    have e : visible (q :: run) = q.copies ++ visible run := by unfold visible; rw [List.flatMap_cons]
    by_cases hv : visible run = []
    · rw [hv, List.append_nil] at e
      rw [e] at h
      unfold Placed.copies at h e
      by_cases hh : q.part.hidden = true
      · rw [if_pos hh] at h; exact absurd rfl h
      · rw [if_neg hh] at h e
        cases hc : q.count with
        | zero => rw [hc] at h; exact absurd rfl h
        | succ k => exact ⟨[], q, k, by simp, by rw [e, hc, List.nil_append], by simp⟩
    · obtain ⟨pre, p, k, hp, h1, h2⟩ := visible_tail hn hv
      refine ⟨q.copies ++ pre, p, k, List.mem_cons_of_mem _ hp, by rw [e, h1, List.append_assoc], ?_⟩
      intro y hy
      rcases List.mem_append.1 hy with hy | hy
      · have : y.part = q.part := by
          unfold Placed.copies at hy
          split at hy
          · cases hy
          · obtain ⟨j, _, rfl⟩ := List.mem_map.1 hy
            rfl
        rw [this]
        intro he
        exact hq (List.mem_map.2 ⟨p, hp, he.symm⟩)
      · exact h2 y hy

theorem last_droppable {pre : List Copy} {p : Placed} {k : Nat} : droppable (pre ++ (List.range (k + 1)).map (Placed.copy p)) = k + 1 := by
  unfold droppable
  rw [List.range_succ, List.map_append, ← List.append_assoc]
  simp [Placed.copy]

/-- Leaving out the copies from number `n` on. -/
theorem left_copies {pre : List Copy} {p : Placed} {k n : Nat} (hn : n ≤ k + 1) (h : ∀ y ∈ pre, y.part.id ≠ p.part.id) :
    (pre ++ (List.range (k + 1)).map (Placed.copy p)).filter (fun y => decide (¬ (y.part.id = p.part.id ∧ n ≤ y.number))) =
      cutBy (k + 1 - n) (pre ++ (List.range (k + 1)).map (Placed.copy p)) := by
  unfold cutBy
  rw [List.filter_append, List.filter_eq_self.2 (by intro y hy; have := h y hy; simp [this])]
  have e : (pre ++ (List.range (k + 1)).map (Placed.copy p)).length - (k + 1 - n) = pre.length + n := by simp; omega
  rw [e, List.take_length_add_append]
  congr 1
  rw [← List.map_take, List.take_range, Nat.min_eq_left hn, List.filter_map]
  congr 1
  have : ∀ m, (List.range m).filter ((fun y => decide (¬ (y.part.id = p.part.id ∧ n ≤ y.number))) ∘ Placed.copy p) = List.range (min n m) := by
    intro m
    induction m with
    | zero => simp
    | succ m ih =>
      have hb : ((fun (y : Copy) => decide (¬ (y.part.id = p.part.id ∧ n ≤ y.number))) ∘ Placed.copy p) m = decide (m < n) := by
        show decide (¬ (p.part.id = p.part.id ∧ n ≤ m)) = _
        exact decide_eq_decide.2 ⟨fun h => by omega, fun h => by omega⟩
      rw [List.range_succ, List.filter_append, ih, List.filter_cons, hb]
      by_cases hm : m < n
      · rw [Nat.min_eq_right (by omega), Nat.min_eq_right (by omega : m + 1 ≤ n), List.range_succ, if_pos (decide_eq_true hm)]
        rfl
      · rw [Nat.min_eq_left (by omega), Nat.min_eq_left (by omega : n ≤ m + 1), if_neg (by simpa using hm)]
        simp
  rw [this, Nat.min_eq_left hn]

theorem extent_prefix {cs : List Copy} {n : Nat} (h : cs.take n ≠ []) : (extent (cs.take n)).1 = (extent cs).1 := by
  unfold extent
  cases cs with
  | nil => simp at h
  | cons x cs =>
    cases n with
    | zero => simp at h
    | succ n => simp

theorem extent_stop_le {cs : List Copy} {a b n : Nat} (ho : InOrder a b cs) (h : cs.take n ≠ []) : (extent (cs.take n)).1 < (extent (cs.take n)).2 ∧
    (extent (cs.take n)).2 ≤ (extent cs).2 := by
  have hl : ∀ z ∈ cs, z.start < z.stop := fun z hz => (ho.inside z hz).2.1
  obtain ⟨p, hp⟩ : ∃ p, (cs.take n).head? = some p := ⟨_, List.head?_eq_some_head h⟩
  obtain ⟨q, hq⟩ : ∃ q, (cs.take n).getLast? = some q := ⟨_, List.getLast?_eq_some_getLast h⟩
  have hne : cs ≠ [] := by rintro rfl; simp at h
  obtain ⟨r, hr⟩ : ∃ r, cs.getLast? = some r := ⟨_, List.getLast?_eq_some_getLast hne⟩
  have hsub : cs.take n ⊆ cs := List.take_subset _ _
  have hpm := List.mem_of_head? hp
  have hqm := List.mem_of_getLast? hq
  have hle := ordered_last hl ho.ordered hr (hsub hqm)
  have hpq := ordered_last (fun z hz => hl z (hsub hz)) (ho.ordered.sublist (List.take_sublist _ _)) hq hpm
  have := hl p (hsub hpm)
  unfold extent
  rw [hp, hq, hr]
  simp only [Option.map_some, Option.getD_some]
  omega

/-! ## The shortened match -/

theorem each_map_right {α β γ : Type} {R : α → β → Prop} {S : α → γ → Prop} (f : β → γ) : ∀ {as : List α} {bs : List β}, Each R as bs →
    (∀ a b, R a b → S a (f b)) → Each S as (bs.map f)
  | _, _, .nil, _ => .nil
  | _, _, .cons h ht, hS => .cons (hS _ _ h) (each_map_right f ht hS)

theorem each_getLast {α β : Type} {R : α → β → Prop} : ∀ {as : List α} {bs : List β} {b : β}, Each R as bs → bs.getLast? = some b → ∃ a, as.getLast? = some a ∧ R a b
  | _, _, _, .nil, h => by cases h
  | _, _, _, .cons h .nil, hb => by cases hb; exact ⟨_, rfl, h⟩
  | _, _, b, .cons h (.cons h2 h3), hb => by
    rw [List.getLast?_cons_cons] at hb
    obtain ⟨a, h4, h5⟩ := each_getLast (.cons h2 h3) hb
    exact ⟨a, by rw [List.getLast?_cons_cons]; exact h4, h5⟩

theorem each_getLast_none {α β : Type} {R : α → β → Prop} {as : List α} {bs : List β} (h : Each R as bs) : as = [] ↔ bs = [] := by
  cases h <;> simp

/-- The children of the match, and of the match as it is shortened. -/
abbrev KidsAre (input : Str) (cs : List Copy) (t : MTree) : Prop := Each (fun x (k : MTree) => CopyOf input x k.root) cs t.children

theorem kids_shortened {input : Str} {pre : List Copy} {p : Placed} {k n : Nat} {t : MTree} (hn : n ≤ k + 1) (h : ∀ y ∈ pre, y.part.id ≠ p.part.id)
    (hk : KidsAre input (pre ++ (List.range (k + 1)).map (Placed.copy p)) t) :
    KidsAre input (cutBy (k + 1 - n) (pre ++ (List.range (k + 1)).map (Placed.copy p))) (shortened t (some p.part.id) n) ∧
    Each (fun x (k : MTree) => CopyOf input x k.root) (cutBy (k + 1 - n) (pre ++ (List.range (k + 1)).map (Placed.copy p))) (remaining (some p.part.id) n t.children) := by
  have key : Each (fun x (k : MTree) => CopyOf input x k.root) (cutBy (k + 1 - n) (pre ++ (List.range (k + 1)).map (Placed.copy p)))
      (remaining (some p.part.id) n t.children) := by
    rw [← left_copies hn h]
    unfold remaining
    refine each_filter hk ?_
    intro x _ y _ hxy
    rw [hxy.pattern, hxy.number]
    simp
  refine ⟨?_, key⟩
  show Each _ _ (shortened t (some p.part.id) n).children
  unfold shortened
  rw [setRoot_children]
  exact each_map_right _ key (fun x y hxy => hxy.links (relink_same _ _ y))

theorem shortened_span {input : Str} {pre : List Copy} {p : Placed} {k n : Nat} {t : MTree} (hn : n ≤ k + 1) (h : ∀ y ∈ pre, y.part.id ≠ p.part.id)
    (hk : KidsAre input (pre ++ (List.range (k + 1)).map (Placed.copy p)) t) (hsp : t.root.span = extent (pre ++ (List.range (k + 1)).map (Placed.copy p)))
    (hne : cutBy (k + 1 - n) (pre ++ (List.range (k + 1)).map (Placed.copy p)) ≠ []) :
    (shortened t (some p.part.id) n).root.span = extent (cutBy (k + 1 - n) (pre ++ (List.range (k + 1)).map (Placed.copy p))) := by
  have hr := (kids_shortened hn h hk).2
  generalize pre ++ (List.range (k + 1)).map (Placed.copy p) = cs at *
  have e1 : (extent (cutBy (k + 1 - n) cs)).1 = (extent cs).1 := extent_prefix hne
  have e2 : t.root.start = (extent cs).1 := congrArg Prod.fst hsp
  show (t.root.start, lastStop t.root.start (remaining (some p.part.id) n t.children)) = _
  refine Prod.ext (by rw [e1]; exact e2) ?_
  show lastStop _ _ = _
  unfold lastStop
  cases hl : (remaining (some p.part.id) n t.children).getLast? with
  | none =>
    exact absurd ((each_getLast_none hr).2 (List.getLast?_eq_none_iff.1 hl)) hne
  | some x =>
    obtain ⟨a, h1, h2⟩ := each_getLast hr hl
    unfold extent
    rw [h1]
    exact congrArg Prod.snd h2.span

theorem shortened_nothing {input : Str} {pre : List Copy} {p : Placed} {k n : Nat} {t : MTree} (hn : n ≤ k + 1) (h : ∀ y ∈ pre, y.part.id ≠ p.part.id)
    (hk : KidsAre input (pre ++ (List.range (k + 1)).map (Placed.copy p)) t) (hne : cutBy (k + 1 - n) (pre ++ (List.range (k + 1)).map (Placed.copy p)) = []) :
    (shortened t (some p.part.id) n).root.start = (shortened t (some p.part.id) n).root.stop := by
  have hr := (kids_shortened hn h hk).2
  rw [hne] at hr
  show t.root.start = lastStop t.root.start (remaining (some p.part.id) n t.children)
  have := (each_getLast_none hr).1 rfl
  rw [this]
  rfl

/-! ## The verdict -/

/-- A raw match of the hit made of the copies. -/
structure RawCopies (input : Str) (c : Config) (i : Nat) (cs : List Copy) (t : MTree) : Prop where
  hit : RawHit input c (c.copiesHit input i cs) t
  kids : KidsAre input cs t

theorem parent_kids {input : Str} {o : PatternOpts} {i : Nat} {cs : List Copy} {t V : MTree} (h : ParentConfigured o i t V) (hk : KidsAre input cs t) : KidsAre input cs V := by
  have key : ∀ {cs : List Copy} {ts Vs : List MTree}, Each (fun x (k : MTree) => CopyOf input x k.root) cs ts → Vs.length = ts.length →
      (∀ (i : Nat) c C, ts[i]? = some c → Vs[i]? = some C → SameButLinks c.root C.root) → Each (fun x (k : MTree) => CopyOf input x k.root) cs Vs := by
    intro cs ts Vs h
    induction h generalizing Vs with
    | nil => intro hl _; rw [List.eq_nil_of_length_eq_zero hl]; exact .nil
    | cons hx _ ih =>
      intro hl hs
      cases Vs with
      | nil => cases hl
      | cons V Vs =>
        exact .cons (hx.links (hs 0 _ _ rfl rfl)) (ih (by simpa using hl) (fun i c C h1 h2 => hs (i + 1) c C (by simpa using h1) (by simpa using h2)))
  exact key hk h.count h.child

theorem passes_agrees {input : Str} {c : Config} (hj : c.JudgingCopies input) {i : Nat} {cs : List Copy} {t : MTree} (h : RawCopies input c i cs t)
    (hp : Passes c.opts i t) : c.AgreesOn input i cs := by
  obtain ⟨V, h1, h2⟩ := hp
  have hr := conf_root h.hit rfl h1
  intro v hv t' ht' hk'
  rw [hj i cs v hv t' V ht' hr hk' (parent_kids h1 h.kids)]
  exact h2 (.inl (.inl rfl)) v (by rw [hr.name]; exact hv)

theorem fails_agrees {input : Str} {c : Config} {i : Nat} {cs : List Copy} {t : MTree} (h : RawCopies input c i cs t)
    (hp : Fails c.opts i t) : ¬ c.AgreesOn input i cs := by
  obtain ⟨V, h1, h2⟩ := hp
  have hr := conf_root h.hit rfl h1
  intro ha
  refine h2 (fun _ v hv => ?_)
  rw [hr.name] at hv
  exact ha v hv V hr (parent_kids h1 h.kids)

theorem emits_agreed {input : Str} {c : Config} {i : Nat} {cs : List Copy} {t : MTree} {l : List MTree} (h : RawCopies input c i cs t)
    (ha : c.AgreesOn input i cs) (he : Emits c.opts i t l) : ∃ T, l = [T] ∧ StandsFor input (c.copiesHit input i cs) T.root := by
  have hpre : ∀ {u r : MTree}, After none u (some r) → r = u := by
    intro u r h
    cases h with
    | absent _ => rfl
    | unchanged _ h => cases h
    | replaced _ _ h => cases h
  have hno : ∀ {u : MTree}, ¬ After none u none := by
    intro u h
    cases h with
    | dropped _ h => cases h
  have hx := h.hit
  have hlt : t.root.start < t.root.stop := by
    have e1 : t.root.start = _ := congrArg Prod.fst hx.span
    have e2 : t.root.stop = _ := congrArg Prod.snd hx.span
    rw [e1, e2]; exact hx.inside.2.1
  cases he with
  | dropped h => exact absurd h hno
  | emptied h he =>
    have := hpre h
    subst this
    omega
  | refused h0 _ h1 h2 hn =>
    have := hpre h0
    subst this
    refine absurd ⟨?_, ?_⟩ hn
    · intro _ v hv
      have hr := conf_root hx rfl h1
      rw [hr.name] at hv
      exact ha v hv _ hr (parent_kids h1 h.kids)
    · intro C _ hi
      rcases hi with hi | hi
      · rcases hi with hi | hi <;> cases hi
      · cases hi
  | droppedAfter _ _ _ _ _ h => exact absurd h hno
  | emptiedAfter h0 _ h1 h2 _ h3 he =>
    have := hpre h0
    subst this
    have := hpre h3
    subst this
    have a := conf_root hx rfl h1
    have e1 := congrArg Prod.fst a.span
    have e2 := congrArg Prod.snd a.span
    rw [h2.root] at he
    have := hx.inside.2.1
    simp only [Match.span] at e1 e2
    omega
  | @emitted t1 V T r h0 _ h1 h2 ha h3 _ =>
    have := hpre h0
    subst this
    have := hpre h3
    subst this
    have a := conf_root hx rfl h1
    refine ⟨r, ?_, by rw [h2.root]; exact a⟩
    unfold emission
    rw [if_pos (c := (ParentIncluded _ ∨ _) ∧ NotIgnored _ _) ⟨.inl (.inl rfl), fun _ _ h => by cases h⟩,
      if_neg (c := ChildrenIncluded _ ∨ _) (by simp [ChildrenIncluded, Config.opts])]
    rfl

theorem emits_nothing {c : Config} {i : Nat} {t : MTree} {l : List MTree} (h : t.root.start = t.root.stop) (he : Emits c.opts i t l) : l = [] := by
  have hpre : ∀ {u r : MTree}, After none u (some r) → r = u := by
    intro u r h
    cases h with
    | absent _ => rfl
    | unchanged _ h => cases h
    | replaced _ _ h => cases h
  cases he with
  | dropped _ => rfl
  | emptied _ _ => rfl
  | refused _ _ _ _ _ => rfl
  | droppedAfter _ _ _ _ _ _ => rfl
  | emptiedAfter _ _ _ _ _ _ _ => rfl
  | emitted h0 hlt _ _ _ _ _ =>
    have := hpre h0
    subst this
    omega

/-! ## One raw match -/

theorem raw_copies {id : Nat} {input : Str} {c : Config} (i : Nat) {cs : List Copy} {t : MTree} (hm : MadeBy id c.opts.opts input t.root.start t.root.stop t.root)
    (hsp : t.root.span = extent cs) (h0 : 0 ≤ (extent cs).1) (hlt : (extent cs).1 < (extent cs).2) (hne : input ≠ []) (hk : KidsAre input cs t) : RawCopies input c i cs t := by
  refine ⟨⟨hsp, ⟨h0, hlt, hne⟩, ?_, hm.name, hm.tags, hm.priv, hm.marker, hm.noParent, hm.solver, hm.input, hm.noRaw⟩, hk⟩
  rw [hm.noValue]
  rfl

/-- What a chain emits for one of its raw matches is what the validator leaves of its copies. -/
theorem emits_trims {id : Nat} {input : Str} {c : Config} (hj : c.JudgingCopies input) {i : Nat} {run : List Placed} {t : MTree} {l : List MTree}
    (hids : (run.map (fun p => p.part.id)).Nodup) (hm : MadeBy id c.opts.opts input t.root.start t.root.stop t.root) (hr : RunMatch input run t)
    {a b : Nat} (ho : InOrder a b (visible run)) (hv : visible run ≠ []) (hne : input ≠ []) (he : ChainEmits c.opts i t l) :
    (∃ cs T, Trims (c.AgreesOn input i) (visible run) (some cs) ∧ l = [T] ∧ StandsFor input (c.copiesHit input i cs) T.root) ∨
    (Trims (c.AgreesOn input i) (visible run) none ∧ l = []) := by
  obtain ⟨pre, p, k, hp, e, hpre⟩ := visible_tail hids hv
  obtain ⟨hsp, hk⟩ := hr
  rw [e] at hsp hk ho ⊢
  have hdrop : droppable (pre ++ (List.range (k + 1)).map (Placed.copy p)) = k + 1 := last_droppable
  have hlen : (pre ++ (List.range (k + 1)).map (Placed.copy p)).length = pre.length + (k + 1) := by simp
  have hwhole : cutBy 0 (pre ++ (List.range (k + 1)).map (Placed.copy p)) = pre ++ (List.range (k + 1)).map (Placed.copy p) := by
    unfold cutBy; rw [Nat.sub_zero, List.take_length]
  have hlast : ∀ {last : MTree}, t.children.getLast? = some last → last.root.pattern = some p.part.id ∧
      ∀ n, HasRepetition t last n ↔ n ≤ k := by
    intro last hl
    obtain ⟨x, h1, h2⟩ := each_getLast hk hl
    have hx : x = p.copy k := by
      rw [List.range_succ, List.map_append, ← List.append_assoc] at h1
      simpa using h1.symm
    have hpat : last.root.pattern = some p.part.id := by rw [h2.pattern, hx]; rfl
    refine ⟨hpat, fun n => ⟨?_, ?_⟩⟩
    · rintro ⟨y, hy, h3, h4⟩
      obtain ⟨z, hz, h5⟩ := each_mem_right hk y hy
      rw [hpat, h5.pattern] at h3
      rcases List.mem_append.1 hz with hz | hz
      · exact absurd (Option.some.inj h3) (hpre z hz)
      · obtain ⟨j, hj, rfl⟩ := List.mem_map.1 hz
        have := List.mem_range.1 hj
        have h6 : y.root.matchIndex = j := h5.number
        omega
    · intro hn
      obtain ⟨y, hy, h5⟩ := each_mem_left hk (p.copy n) (List.mem_append_right _ (List.mem_map.2 ⟨n, List.mem_range.2 (by omega), rfl⟩))
      exact ⟨y, hy, by rw [hpat, h5.pattern]; rfl, by rw [h5.number]; rfl⟩
  -- the raw match of what is left
  have hstart : (0 : Int) ≤ (extent (pre ++ (List.range (k + 1)).map (Placed.copy p))).1 := by
    unfold extent
    cases (pre ++ (List.range (k + 1)).map (Placed.copy p)).head? with
    | none => exact Int.le_refl _
    | some x => exact Int.natCast_nonneg _
  have hraw : ∀ n, n ≤ k → cutBy (k + 1 - n) (pre ++ (List.range (k + 1)).map (Placed.copy p)) ≠ [] →
      RawCopies input c i (cutBy (k + 1 - n) (pre ++ (List.range (k + 1)).map (Placed.copy p))) (shortened t (some p.part.id) n) := by
    intro n hn hne'
    refine raw_copies i (shortened_made hm) (shortened_span (by omega) hpre hk hsp hne') ?_ ?_ hne (kids_shortened (by omega) hpre hk).1
    · have : (extent (cutBy (k + 1 - n) (pre ++ (List.range (k + 1)).map (Placed.copy p)))).1 = _ := extent_prefix hne'
      rw [this]; exact hstart
    · exact (extent_stop_le ho hne').1
  have hraw0 : RawCopies input c i (pre ++ (List.range (k + 1)).map (Placed.copy p)) t := by
    refine raw_copies i hm hsp hstart ?_ hne hk
    have := (extent_stop_le (n := pre.length + (k + 1)) ho (by rw [← hlen, List.take_length]; rw [← e]; exact hv)).1
    rw [← hlen, List.take_length] at this
    exact this
  have hgone : ∀ d, cutBy d (pre ++ (List.range (k + 1)).map (Placed.copy p)) = [] → ∀ d', d ≤ d' → cutBy d' (pre ++ (List.range (k + 1)).map (Placed.copy p)) = [] := by
    intro d h d' hd
    unfold cutBy at h ⊢
    rw [List.take_eq_nil_iff] at h
    rcases h with h | h
    · rw [show (pre ++ (List.range (k + 1)).map (Placed.copy p)).length - d' = 0 by omega, List.take_zero]
    · rw [h]; simp
  cases he with
  | whole h1 h2 =>
    have ha := passes_agrees hj hraw0 h1
    obtain ⟨T, h3, h4⟩ := emits_agreed hraw0 ha h2
    refine .inl ⟨_, T, ?_, h3, h4⟩
    have := Trims.kept (good := c.AgreesOn input i) (copies := pre ++ (List.range (k + 1)).map (Placed.copy p)) (d := 0) (Nat.zero_le _) (by rw [hwhole, ← e]; exact hv)
      (by rw [hwhole]; exact ha) (fun d' h => absurd h (Nat.not_lt_zero _))
    rw [hwhole] at this
    exact this
  | @shortened last n l h1 h2 h3 h4 h5 h6 =>
    obtain ⟨hpat, hrep⟩ := hlast h2
    have hn := (hrep n).1 h3
    rw [hpat] at h4 h5 h6
    -- all the longer ones are refused
    have hlonger : ∀ d', d' < k + 1 - n → cutBy d' (pre ++ (List.range (k + 1)).map (Placed.copy p)) ≠ [] →
        ¬ c.AgreesOn input i (cutBy d' (pre ++ (List.range (k + 1)).map (Placed.copy p))) := by
      intro d' hd hne'
      by_cases hz : d' = 0
      · subst hz
        rw [hwhole]
        exact fails_agrees hraw0 h1
      · have hf := h5 (k + 1 - d') ((hrep _).2 (by omega)) (by omega)
        have ed : k + 1 - (k + 1 - d') = d' := by omega
        have := hraw (k + 1 - d') (by omega) (by rw [ed]; exact hne')
        rw [ed] at this
        exact fails_agrees this hf
    by_cases hc : cutBy (k + 1 - n) (pre ++ (List.range (k + 1)).map (Placed.copy p)) = []
    · right
      refine ⟨.refused ?_, emits_nothing (shortened_nothing (by omega) hpre hk hc) h6⟩
      intro d hd hne'
      refine hlonger d ?_ hne'
      apply Nat.lt_of_not_le
      intro hle
      exact hne' (hgone _ hc _ hle)
    · left
      have hx := hraw n hn hc
      have ha := passes_agrees hj hx h4
      obtain ⟨T, h7, h8⟩ := emits_agreed hx ha h6
      refine ⟨_, T, .kept (by rw [hdrop]; omega) hc ha ?_, h7, h8⟩
      intro d' hd
      refine hlonger d' hd ?_
      intro h
      exact hc (hgone _ h _ (by omega))
  | refused h1 h2 =>
    right
    refine ⟨.refused ?_, rfl⟩
    intro d hd hne'
    rw [hdrop] at hd
    by_cases hz : d = 0
    · subst hz
      rw [hwhole]
      exact fails_agrees hraw0 h1
    · cases hl : t.children.getLast? with
      | none =>
        have := (each_getLast_none hk).2 (List.getLast?_eq_none_iff.1 hl)
        rw [← e] at this
        exact absurd this hv
      | some last =>
        obtain ⟨hpat, hrep⟩ := hlast hl
        have hf := h2 last hl (k + 1 - d) ((hrep _).2 (by omega))
        rw [hpat] at hf
        have ed : k + 1 - (k + 1 - d) = d := by omega
        have := hraw (k + 1 - d) (by omega) (by rw [ed]; exact hne')
        rw [ed] at this
        exact fails_agrees this hf

/-! ## All of them -/

theorem laid_parts {input : Str} {first : Bool} {text : Str} {pos : Nat} {xs : List Repeated} {run : List Placed} {whole : Bool} {text' : Str} {pos' : Nat}
    (h : Laid input first text pos xs run whole text' pos') : whole = true → run.map Placed.part = xs := by
  induction h with
  | all => intro _; rfl
  | short _ _ => intro h; cases h
  | none _ _ _ ih => intro h; rw [List.map_cons, ih h]
  | some _ _ _ ih => intro h; rw [List.map_cons, ih h]

/-- A run of these parts. -/
structure RunOf (xs : List Repeated) (run : List Placed) : Prop where
  parts : run.map Placed.part = xs
  shown : visible run ≠ []
  inside : ∃ a b, InOrder a b (visible run)

theorem scan_runs {xs : List Repeated} (hw : ∀ x ∈ xs, x.word.text ≠ []) {input text : Str} {pos : Nat} {l : List (List Placed)} (h : RepeatScan xs input text pos l) :
    ∀ run ∈ l, RunOf xs run := by
  induction h with
  | over _ => simp
  | nothing _ _ => simp
  | @matched text pos run text' pos' l _ h1 h2 _ ih =>
    intro r hr
    by_cases hv : visible run = []
    · rw [if_pos hv] at hr; exact ih r hr
    · rw [if_neg hv] at hr
      rcases List.mem_cons.1 hr with rfl | hr
      · exact ⟨laid_parts h1 rfl, hv, _, _, (laid_order h1 hw).2⟩
      · exact ih r hr
  | failed _ _ _ _ ih => exact ih

theorem emitsAll_trims {id : Nat} {input : Str} {c : Config} (hj : c.JudgingCopies input) (hne : input ≠ []) {xs : List Repeated} (hids : (xs.map Repeated.id).Nodup) :
    ∀ {l : List (List Placed)} {ts out : List MTree} {i : Nat}, Each (RunMatch input) l ts → (∀ run ∈ l, RunOf xs run) →
    (∀ t ∈ ts, MadeBy id c.opts.opts input t.root.start t.root.stop t.root) → ChainEmitsAll c.opts i ts out →
    ∃ hits, TrimmedHits c input i l hits ∧ Each (StandsFor input) hits (out.map MTree.root)
  | _, _, _, _, .nil, _, _, .nil => ⟨[], .nil, .nil⟩
  | _, _, _, i, .cons hr hrs, hruns, hm, .cons he hes => by
    obtain ⟨hits, g1, g2⟩ := emitsAll_trims hj hne hids hrs (fun r h => hruns r (List.mem_cons_of_mem _ h)) (fun t h => hm t (List.mem_cons_of_mem _ h)) hes
    have hrun := hruns _ List.mem_cons_self
    obtain ⟨a, b, ho⟩ := hrun.inside
    have hn := hids
    rw [← hrun.parts, List.map_map] at hn
    rcases emits_trims hj hn (hm _ List.mem_cons_self) hr ho hrun.shown hne he with ⟨cs, T, k1, rfl, k3⟩ | ⟨k1, rfl⟩
    · exact ⟨_, .kept k1 g1, .cons k3 g2⟩
    · exact ⟨hits, .refused k1 g1, g2⟩

theorem trims_some {good : List Copy → Prop} {copies cs : List Copy} (h : Trims good copies (some cs)) : ∃ d, cs = cutBy d copies ∧ cutBy d copies ≠ [] := by
  cases h with
  | kept _ h _ _ => exact ⟨_, rfl, h⟩

theorem trimmed_ahead {c : Config} {input : Str} {i : Nat} {l : List (List Placed)} {hits : List Hit} (h : TrimmedHits c input i l hits) :
    (∀ run ∈ l, ∃ a b, InOrder a b (visible run)) → l.Pairwise (fun a b => (extent (visible a)).2 ≤ (extent (visible b)).1) →
    (∀ x ∈ hits, ∃ run ∈ l, (extent (visible run)).1 = x.start ∧ x.start < x.stop ∧ x.stop ≤ (extent (visible run)).2) ∧
      hits.Pairwise (fun x y => x.stop ≤ y.start) := by
  induction h with
  | nil => intro _ _; simp
  | @kept i run copies l hits h1 _ ih =>
    intro hin hp
    obtain ⟨p1, p2⟩ := List.pairwise_cons.1 hp
    obtain ⟨g1, g2⟩ := ih (fun r h => hin r (List.mem_cons_of_mem _ h)) p2
    obtain ⟨d, rfl, hne⟩ := trims_some h1
    obtain ⟨a, b, ho⟩ := hin run List.mem_cons_self
    have e1 : (extent (cutBy d (visible run))).1 = _ := extent_prefix hne
    have e2 := extent_stop_le ho hne
    have e3 : (extent (cutBy d (visible run))).1 < (extent (cutBy d (visible run))).2 := e2.1
    have e4 : (extent (cutBy d (visible run))).2 ≤ _ := e2.2
    refine ⟨?_, List.pairwise_cons.2 ⟨?_, g2⟩⟩
    · intro x hx
      rcases List.mem_cons.1 hx with rfl | hx
      · exact ⟨run, List.mem_cons_self, e1.symm, e3, e4⟩
      · obtain ⟨r, hr, h⟩ := g1 x hx
        exact ⟨r, List.mem_cons_of_mem _ hr, h⟩
    · intro x hx
      obtain ⟨r, hr, h, _⟩ := g1 x hx
      have := p1 r hr
      show (extent (cutBy d (visible run))).2 ≤ x.start
      omega
  | @refused i run l hits _ _ ih =>
    intro hin hp
    obtain ⟨g1, g2⟩ := ih (fun r h => hin r (List.mem_cons_of_mem _ h)) (List.pairwise_cons.1 hp).2
    refine ⟨?_, g2⟩
    intro x hx
    obtain ⟨r, hr, h⟩ := g1 x hx
    exact ⟨r, List.mem_cons_of_mem _ hr, h⟩

/-- **C122**, from end to end: a rebulk with the default rules and one chain of strings with repeaters and a validator finds, from left to right, exactly the matches of `RepeatScan`
as the validator leaves them: each whole if it is accepted, else without the fewest copies of its last string that have to be dropped for the validator to accept it, and not at all
if the validator never does. None is removed as conflicting. -/
theorem C122_search {env : Env (List Match)} (henv : DefaultEnv env) {r : RebulkObj Ctx} (hr : DefaultRulesOnly r) (input : Str) (ctx : Ctx)
    (hd : r.disabled ctx = false) (info : PatternInfo Ctx) (hi : info.disabled ctx = false) (id : Nat) (c : Config) (hf : Proper c.formatter) (hv : Proper c.validator)
    (hj : c.JudgingCopies input) {parts : PartObjs Ctx} {xs : List Repeated} (hw : ∀ x ∈ xs, x.word.text ≠ []) (hids : (xs.map Repeated.id).Nodup)
    (hparts : RepeatedParts parts xs) (hp : r.effectivePatterns ctx = [.chain info (Pattern.init id c.opts) none parts]) :
    ∃ l hits f, RepeatScan xs input input 0 l ∧ TrimmedHits c input 0 l hits ∧ r.matches_ env input ctx = .ok f ∧ Each (StandsFor input) hits f.found.delegate ∧
      f.markers.delegate = [] ∧ LookupsRight f.found ∧ LookupsRight f.markers := by
  classical
  have hrun := repeated_parts (lower := env.lower) hparts
  have hgood : ∀ p ∈ PatternObj.runParts env.lower parts, RegularPart p ∧ Answers p ∧ PlainPart p := by
    intro p hp
    obtain ⟨x, hx, rfl⟩ := each_mem_right hrun p hp
    exact ⟨repeatedPart_regular _ (hw x hx), repeatedPart_answers _ (hw x hx), repeatedPart_plain _ (hw x hx)⟩
  obtain ⟨ts, out, raws, h0, h1, h2, pieces, h3, h4⟩ := validated_raw
    (c := { pattern := Pattern.init id c.opts, parts := PatternObj.runParts env.lower parts, breaker := none }) id c.opts rfl input
    (fun p hp => (hgood p hp).2.2) (fun p hp => (hgood p hp).2.1) ⟨hf, hv, rfl, rfl, by
      intro t hi
      rcases hi with hi | hi
      · rcases hi with hi | hi <;> cases hi
      · cases hi⟩
  have h4 : out = pieces := h4
  subst h4
  obtain ⟨l, l1, l2⟩ := scans_repeated hw (by rfl) hrun h2 0 rfl
  have hleaf := rawMatches_leafy (fun p hp => (hgood p hp).2.2) h0
  have l3 : Each (RunMatch input) l ts := each_imp_mem l2 (fun run t ht h => h.ordered (hleaf t ht))
  have hmade := scans_made (fun p hp => (hgood p hp).1) h2 (Int.le_refl 0)
  have hruns := scan_runs hw l1
  -- an empty input has no matches
  obtain ⟨hits, k1, k2⟩ : ∃ hits, TrimmedHits c input 0 l hits ∧ Each (StandsFor input) hits (out.map MTree.root) := by
    by_cases hne : input = []
    · cases l3 with
      | nil => cases h3 with | nil => exact ⟨[], .nil, .nil⟩
      | cons _ _ => exact absurd hne (hmade _ List.mem_cons_self).2.2.1
    · exact emitsAll_trims hj hne hids l3 hruns (fun t ht => (hmade t ht).2.2.2) h3
  obtain ⟨j1, j2⟩ := trimmed_ahead k1 (fun run h => (hruns run h).inside) (repeat_ahead hw l1).2
  have hcol : Collects env.lower ctx input (r.effectivePatterns ctx) (out ++ []) := by
    rw [hp]
    refine .enabled hi ?_ .nil
    show (match Chain.run _ input with | .error e => Except.error e | .ok (ms, _) => .ok ms) = _
    rw [h1]
  rw [List.append_nil] at hcol
  obtain ⟨f, f1, f2, f3, f4⟩ := hits_found henv hr input ctx hd hcol k2 (fun x hx => by obtain ⟨_, _, _, h, _⟩ := j1 x hx; exact h)
  refine ⟨l, hits, f, l1, k1, f1, ?_, f3, f4⟩
  rw [List.filter_eq_self.2] at f2
  · exact f2
  · intro x hx
    refine decide_eq_true ?_
    rintro ⟨y, hy, a, b, d⟩
    obtain ⟨i, hil, rfl⟩ := List.getElem_of_mem hx
    obtain ⟨j, hjl, rfl⟩ := List.getElem_of_mem hy
    have hpw := List.pairwise_iff_getElem.1 j2
    rcases Nat.lt_trichotomy i j with h | h | h
    · have := hpw i j hil hjl h; omega
    · subst h; omega
    · have := hpw j i hjl hil h; omega

theorem cut_length (d : Nat) (copies : List Copy) : (cutBy d copies).length = copies.length - d := by
  unfold cutBy
  rw [List.length_take]
  omega

theorem trims_unique {good : List Copy → Prop} {copies : List Copy} {a b : Option (List Copy)} (h : Trims good copies a) (h' : Trims good copies b) : a = b := by
  cases h with
  | kept h1 h2 h3 h4 =>
    cases h' with
    | kept g1 g2 g3 g4 =>
      rename_i d d'
      rcases Nat.lt_trichotomy d d' with h | h | h
      · exact absurd h3 (g4 _ h)
      · rw [h]
      · exact absurd g3 (h4 _ h)
    | refused g => exact absurd h3 (g _ h1 h2)
  | refused h =>
    cases h' with
    | kept g1 g2 g3 g4 => exact absurd g3 (h _ g1 g2)
    | refused _ => rfl

/-- **C122**: there is one answer only. -/
theorem C122_one_answer {c : Config} {input : Str} {i : Nat} {l : List (List Placed)} {hits : List Hit} (h : TrimmedHits c input i l hits) :
    ∀ {hits' : List Hit}, TrimmedHits c input i l hits' → hits = hits' := by
  induction h with
  | nil => intro _ h; cases h; rfl
  | kept h1 _ ih =>
    intro _ h
    cases h with
    | kept g1 g2 => cases trims_unique h1 g1; rw [ih g2]
    | refused g1 g2 => cases trims_unique h1 g1
  | refused h1 _ ih =>
    intro _ h
    cases h with
    | kept g1 g2 => cases trims_unique h1 g1
    | refused g1 g2 => rw [ih g2]

/-- **C122**: what is found is accepted: each hit is made of the first visible copies of one of the matches of the search, at least one, all strings but the last with all their copies, and the validator
accepts it. -/
theorem C122_accepted {c : Config} {input : Str} {i : Nat} {l : List (List Placed)} {hits : List Hit} (h : TrimmedHits c input i l hits) :
    ∀ x ∈ hits, ∃ (j : Nat) (run : List Placed) (copies dropped : List Copy), l[j]? = some run ∧ visible run = copies ++ dropped ∧ copies ≠ [] ∧
      dropped.length ≤ droppable (visible run) ∧ x = c.copiesHit input (i + j) copies ∧ c.AgreesOn input (i + j) copies := by
  induction h with
  | nil => simp
  | @kept i run copies l hits h1 _ ih =>
    intro x hx
    rcases List.mem_cons.1 hx with rfl | hx
    · cases h1 with
      | @kept d g1 g2 g3 g4 =>
        refine ⟨0, run, cutBy d (visible run), (visible run).drop ((visible run).length - d), rfl, (List.take_append_drop _ _).symm, g2, ?_, rfl, g3⟩
        rw [List.length_drop]
        omega
    · obtain ⟨j, r, cs, ds, h1, h2, h3, h4, h5, h6⟩ := ih x hx
      have e : i + 1 + j = i + (j + 1) := by omega
      rw [e] at h5 h6
      exact ⟨j + 1, r, cs, ds, by simpa using h1, h2, h3, h4, h5, h6⟩
  | @refused i run l hits h1 _ ih =>
    intro x hx
    obtain ⟨j, r, cs, ds, h1, h2, h3, h4, h5, h6⟩ := ih x hx
    have e : i + 1 + j = i + (j + 1) := by omega
    rw [e] at h5 h6
    exact ⟨j + 1, r, cs, ds, by simpa using h1, h2, h3, h4, h5, h6⟩

/-- At most four characters. -/
def atMostFour (t : MTree) : Bool := decide (t.root.len ≤ 4)

/-- `"c"`, then `"ab"` once or more. -/
def exTrimmed : List Repeated := [{ id := 1, word := ⟨"c".toList, none, []⟩, least := 1, most := some 1 }, { id := 2, word := ⟨"ab".toList, some "x", []⟩, least := 1, most := none }]

/-- `chain(name="n", validator=atMostFour).string("c").string("ab", name="x").repeater("+").close()`. -/
def exTrimmedChain : PatternObj Unit :=
  .chain {} (Pattern.init 0 { name := some "n", validator := .one (some atMostFour) : Config }.opts) none
    (.cons (.string {} (Pattern.init 1 (Word.opts ⟨"c".toList, none, []⟩)) {} ["c".toList]) 1 (some 1) false
      (.cons (.string {} (Pattern.init 2 (Word.opts ⟨"ab".toList, some "x", []⟩)) {} ["ab".toList]) 1 none false .nil))

theorem atMostFour_judging (c : Config) (input : Str) (h : c.validator = .one (some atMostFour)) : c.JudgingCopies input := by
  intro i cs v hv t t' h1 h2 _ _
  rw [h, chosen_one] at hv
  cases hv
  have e1 : t.root.start = t'.root.start := (congrArg Prod.fst h1.span).trans (congrArg Prod.fst h2.span).symm
  have e2 : t.root.stop = t'.root.stop := (congrArg Prod.snd h1.span).trans (congrArg Prod.snd h2.span).symm
  unfold atMostFour Match.len
  rw [e1, e2]

/-- The hypotheses are met: this chain on `xcababcab` has two matches, from 1 to 6 and from 6 to 9; the first one is too long, and found from 1 to 4. -/
example : (∃ l hits f, RepeatScan exTrimmed "xcababcab".toList "xcababcab".toList 0 l ∧
      TrimmedHits { name := some "n", validator := .one (some atMostFour) } "xcababcab".toList 0 l hits ∧
      (exRebulk [exTrimmedChain] []).matches_ exEnv "xcababcab".toList () = .ok f ∧
      Each (StandsFor "xcababcab".toList) hits f.found.delegate) ∧
    (match (exRebulk [exTrimmedChain] []).matches_ exEnv "xcababcab".toList () with | .ok f => f.found.delegate.map Match.span | .error _ => []) = [(1, 4), (6, 9)] := by
  refine ⟨?_, ?_⟩
  · obtain ⟨l, hits, f, h1, h2, h3, h4, _⟩ := C122_search (env := exEnv) exEnv_default (r := exRebulk [exTrimmedChain] []) (exRebulk_default _ _) "xcababcab".toList () rfl {} rfl 0
      { name := some "n", validator := .one (some atMostFour) } (by intro a h; cases h) (by intro a h; cases h; intro h; cases h) (atMostFour_judging _ _ rfl) (xs := exTrimmed)
      (by intro x hx; simp [exTrimmed] at hx; rcases hx with rfl | rfl <;> simp) (by decide)
      (.cons {} _ (.cons {} _ .nil)) rfl
    exact ⟨l, hits, f, h1, h2, h3, h4⟩
  · decide +kernel

/-- At most one character. -/
def atMostOne (t : MTree) : Bool := decide (t.root.len ≤ 1)

/-- `chain(validator=atMostOne).string("c").string("ab").repeater("+").close()`. -/
def exDroppedChain : PatternObj Unit :=
  .chain {} (Pattern.init 0 { validator := .one (some atMostOne) : Config }.opts) none
    (.cons (.string {} (Pattern.init 1 (Word.opts ⟨"c".toList, none, []⟩)) {} ["c".toList]) 1 (some 1) false
      (.cons (.string {} (Pattern.init 2 (Word.opts ⟨"ab".toList, none, []⟩)) {} ["ab".toList]) 1 none false .nil))

/-- **C122**, what one might expect but is false: that the matches found have all the strings that the repeaters require. The chain of `"c"` and then `"ab"` once or more, with a validator
that wants at most one character, finds in `xcabab` the `c` alone: the validator may drop all the copies of the last string, also those that are required. -/
theorem C122_required_dropped : (match (exRebulk [exDroppedChain] []).matches_ exEnv "xcabab".toList () with
    | .ok f => f.found.delegate.map Match.span | .error _ => []) = [(1, 2)] := by
  decide +kernel

end Rebulk
