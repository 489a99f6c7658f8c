import Verif.Lemmas.History
import Verif.Props.Container
/-!
# C05, C07: what a container still knows of its past

`names`, `tags` and `max_end` do not speak about the current content only (`C05_names_refuted`,
`C07_max_end_refuted`). These theorems say, for every history of calls (item assignment, slice deletion and reversal
included), what they do speak about.
-/
namespace Rebulk
open Spec Matches

theorem mem_nameKeys (m : Match) (n : String) : n ∈ nameKeys m ↔ HasName n m := by
  unfold nameKeys Match.nameKey HasName
  cases hn : m.name with
  | none => simp
  | some x =>
    by_cases hx : x = ""
    · subst hx
      simp only [Option.some.injEq]
      constructor
      · intro h; simp at h
      · rintro ⟨h1, h2⟩; exact absurd h2.symm h1
    · have : x.isEmpty = false := by
        cases h : x.isEmpty with
        | false => rfl
        | true => exact absurd (String.isEmpty_iff.1 h) hx
      simp only [this, Bool.false_eq_true, if_false, Option.toList_some, List.mem_singleton, Option.some.injEq]
      exact ⟨fun h => ⟨h ▸ hx, h.symm⟩, fun h => h.2.symm⟩

/-- Asking for the keys at the end of a history: the keys are those of the same history followed by that call. -/
theorem keys_asked {proj : Matches → Option (Index String)} {keysOf : Match → List String} {looks : Op → Prop} {asks : Op → String → Prop}
    (hstep : ∀ (s : Matches) op, Fits s.isMarkers op → (∀ x ∈ s.delegate, x.marker = s.isMarkers) →
      KeyStep keysOf (looks op) (asks op) (proj s) (proj (s.step op).1) s.delegate (s.step op).1.delegate)
    (hlook : ∀ (s : Matches) op, looks op → (s.step op).1.delegate = s.delegate)
    {s : Matches} (h0 : proj s = none) (hs : ∀ x ∈ s.delegate, x.marker = s.isMarkers) (ops : List Op) (hf : ∀ op ∈ ops, Fits s.isMarkers op)
    (q : Op) (hq : looks q) (hqa : ∀ k, ¬ asks q k) (hqf : ∀ b, Fits b q) :
    ∃ j, FirstCall ops looks j ∧ ∃ e, proj ((s.runOps ops).step q).1 = some e ∧
      ∀ k, k ∈ e.keys ↔ HeldSince s ops j (fun m => k ∈ keysOf m) ∨ AskedSince ops j (fun op => asks op k) := by
  obtain ⟨j, hj⟩ := firstCall_exists looks (ops ++ [q])
  have hrun := keys_history hstep hlook h0 hs (ops ++ [q]) (fun op ho => by
    rcases List.mem_append.1 ho with h | h
    · exact hf op h
    · rw [List.mem_singleton.1 h]; exact hqf _)
  have hle : j ≤ ops.length := by
    rcases firstCall_snoc hj with h | ⟨_, h | h⟩
    · exact Nat.le_of_lt h.1
    · exact Nat.le_of_eq h.1
    · exact absurd hq h.2
  have hjo : FirstCall ops looks j := by
    rcases firstCall_snoc hj with h | ⟨h, h' | h'⟩
    · exact h.2
    · exact h'.1 ▸ h
    · exact absurd hq h'.2
  obtain ⟨e, he, hk⟩ := (hrun.2.2 j hj).2 (by rw [List.length_append, List.length_singleton]; omega)
  rw [runOps_snoc] at he
  refine ⟨j, hjo, e, he, fun k => ?_⟩
  rw [hk, heldSince_snoc _ _ _ hle, askedSince_snoc _ _ hle, runOps_snoc, hlook _ _ hq]
  constructor
  · rintro ((h | ⟨m, hm, h⟩) | h | h)
    · exact Or.inl h
    · exact Or.inl ⟨ops.length, hle, Nat.le_refl _, m, by rw [after_length]; exact hm, h⟩
    · exact Or.inr h
    · exact absurd h (hqa k)
  · rintro (h | h)
    · exact Or.inl (Or.inl h)
    · exact Or.inr (Or.inl h)

theorem step_looksAtNames (s : Matches) (op : Op) (h : LooksAtNames op) : (s.step op).1.delegate = s.delegate := by
  cases op with
  | named ns => exact (named_tagD (fromKeys ns) s []).2.1
  | names => rfl
  | _ => cases h

theorem step_looksAtTags (s : Matches) (op : Op) (h : LooksAtTags op) : (s.step op).1.delegate = s.delegate := by
  cases op with
  | tagged t => rfl
  | tags => rfl
  | _ => cases h

/-- **C05, exact**: after any history of calls, `names` lists exactly the names that a match of the container has had
since the container first looked at names, together with the names asked for since then; likewise `tags`. When the
container has not looked yet, that is exactly the names present. -/
theorem C05_exact (isMarkers : Bool) (input : Option Str) (ops : List Op) (hops : ∀ op ∈ ops, Fits isMarkers op) :
    let s₀ := empty isMarkers input
    (∃ j, FirstCall ops LooksAtNames j ∧ ∃ ks, ((s₀.runOps ops).step .names).2 = .keys ks ∧
      ∀ n, n ∈ ks ↔ HeldSince s₀ ops j (HasName n) ∨ AskedSince ops j (fun op => AsksName op n)) ∧
    (∃ j, FirstCall ops LooksAtTags j ∧ ∃ ks, ((s₀.runOps ops).step .tags).2 = .keys ks ∧
      ∀ t, t ∈ ks ↔ HeldSince s₀ ops j (fun m => t ∈ m.tags) ∨ AskedSince ops j (fun op => AsksTag op t)) := by
  intro s₀
  constructor
  · obtain ⟨j, hj, e, he, hk⟩ := keys_asked (s := s₀) (proj := Matches.nameD) (keysOf := nameKeys) (looks := LooksAtNames) (asks := AsksName)
      (fun s op hf hs => (keyStep_names op hf hs).1) step_looksAtNames rfl (fun x hx => by cases hx) ops hops .names trivial
      (fun k ⟨_, h, _⟩ => by cases h) (fun _ _ h => by cases h)
    refine ⟨j, hj, e.keys, ?_, fun n => ?_⟩
    · have : (some (s₀.runOps ops).nameDict) = some e := he
      rw [← Option.some.inj this]
      rfl
    · rw [hk]
      simp only [mem_nameKeys]
  · obtain ⟨j, hj, e, he, hk⟩ := keys_asked (s := s₀) (proj := Matches.tagD) (keysOf := tagKeys) (looks := LooksAtTags) (asks := AsksTag)
      (fun s op hf hs => keyStep_tags op hf hs) step_looksAtTags rfl (fun x hx => by cases hx) ops hops .tags trivial
      (fun k h => by cases h) (fun _ _ h => by cases h)
    refine ⟨j, hj, e.keys, ?_, fun n => hk n⟩
    have : (some (s₀.runOps ops).tagDict) = some e := he
    rw [← Option.some.inj this]
    rfl

theorem maxEndP_mono {s s' : Matches} (hi : s'.inputString = s.inputString) (h : s.maxEnd ≤ s'.maxEnd) : s.maxEndP ≤ s'.maxEndP := by
  unfold maxEndP
  rw [hi]
  cases s.inputString with
  | none => exact h
  | some str =>
    simp only
    split
    · exact h
    · omega

theorem le_maxEndP (s : Matches) : s.maxEnd ≤ s.maxEndP := by
  unfold maxEndP
  cases s.inputString with
  | none => exact Int.le_refl _
  | some str =>
    simp only
    split
    · exact Int.le_refl _
    · omega

theorem maxEndP_cases (s : Matches) : s.maxEndP = s.maxEnd ∨ ∃ str, s.inputString = some str ∧ s.maxEndP = str.length := by
  unfold maxEndP
  cases s.inputString with
  | none => exact Or.inl rfl
  | some str =>
    simp only
    split
    · exact Or.inl rfl
    · by_cases hle : (str.length : Int) ≤ s.maxEnd
      · exact Or.inl (Int.max_eq_right hle)
      · exact Or.inr ⟨str, rfl, Int.max_eq_left (Int.le_of_lt (Int.not_le.1 hle))⟩

/-- **C07, exact**: along any history of calls `max_end` never decreases; it is at least the length of the input and the
end of every match the container has ever held; and it is 0, the length of the input, the end of a match held at some
time, or a position some earlier call asked about as an end. -/
theorem C07_exact (isMarkers : Bool) (input : Option Str) (ops : List Op) (hops : ∀ op ∈ ops, Fits isMarkers op) :
    let s₀ := empty isMarkers input
    let x := (s₀.runOps ops).maxEndP
    (∀ k, k ≤ ops.length → (after s₀ ops k).maxEndP ≤ x ∧ ∀ m ∈ (after s₀ ops k).delegate, m.stop ≤ x) ∧
    (∀ str, input = some str → (str.length : Int) ≤ x) ∧
    (x = 0 ∨ (∃ str, input = some str ∧ x = str.length) ∨ HeldSince s₀ ops 0 (fun m => m.stop = x) ∨
      AskedSince ops 0 (fun op => AsksEnd op x)) := by
  intro s₀ x
  have hist := fun (l : List Op) (hl : ∀ op ∈ l, op ∈ ops) =>
    ends_history (s := s₀) rfl (fun x hx => by cases hx) (fun x hx => by cases hx) l (fun op ho => hops op (hl op ho))
  have hin : (s₀.runOps ops).inputString = input := (same_run_all s₀ ops).1
  have hmono : ∀ (l l' : List Op), l ++ l' = ops → (s₀.runOps l).maxEnd ≤ (s₀.runOps (l ++ l')).maxEnd := by
    intro l
    refine snoc_induction ?_ ?_
    · intro _; rw [List.append_nil]; exact Int.le_refl _
    · intro l' op _ h
      have aux : ∀ (l' : List Op), (∀ o ∈ l ++ l', o ∈ ops) → (s₀.runOps l).maxEnd ≤ (s₀.runOps (l ++ l')).maxEnd := by
        refine snoc_induction ?_ ?_
        · intro _; rw [List.append_nil]; exact Int.le_refl _
        · intro l' op ih hsub
          rw [← List.append_assoc] at hsub ⊢
          have hsub' : ∀ o ∈ l ++ l', o ∈ ops := fun o ho => hsub o (List.mem_append_left _ ho)
          rw [runOps_snoc]
          have hmk : (s₀.runOps (l ++ l')).isMarkers = isMarkers := (same_run_all s₀ (l ++ l')).2
          refine Int.le_trans (ih hsub') (endStep_step op ?_ ?_).grows
          · rw [hmk]; exact hops op (hsub op (List.mem_append_right _ (List.mem_singleton_self _)))
          · rw [hmk]; exact (hist (l ++ l') hsub').1
      exact aux (l' ++ [op]) (fun o ho => h ▸ ho)
  obtain ⟨_, _, _, h4⟩ := hist ops (fun _ h => h)
  refine ⟨fun k hk => ?_, fun str hstr => ?_, ?_⟩
  · have hm := hmono (ops.take k) (ops.drop k) (List.take_append_drop k ops)
    rw [List.take_append_drop] at hm
    have hb := (hist (ops.take k) (fun _ h => List.mem_of_mem_take h)).2.1
    refine ⟨maxEndP_mono (hin.trans (same_run_all s₀ (ops.take k)).1.symm) hm, fun m hmm => ?_⟩
    exact Int.le_trans (Int.le_trans (hb m hmm) hm) (le_maxEndP _)
  · show (str.length : Int) ≤ (s₀.runOps ops).maxEndP
    unfold maxEndP
    rw [hin, hstr]
    simp only
    split
    · next h =>
      rw [List.isEmpty_iff.1 h]
      have := hmono [] ops rfl
      exact this
    · omega
  · have hx : x = (s₀.runOps ops).maxEnd ∨ ∃ str, input = some str ∧ x = str.length := hin ▸ maxEndP_cases (s₀.runOps ops)
    rcases hx with hx | hx
    · rw [hx]
      rcases h4 with h | h | h
      · exact Or.inl h
      · exact Or.inr (Or.inr (Or.inl h))
      · exact Or.inr (Or.inr (Or.inr h))
    · exact Or.inr (Or.inl hx)

/-- A history: the container looks at names, a match named `a` comes and goes, `x` is asked for, a match is replaced. -/
def historyOps : List Op :=
  [.append (mk 0 5 (some "a") ["t"]), .names, .delItem 0, .named ["x"], .append (mk 0 3 (some "b")), .setItem 0 (mk 1 9 (some "c")), .ending 40,
   .delItem 0]

example : ∀ op ∈ historyOps, Fits false op := by decide

/-- `names`: the past name `a`, the asked name `x`, the replaced match's `b` and the last `c`; nothing is in the container. -/
example : (((empty false none).runOps historyOps).step .names).2 = .keys ["a", "x", "b", "c"] ∧
    ((empty false none).runOps historyOps).delegate = [] := ⟨rfl, rfl⟩
/-- `tags`: the container had not looked at tags, so only the present ones count. -/
example : (((empty false none).runOps historyOps).step .tags).2 = .keys [] := rfl
/-- `max_end`: 9 from the replaced match, then 40, the position asked about. -/
example : ((empty false none).runOps historyOps).maxEndP = 40 ∧ ((empty false none).runOps (historyOps.take 7)).maxEndP = 9 := ⟨rfl, rfl⟩

end Rebulk
