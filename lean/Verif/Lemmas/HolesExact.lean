import Verif.Lemmas.Holes
import Verif.Spec.HolesExact
/-!
# Lemmas on `holes` with separators, exactly
-/
namespace Rebulk
open Spec
namespace Matches

/-- A span moved up to `start`, as far as it begins before. -/
def upTo (start : Int) (ab : Int × Int) : Int × Int := (max start ab.1, ab.2)

/-- The loop run for `start` and the one run for the place it begins at. -/
structure Shadow (start : Int) (h h' : HoleSt) : Prop where
  closed : h.closed = h'.closed.map (upTo start)
  opened : h.openAt = h'.openAt.map (max start)
  idx : h'.openAt ≠ none → h.rindex = h'.rindex

theorem Shadow.step {start lo : Int} {h h' : HoleSt} (hs : Shadow start h h') (c b : Bool) {r : Int} (hr : lo ≤ r) :
    Shadow start (holeStep start c b h r) (holeStep lo c b h' r) := by
  obtain ⟨h1, h2, h3⟩ := hs
  cases ho : h'.openAt with
  | none =>
    rw [ho] at h2
    have h2 : h.openAt = none := h2
    cases c with
    | true =>
      simp only [holeStep, ho, h2, if_true]
      exact ⟨h1, by simp [ho, h2], fun _ => rfl⟩
    | false =>
      have e1 : max r lo = r := by omega
      simp only [holeStep, ho, h2, Bool.false_eq_true, if_false, e1]
      exact ⟨h1, by simp; omega, fun _ => rfl⟩
  | some a =>
    rw [ho] at h2
    have h2 : h.openAt = some (max start a) := h2
    by_cases hb : b = true ∨ c = true
    · have e1 : holeStep start c b h r = ⟨h.closed ++ [(max start a, r)], none, r⟩ := by rcases hb with hb | hb <;> simp [holeStep, h2, hb]
      have e2 : holeStep lo c b h' r = ⟨h'.closed ++ [(a, r)], none, r⟩ := by rcases hb with hb | hb <;> simp [holeStep, ho, hb]
      rw [e1, e2]
      exact ⟨by simp [h1, upTo], rfl, fun hn => absurd rfl hn⟩
    · have hb1 : b = false := by cases b <;> simp_all
      have hb2 : c = false := by cases c <;> simp_all
      subst hb1 hb2
      simp only [holeStep, ho, h2, Bool.false_eq_true, if_false]
      exact ⟨h1, by simp [ho, h2], fun _ => rfl⟩

theorem Shadow.fold {start lo : Int} (cur sep : Int → Bool) : ∀ (rs : List Int) {h h' : HoleSt}, Shadow start h h' → (∀ r ∈ rs, lo ≤ r) →
    Shadow start (holesFold start cur sep rs h) (holesFold lo cur sep rs h')
  | [], _, _, hs, _ => hs
  | r :: rs, _, _, hs, hr =>
    Shadow.fold cur sep rs (hs.step (cur r) (sep r) (hr r List.mem_cons_self)) (fun x hx => hr x (List.mem_cons_of_mem _ hx))

/-- An uncovered index already seen is in a hole, or right behind one. -/
def Skips (cur : Int → Bool) (lo r : Int) (h : HoleSt) : Prop :=
  (∀ i, lo ≤ i → i < r → cur i = false → (∃ x ∈ h.closed, x.1 ≤ i ∧ i < x.2) ∨ (∃ x ∈ h.closed, x.2 = i) ∨ ∃ a, h.openAt = some a ∧ a ≤ i) ∧
  ∀ a, h.openAt = some a → a < r

theorem Skips.step {cur sep : Int → Bool} {lo r : Int} {h : HoleSt} (hs : Skips cur lo r h) (hlo : lo ≤ r) :
    Skips cur lo (r + 1) (holeStep lo (cur r) (sep r) h r) := by
  obtain ⟨h1, h2⟩ := hs
  cases ho : h.openAt with
  | none =>
    cases hc : cur r with
    | true =>
      have e : holeStep lo true (sep r) h r = { h with rindex := r } := by simp [holeStep, ho]
      rw [e]
      refine ⟨fun i hi1 hi2 hi3 => ?_, fun a ha => ?_⟩
      · have hne : i ≠ r := by rintro rfl; rw [hc] at hi3; cases hi3
        exact h1 i hi1 (by omega) hi3
      · have := h2 a ha; omega
    | false =>
      have e1 : max r lo = r := by omega
      have e : holeStep lo false (sep r) h r = ⟨h.closed, some r, r⟩ := by simp [holeStep, ho, e1]
      rw [e]
      refine ⟨fun i hi1 hi2 hi3 => ?_, fun a ha => ?_⟩
      · by_cases hir : i = r
        · exact Or.inr (Or.inr ⟨r, rfl, by omega⟩)
        · rcases h1 i hi1 (by omega) hi3 with h | h | ⟨a, ha, _⟩
          · exact Or.inl h
          · exact Or.inr (Or.inl h)
          · rw [ho] at ha; cases ha
      · simp only [Option.some.injEq] at ha; omega
  | some a =>
    have ha := h2 a ho
    by_cases hb : sep r = true ∨ cur r = true
    · have e : holeStep lo (cur r) (sep r) h r = ⟨h.closed ++ [(a, r)], none, r⟩ := by rcases hb with hb | hb <;> simp [holeStep, ho, hb]
      rw [e]
      refine ⟨fun i hi1 hi2 hi3 => ?_, fun a ha => by cases ha⟩
      by_cases hir : i = r
      · exact Or.inr (Or.inl ⟨(a, r), by simp, hir.symm⟩)
      · rcases h1 i hi1 (by omega) hi3 with ⟨x, hx, h⟩ | ⟨x, hx, h⟩ | ⟨a', ha', h⟩
        · exact Or.inl ⟨x, List.mem_append_left _ hx, h⟩
        · exact Or.inr (Or.inl ⟨x, List.mem_append_left _ hx, h⟩)
        · rw [ho] at ha'; cases ha'
          exact Or.inl ⟨(a, r), by simp, h, by simp only; omega⟩
    · have hb1 : sep r = false := by cases hx : sep r <;> simp_all
      have hb2 : cur r = false := by cases hx : cur r <;> simp_all
      have e : holeStep lo (cur r) (sep r) h r = { h with rindex := r } := by simp [holeStep, ho, hb1, hb2]
      rw [e]
      refine ⟨fun i hi1 hi2 hi3 => ?_, fun a' ha' => ?_⟩
      · by_cases hir : i = r
        · exact Or.inr (Or.inr ⟨a, ho, by omega⟩)
        · exact h1 i hi1 (by omega) hi3
      · have := h2 a' ha'; omega

theorem Skips.run {cur sep : Int → Bool} {lo e : Int} (he : lo ≤ e) (h0 : HoleSt) (ho : h0.openAt = none) :
    Skips cur lo e (holesFold lo cur sep (pyRange lo e) h0) := by
  suffices H : ∀ n : Nat, Skips cur lo (lo + n) (holesFold lo cur sep (pyRange lo (lo + n)) h0) by
    have := H (e - lo).toNat
    have heq : lo + ((e - lo).toNat : Int) = e := by omega
    rwa [heq] at this
  intro n
  induction n with
  | zero =>
    rw [pyRange_eq_nil (by omega)]
    exact ⟨fun i h1 h2 => by omega, fun a ha => by simp only [holesFold, List.foldl_nil] at ha; rw [ho] at ha; cases ha⟩
  | succ n ih =>
    have : lo + ((n + 1 : Nat) : Int) = (lo + n) + 1 := by omega
    rw [this, pyRange_snoc (by omega)]
    unfold holesFold at ih ⊢
    rw [List.foldl_append]
    exact ih.step (by omega)

theorem holeStart_last {s : Matches} (hi : Inv s) {ignore : Match → Bool} (hp : RespectsEq ignore) {start : Int} (h0 : 0 ≤ start) :
    LastStart s.delegate ignore start (s.holeStart start ignore).2 := by
  unfold holeStart
  simp only [holeScan_eq]
  cases hf : (pyRange 0 start).reverse.find? (fun i => (s.startDict.getList i).any (fun m => !ignore m)) with
  | none =>
    simp only [Option.getD_none]
    refine ⟨by omega, h0, Or.inl rfl, fun x hx hix hlt => ?_⟩
    rcases Int.lt_or_le 0 x.start with h | h
    · have h1 := pyRange_reverse_find_none hf x.start (by omega) hlt
      have h2 := (startsAt_iff hi hp x.start).2 ⟨x, hx, hix, rfl⟩
      rw [h2] at h1; cases h1
    · exact h
  | some k =>
    simp only [Option.getD_some]
    have hpw : ((pyRange 0 start).reverse).Pairwise (fun a b => b < a) := by
      rw [List.pairwise_reverse]; exact pyRange_pairwise _ _
    obtain ⟨h1, h2, h3⟩ := find?_sorted hpw hf
    rw [List.mem_reverse, mem_pyRange] at h1
    refine ⟨by omega, by omega, Or.inr ⟨by omega, (startsAt_iff hi hp k).1 h2⟩, fun x hx hix hlt => ?_⟩
    rcases Int.lt_or_le x.start 0 with h | h
    · omega
    · have := h3 x.start (by rw [List.mem_reverse, mem_pyRange]; omega) ((startsAt_iff hi hp x.start).2 ⟨x, hx, hix, rfl⟩)
      omega

/-- `holes`, exactly: the cut holes from the last match started before `start` on, moved up to `start`. -/
theorem holes_exact {s : Matches} (hi : Inv s) {start : Int} {stop : Option Int} {ignore : Match → Bool} (hp : RespectsEq ignore)
    {seps : Option Str} (h0 : 0 ≤ start) (hne : ∀ x ∈ s.delegate, ignore x = false → x.start < x.stop)
    (hin : seps = none ∨ ∃ str, s.inputString = some str ∧ str ≠ [] ∧ s.clampEnd stop ≤ str.length) :
    ∃ ls full, LastStart s.delegate ignore start ls ∧
      CutHoles (Free s.delegate ignore) (fun i => sepAt seps s.inputString i = true) ls (s.clampEnd stop) full ∧
      (s.holes start stop ignore seps).2 = .ok (full.map (upTo start)) := by
  have hlast := holeStart_last hi hp h0
  have hin' : seps = none ∨ ∃ str, s.inputString = some str ∧ str ≠ [] ∧
      ∀ r, (s.holeStart start ignore).2 ≤ r → r < s.clampEnd stop → ∃ c, pyGet str r = some c := by
    have := hlast.nonneg
    rcases hin with h | ⟨str, h, h1, h2⟩
    · exact Or.inl h
    · refine Or.inr ⟨str, h, h1, ?_⟩
      intro r hr1 hr2
      have hlt : r.toNat < str.length := by omega
      refine ⟨str[r.toNat], ?_⟩
      unfold pyGet normIdx
      rw [if_pos (by omega), if_pos (by omega)]
      exact List.getElem?_eq_getElem hlt
  obtain ⟨s', hsim, heq⟩ := holes_eq hin'
  refine ⟨(s.holeStart start ignore).2, ?_⟩
  rw [heq]
  simp only
  generalize (s.holeStart start ignore).2 = ls at *
  have hsh := Shadow.fold (start := start) (lo := ls) (s.curAt ignore) (sepAt seps s.inputString) (pyRange ls (s.clampEnd stop))
    (h := { rindex := start }) (h' := { rindex := start }) ⟨rfl, rfl, fun _ => rfl⟩ (fun r hr => ((mem_pyRange).1 hr).1)
  rcases Int.lt_or_le (s.clampEnd stop) ls with hlt | hle
  · refine ⟨[], hlast, ⟨⟨by simp, by simp, by simp, by simp, by simp, by simp, fun i h1 h2 => by omega⟩, fun i h1 h2 => by omega⟩, ?_⟩
    rw [pyRange_eq_nil (by omega)]
    rfl
  · have hH := (hinv_fresh (s.curAt ignore) (sepAt seps s.inputString) [] ls { rindex := start } rfl rfl).run' (start := ls) (by omega) hle
    have hS := Skips.run (cur := s.curAt ignore) (sep := sepAt seps s.inputString) hle { rindex := start } rfl
    generalize holesFold ls (s.curAt ignore) (sepAt seps s.inputString) (pyRange ls (s.clampEnd stop)) { rindex := start } = h at hsh hH hS
    generalize holesFold start (s.curAt ignore) (sepAt seps s.inputString) (pyRange ls (s.clampEnd stop)) { rindex := start } = g at hsh
    have hhe : ∀ a, h.openAt = some a → min (s'.holeEnd h.rindex ignore).2 (s.clampEnd stop) = s.clampEnd stop := by
      intro a ha
      obtain ⟨_, ⟨c, _, _, _, _, _, _, _, h7, _, _⟩, hidx⟩ := hH
      obtain ⟨o1, o2, _⟩ := h7 a ha
      rw [hidx (by omega)]
      apply holeEnd_spec (hi.sim hsim) hp (by rw [hsim.delegate]; exact hne) _ (by rw [hsim.maxEndP]; exact le_clamp stop) (by omega)
      rw [hsim.delegate]
      exact (curAt_iff hi hp _).1 (o2 _ (by omega) (by omega))
    obtain ⟨c, hc1, hc2⟩ := hH.result (curAt_iff hi hp) hhe
    refine ⟨c, hlast, ⟨hc2, fun i h1 h2 h3 => ?_⟩, ?_⟩
    · rw [List.nil_append] at hc1
      rcases hS.1 i h1 h2 ((curAt_iff hi hp i).2 h3) with ⟨x, hx, hq⟩ | ⟨x, hx, hq⟩ | ⟨a, ha, hq⟩
      · refine Or.inl ⟨x, ?_, hq⟩
        rw [← hc1]; cases ho : h.openAt <;> simp [hx]
      · refine Or.inr ⟨x, ?_, hq⟩
        rw [← hc1]; cases ho : h.openAt <;> simp [hx]
      · refine Or.inl ⟨(a, s.clampEnd stop), ?_, hq, h2⟩
        rw [← hc1, ha]
        simp [hhe a ha]
    · rw [List.nil_append] at hc1
      rw [← hc1, hsh.opened, hsh.closed]
      cases ho : h.openAt with
      | none => rfl
      | some a =>
        have hr := hsh.idx (by rw [ho]; simp)
        simp only [Option.map_some, hr, List.map_append, List.map_cons, List.map_nil]
        rfl

end Matches
end Rebulk
