import Verif.Lemmas.KeyViews
import Verif.Props.Iteration
import Verif.Props.History
/-!
# The views of names and tags (`C110`)
-/
namespace Rebulk
open Spec Matches

theorem runS_append (s : Matches) (a b : List SOp) : s.runS (a ++ b) = (s.runS a).runS b := by unfold Matches.runS; rw [List.foldl_append]

/-- A view shows, after any calls, what asking for it again would show; the keys it showed before are still there, in the same order and at the same
places: nothing is ever removed from it. -/
theorem C110_live (s : Matches) (kind : KeyKind) (ops : List SOp) :
    ((s.view kind).1.runS ops).viewKeys kind = (((s.view kind).1.runS ops).view kind).2 ∧
    (s.view kind).2 <+: ((s.view kind).1.runS ops).viewKeys kind := by
  obtain ⟨d, hd, hk⟩ := view_built s kind
  obtain ⟨d', hd', hp⟩ := ((longerNT_runS ops (s.view kind).1).view kind).1 d hd
  rw [viewKeys_some hd', view_of_built hd', hk]
  exact ⟨rfl, hp⟩

/-- No key is shown twice. -/
theorem C110_unique (b : Bool) (input : Option Str) (ops : List SOp) (kind : KeyKind) :
    ((Matches.empty b input).runS ops).viewKeys kind |>.Nodup := by
  have hu := (longerNT_runS ops _).unique (uniqueKeys_empty b input)
  unfold viewKeys
  cases h : ((Matches.empty b input).runS ops).viewDict kind with
  | none => exact List.nodup_nil
  | some d => exact hu kind d h

theorem same_length_iff {l K : List String} (hp : l <+: K) (hn : K.Nodup) : K.length = l.length ↔ ¬ ∃ x ∈ K, x ∉ l := by
  obtain ⟨r, rfl⟩ := hp
  constructor
  · rintro h ⟨x, hx, hxl⟩
    have : r = [] := List.eq_nil_of_length_eq_zero (by simpa using h)
    subst this
    exact hxl (by simpa using hx)
  · intro h
    cases r with
    | nil => simp
    | cons x r =>
      refine absurd ⟨x, by simp, fun hx => ?_⟩ h
      exact (List.nodup_append.1 hn).2.2 x hx x (by simp) rfl

theorem shownAt_zero (s : Matches) (kind : KeyKind) (ops : List SOp) (calls : List (List SOp)) :
    shownAt s kind (ops :: calls) 0 = (s.runS ops).viewKeys kind := by
  unfold shownAt; simp

theorem shownAt_succ (s : Matches) (kind : KeyKind) (ops : List SOp) (calls : List (List SOp)) (i : Nat) :
    shownAt s kind (ops :: calls) (i + 1) = shownAt (s.runS ops) kind calls i := by
  unfold shownAt; rw [List.take_succ_cons, List.flatten_cons, runS_append]

theorem answers_over : ∀ (calls : List (List SOp)) (s : Matches) (k : Nat), k < calls.length → (KeyIter.over.answers s calls)[k]? = some .stop
  | [], _, _, h => absurd h (Nat.not_lt_zero _)
  | _ :: calls, s, k, h => by
    cases k with
    | zero => rfl
    | succ k => exact answers_over calls _ k (Nat.lt_of_succ_lt_succ h)

theorem answers_stuck : ∀ (calls : List (List SOp)) (s : Matches) (k : Nat), k < calls.length → (KeyIter.stuck.answers s calls)[k]? = some .changed
  | [], _, _, h => absurd h (Nat.not_lt_zero _)
  | _ :: calls, s, k, h => by
    cases k with
    | zero => rfl
    | succ k => exact answers_stuck calls _ k (Nat.lt_of_succ_lt_succ h)

theorem answers_going {kind : KeyKind} {l : List String} : ∀ (calls : List (List SOp)) (s : Matches) (pos k : Nat) (d : Index String),
    s.viewDict kind = some d → l <+: d.keys → UniqueKeys s → pos ≤ l.length → k < calls.length →
    ((∃ i, i ≤ k ∧ pos + i ≤ l.length ∧ ∃ x ∈ shownAt s kind calls i, x ∉ l) → ((KeyIter.going kind l.length pos).answers s calls)[k]? = some .changed) ∧
    (¬ (∃ i, i ≤ k ∧ pos + i ≤ l.length ∧ ∃ x ∈ shownAt s kind calls i, x ∉ l) →
      (∀ x, l[pos + k]? = some x → ((KeyIter.going kind l.length pos).answers s calls)[k]? = some (.key x)) ∧
      (l[pos + k]? = none → ((KeyIter.going kind l.length pos).answers s calls)[k]? = some .stop))
  | [], _, _, _, _, _, _, _, _, h => absurd h (Nat.not_lt_zero _)
  | ops :: calls, s, pos, k, d, hd, hp, hu, hpos, hk => by
    have hl := longerNT_runS ops s
    obtain ⟨d', hd', hp'⟩ := (hl.view kind).1 d hd
    have hp2 := hp.trans hp'
    have hu' := hl.unique hu
    have hnd := hu' kind d' hd'
    have hv := viewKeys_some hd'
    have hs := same_length_iff hp2 hnd
    simp only [KeyIter.answers, KeyIter.next, hv]
    by_cases hlen : d'.keys.length = l.length
    · rw [if_pos hlen]
      have hno := hs.1 hlen
      have heq : d'.keys = l := (hp2.eq_of_length hlen.symm).symm
      rw [heq]
      cases hg : l[pos]? with
      | none =>
        simp only
        have hge : l.length ≤ pos := List.getElem?_eq_none_iff.1 hg
        cases k with
        | zero =>
          refine ⟨?_, fun _ => ⟨fun x hx => ?_, fun _ => rfl⟩⟩
          · rintro ⟨i, hi, _, x, hx, hxl⟩
            have : i = 0 := by omega
            subst this
            rw [shownAt_zero, hv] at hx
            exact absurd ⟨x, hx, hxl⟩ hno
          · rw [Nat.add_zero, hg] at hx; cases hx
        | succ k =>
          have hst := answers_over calls (s.runS ops) k (Nat.lt_of_succ_lt_succ hk)
          refine ⟨?_, fun _ => ⟨fun x hx => ?_, fun _ => hst⟩⟩
          · rintro ⟨i, hi, hle, x, hx, hxl⟩
            have : i = 0 := by omega
            subst this
            rw [shownAt_zero, hv] at hx
            exact absurd ⟨x, hx, hxl⟩ hno
          · rw [List.getElem?_eq_none (by omega)] at hx; cases hx
      | some y =>
        simp only
        have hlt : pos < l.length := (List.getElem?_eq_some_iff.1 hg).1
        cases k with
        | zero =>
          refine ⟨?_, fun _ => ⟨fun x hx => ?_, fun hx => ?_⟩⟩
          · rintro ⟨i, hi, _, x, hx, hxl⟩
            have : i = 0 := by omega
            subst this
            rw [shownAt_zero, hv] at hx
            exact absurd ⟨x, hx, hxl⟩ hno
          · rw [Nat.add_zero, hg] at hx; cases hx; rfl
          · rw [Nat.add_zero, hg] at hx; cases hx
        | succ k =>
          obtain ⟨g1, g2⟩ := answers_going calls (s.runS ops) (pos + 1) k d' hd' hp2 hu' hlt (Nat.lt_of_succ_lt_succ hk)
          have hiff : (∃ i, i ≤ k + 1 ∧ pos + i ≤ l.length ∧ ∃ x ∈ shownAt s kind (ops :: calls) i, x ∉ l) ↔
              ∃ i, i ≤ k ∧ pos + 1 + i ≤ l.length ∧ ∃ x ∈ shownAt (s.runS ops) kind calls i, x ∉ l := by
            constructor
            · rintro ⟨i, hi, hle, x, hx, hxl⟩
              cases i with
              | zero => rw [shownAt_zero, hv] at hx; exact absurd ⟨x, hx, hxl⟩ hno
              | succ i => exact ⟨i, by omega, by omega, x, by rw [shownAt_succ] at hx; exact hx, hxl⟩
            · rintro ⟨i, hi, hle, x, hx, hxl⟩
              exact ⟨i + 1, by omega, by omega, x, by rw [shownAt_succ]; exact hx, hxl⟩
          rw [hiff, show pos + (k + 1) = pos + 1 + k by omega]
          exact ⟨g1, g2⟩
    · rw [if_neg hlen]
      have hnew : ∃ x ∈ d'.keys, x ∉ l := Classical.byContradiction (fun h => hlen (hs.2 h))
      obtain ⟨x, hx, hxl⟩ := hnew
      have h0 : ∃ i, i ≤ k ∧ pos + i ≤ l.length ∧ ∃ x ∈ shownAt s kind (ops :: calls) i, x ∉ l :=
        ⟨0, Nat.zero_le _, hpos, x, by rw [shownAt_zero, hv]; exact hx, hxl⟩
      refine ⟨fun _ => ?_, fun h => absurd h0 h⟩
      cases k with
      | zero => rfl
      | succ k => exact answers_stuck calls _ k (Nat.lt_of_succ_lt_succ hk)

/-- **C110**, what an iterator of `matches.names` or `matches.tags` gives, whatever calls are made on the container before each `next`: the keys there were when
it was made, in their order, each once, then `StopIteration`; unless a new key has shown up by the time it is asked: `RuntimeError` then and ever after. -/
theorem C110_next (b : Bool) (input : Option Str) (pre : List SOp) (kind : KeyKind) (calls : List (List SOp)) (k : Nat) (hk : k < calls.length) :
    let s := (Matches.empty b input).runS pre
    let answers := ((s.view kind).1.iterView kind).answers (s.view kind).1 calls
    (NewKeyBy (s.view kind).1 kind (s.view kind).2 calls k → answers[k]? = some .changed) ∧
    (¬ NewKeyBy (s.view kind).1 kind (s.view kind).2 calls k →
      (∀ x, (s.view kind).2[k]? = some x → answers[k]? = some (.key x)) ∧ ((s.view kind).2[k]? = none → answers[k]? = some .stop)) := by
  intro s answers
  obtain ⟨d, hd, hkeys⟩ := view_built s kind
  have hu : UniqueKeys (s.view kind).1 := (longerNT_view s kind).unique ((longerNT_runS pre _).unique (uniqueKeys_empty b input))
  have := answers_going (kind := kind) (l := d.keys) calls (s.view kind).1 0 k d hd (List.prefix_refl _) hu (Nat.zero_le _) hk
  simp only [Nat.zero_add] at this
  have e : (s.view kind).1.iterView kind = .going kind d.keys.length 0 := by unfold Matches.iterView; rw [viewKeys_some hd]
  have hans : answers = (KeyIter.going kind d.keys.length 0).answers (s.view kind).1 calls := by
    show ((s.view kind).1.iterView kind).answers (s.view kind).1 calls = _
    rw [e]
  rw [hkeys, hans]
  exact this

theorem forKeys_going (body : String → Matches → Matches × Option PyErr) (kind : KeyKind) (l : List String)
    (hb : ∀ n ∈ l, ∀ s, s.viewKeys kind = l → (body n s).2 = none ∧ (body n s).1.viewKeys kind = l) :
    ∀ (rest done : List String) (s : Matches) (fuel : Nat), l = done ++ rest → s.viewKeys kind = l → rest.length < fuel →
      forKeys body fuel (.going kind l.length done.length) s = some (rest.foldl (fun s n => (body n s).1) s, none)
  | _, _, _, 0, _, _, h => absurd h (Nat.not_lt_zero _)
  | [], done, s, n + 1, hl, hs, _ => by
    have : l[done.length]? = none := by rw [hl]; simp
    simp only [forKeys, KeyIter.next, hs, if_true, this, List.foldl_nil]
  | x :: rest, done, s, n + 1, hl, hs, hf => by
    have hx : l[done.length]? = some x := by rw [hl]; simp
    obtain ⟨h1, h2⟩ := hb x (by rw [hl]; simp) s hs
    have ih := forKeys_going body kind l hb rest (done ++ [x]) (body x s).1 n (by rw [hl]; simp) h2 (by simpa using hf)
    simp only [forKeys, KeyIter.next, hs, if_true, hx]
    cases hr : body x s with
    | mk t o =>
      rw [hr] at h1 h2 ih
      cases h1
      simp only
      rw [List.length_append] at ih
      rw [show done.length + 1 = done.length + [x].length from rfl, ih]
      simp [hr]

/-- **C110, partial**: a loop over `matches.names` (or `tags`) whose body brings no new key and raises nothing runs its body once for each key, in order, and
ends without exception.

Missing: bodies that bring a new key, even by asking for an unknown one (`C110_refuted`). -/
theorem C110_partial (s : Matches) (kind : KeyKind) (body : String → Matches → Matches × Option PyErr)
    (hb : ∀ n ∈ (s.view kind).2, ∀ t, t.viewKeys kind = (s.view kind).2 → (body n t).2 = none ∧ (body n t).1.viewKeys kind = (s.view kind).2)
    (fuel : Nat) (hf : (s.view kind).2.length < fuel) :
    loopOver body fuel s kind = some ((s.view kind).2.foldl (fun t n => (body n t).1) (s.view kind).1, none) := by
  obtain ⟨d, hd, hkeys⟩ := view_built s kind
  unfold loopOver Matches.iterView
  rw [viewKeys_some hd]
  rw [hkeys] at hb hf ⊢
  exact forKeys_going body kind d.keys hb d.keys [] _ fuel rfl (viewKeys_some hd) hf

theorem same_keys {K K' : List String} (hp : K <+: K') (hn : K'.Nodup) (h : ∀ x ∈ K', x ∈ K) : K' = K :=
  (hp.eq_of_length ((same_length_iff hp hn).2 (fun ⟨x, hx, hk⟩ => hk (h x hx))).symm).symm

/-- Everything a container holds is filed in a dictionary that is built. -/
theorem covered_of {proj : Matches → Option (Index String)} {keysOf : Match → List String} {looks : Op → Prop} {asks : Op → String → Prop}
    (hstep : ∀ (s : Matches) op, Fits s.isMarkers op → (∀ x ∈ s.delegate, x.marker = s.isMarkers) →
      KeyStep keysOf (looks op) (asks op) (proj s) (proj (s.step op).1) s.delegate (s.step op).1.delegate)
    (hlook : ∀ (s : Matches) op, looks op → (s.step op).1.delegate = s.delegate)
    {b : Bool} {input : Option Str} (h0 : proj (empty b input) = none) (ops : List Op) (hops : ∀ op ∈ ops, Fits b op) {e : Index String}
    (he : proj ((empty b input).runOps ops) = some e) : ∀ m ∈ ((empty b input).runOps ops).delegate, ∀ k ∈ keysOf m, k ∈ e.keys := by
  obtain ⟨j, hj⟩ := firstCall_exists looks ops
  obtain ⟨_, _, h3⟩ := keys_history hstep hlook h0 (fun x hx => by cases hx) ops hops
  obtain ⟨g1, g2⟩ := h3 j hj
  rcases Nat.lt_or_ge j ops.length with hlt | hge
  · obtain ⟨e', he', hk⟩ := g2 hlt
    rw [he] at he'
    cases he'
    intro m hm k hkm
    exact (hk k).2 (Or.inl ⟨ops.length, hj.1, Nat.le_refl _, m, by rw [after_length]; exact hm, hkm⟩)
  · have := g1 (Nat.le_antisymm hj.1 hge)
    rw [this] at he
    cases he

theorem kind_history {b : Bool} {input : Option Str} (ops : List Op) (hops : ∀ op ∈ ops, Fits b op) :
    (∀ x ∈ ((empty b input).runOps ops).delegate, x.marker = b) ∧ ((empty b input).runOps ops).isMarkers = b := by
  obtain ⟨h1, h2, _⟩ := keys_history (proj := Matches.nameD) (keysOf := nameKeys) (looks := LooksAtNames) (asks := AsksName)
    (fun s op hf hs => (keyStep_names op hf hs).1) step_looksAtNames (s := empty b input) rfl (fun x hx => by cases hx) ops hops
  exact ⟨h1, h2⟩

/-- **C110**: which calls bring no new key. A call on the container that asks for no other key than those shown, and after which the matches held have no
other, leaves the view as it is: lookups by known names, all removals, additions of matches with known names. -/
theorem C110_harmless (b : Bool) (input : Option Str) (ops : List Op) (hops : ∀ op ∈ ops, Fits b op) (kind : KeyKind) (op : Op) (hf : Fits b op) :
    let s := (empty b input).runOps ops
    (∀ n, AsksKey kind op n → n ∈ (s.view kind).2) →
    (∀ m ∈ ((s.view kind).1.step op).1.delegate, ∀ n, HasKey kind n m → n ∈ (s.view kind).2) →
    ((s.view kind).1.step op).1.viewKeys kind = (s.view kind).2 := by
  intro s ha hm
  obtain ⟨d, hd, hkeys⟩ := view_built s kind
  have hl := longerNT_step (s.view kind).1 op
  obtain ⟨d', hd', hp⟩ := (hl.view kind).1 d hd
  have hu0 : UniqueKeys s := by
    have : s = (empty b input).runS (ops.map SOp.base) := by
      show (empty b input).runOps ops = _
      unfold Matches.runOps Matches.runS
      rw [List.foldl_map]
      rfl
    rw [this]
    exact (longerNT_runS _ _).unique (uniqueKeys_empty b input)
  have hu := hl.unique ((longerNT_view s kind).unique hu0)
  rw [viewKeys_some hd', hkeys]
  refine same_keys hp (hu kind d' hd') ?_
  rw [hkeys] at ha hm
  cases kind with
  | names =>
    have hs : (s.view .names).1 = (empty b input).runOps (ops ++ [.names]) := by rw [runOps_snoc]; rfl
    have hfits : ∀ o ∈ ops ++ [Op.names], Fits b o := by
      intro o ho
      rcases List.mem_append.1 ho with ho | ho
      · exact hops o ho
      · rw [List.mem_singleton.1 ho]; intro m hm; cases hm
    obtain ⟨k1, k2⟩ := kind_history (input := input) (ops ++ [.names]) hfits
    have hd2 : ((empty b input).runOps (ops ++ [.names])).nameD = some d := by rw [← hs]; exact hd
    have hc := covered_of (proj := Matches.nameD) (keysOf := nameKeys) (looks := LooksAtNames) (asks := AsksName)
      (fun s op hf hs => (keyStep_names op hf hs).1) step_looksAtNames rfl (ops ++ [.names]) hfits hd2
    have hks := (keyStep_names (s := (empty b input).runOps (ops ++ [.names])) op (by rw [k2]; exact hf) (by rw [k2]; exact k1)).1
    obtain ⟨e', he', hk⟩ := hks.2.2 d hd2 hc
    rw [hs] at hd' hm
    have : e' = d' := by
      have hd'' : (((empty b input).runOps (ops ++ [.names])).step op).1.nameD = some d' := hd'
      rw [he'] at hd''
      exact Option.some.inj hd''
    subst this
    intro x hx
    rcases (hk x).1 hx with h | h | ⟨m, hm1, hm2⟩
    · exact h
    · exact ha x h
    · exact hm m hm1 x ((mem_nameKeys m x).1 hm2)
  | tags =>
    have hs : (s.view .tags).1 = (empty b input).runOps (ops ++ [.tags]) := by rw [runOps_snoc]; rfl
    have hfits : ∀ o ∈ ops ++ [Op.tags], Fits b o := by
      intro o ho
      rcases List.mem_append.1 ho with ho | ho
      · exact hops o ho
      · rw [List.mem_singleton.1 ho]; intro m hm; cases hm
    obtain ⟨k1, k2⟩ := kind_history (input := input) (ops ++ [.tags]) hfits
    have hd2 : ((empty b input).runOps (ops ++ [.tags])).tagD = some d := by rw [← hs]; exact hd
    have hc := covered_of (proj := Matches.tagD) (keysOf := tagKeys) (looks := LooksAtTags) (asks := AsksTag)
      (fun s op hf hs => keyStep_tags op hf hs) step_looksAtTags rfl (ops ++ [.tags]) hfits hd2
    have hks := (keyStep_tags (s := (empty b input).runOps (ops ++ [.tags])) op (by rw [k2]; exact hf) (by rw [k2]; exact k1))
    obtain ⟨e', he', hk⟩ := hks.2.2 d hd2 hc
    rw [hs] at hd' hm
    have : e' = d' := by
      have hd'' : (((empty b input).runOps (ops ++ [.tags])).step op).1.tagD = some d' := hd'
      rw [he'] at hd''
      exact Option.some.inj hd''
    subst this
    intro x hx
    rcases (hk x).1 hx with h | h | ⟨m, hm1, hm2⟩
    · exact h
    · exact ha x h
    · exact hm m hm1 x hm2

/-! ## Examples -/

/-- Three matches, two names. -/
def viewOps : List Op := [.append (mk 0 2 (some "a") ["x"]), .append (mk 3 5 (some "b") []), .append (mk 6 7 (some "a") ["y"])]
/-- Its container. -/
def viewSample : Matches := (empty false none).runOps viewOps

/-- Asking for a name that is not there. -/
def askUnknown (_ : String) (s : Matches) : Matches × Option PyErr := ((s.step (.named ["zz"])).1, none)

/-- **C110 is false**: a loop over the names of a container that merely looks up an unknown name ends with a `RuntimeError` after one turn; and a loop over
the tags that adds a match with a new tag does too. -/
theorem C110_refuted :
    (viewSample.view .names).2 = ["a", "b"] ∧ (loopOver askUnknown 9 viewSample .names).map (fun r => (r.1.delegate.length, r.2)) = some (3, some .runtimeError) ∧
    (viewSample.view .tags).2 = ["x", "y"] ∧
    (loopOver (fun _ s => s.append (mk 8 9 none ["z"])) 9 viewSample .tags).map (fun r => (r.1.delegate.length, r.2)) = some (4, some .runtimeError) := by
  decide

/-- The hypotheses of `C110_partial` hold of a loop that looks its names up; `named` is asked of `a` and `b`. -/
example : (loopOver (fun n s => ((s.step (.named [n])).1, none)) 3 viewSample .names).map (fun r => (r.1.viewKeys .names, r.2)) = some (["a", "b"], none) := by
  decide

/-- A known name asked for, a removal: nothing new. -/
example : (∀ op ∈ viewOps, Fits false op) ∧ (∀ n, AsksKey .names (.named ["b"]) n → n ∈ (viewSample.view .names).2) ∧
    ((viewSample.view .names).1.step (.pop (-1))).1.viewKeys .names = ["a", "b"] := by
  refine ⟨?_, ?_, by decide⟩
  · intro op hop
    simp only [viewOps, List.mem_cons, List.not_mem_nil, or_false] at hop
    rcases hop with rfl | rfl | rfl <;> (intro m hm; rw [List.mem_singleton.1 hm]; rfl)
  · rintro n ⟨ns, hns, hn⟩
    cases hns
    rw [List.mem_singleton.1 hn]
    decide

/-- An iterator asked five times, a removal before the second and a match named `c` appended before the third. -/
example : (((viewSample.view .names).1.iterView .names).answers (viewSample.view .names).1
    [[], [.base (.pop (-1))], [], [.base (.append (mk 8 9 (some "c") []))], []]) = [.key "a", .key "b", .stop, .stop, .stop] ∧
    (((viewSample.view .names).1.iterView .names).answers (viewSample.view .names).1
    [[], [.base (.append (mk 8 9 (some "c") []))], []]) = [.key "a", .changed, .changed] := by decide

end Rebulk
