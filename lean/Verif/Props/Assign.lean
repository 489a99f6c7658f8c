import Verif.Spec.Assign
import Verif.Lemmas.Consequences
import Verif.Lemmas.Container
/-!
# Changing matches a container holds (`C102`)
-/
namespace Rebulk
open Matches Spec

/-- The change an assignment makes. -/
abbrev setIf (id : Nat) (a : Attr) : Match → Match := Match.changeIf (fun m => m.id == id) a.assign

theorem assign_id (a : Attr) (m : Match) : (a.assign m).id = m.id := by cases a <;> rfl
theorem assign_marker (a : Attr) (m : Match) : (a.assign m).marker = m.marker := by cases a <;> rfl
theorem setIf_eq (id : Nat) (a : Attr) : setIf id a = afterSet id a := by
  funext m; unfold setIf Match.changeIf afterSet; by_cases h : m.id = id <;> simp [h]

theorem filed_map {κ : Type} [DecidableEq κ] (keysOf : Match → List κ) (g : Match → Match) (l : List Match)
    (h : ∀ m ∈ l, keysOf (g m) = keysOf m) (k : κ) : filed keysOf (l.map g) k = (filed keysOf l k).map g := by
  induction l with
  | nil => rfl
  | cons m l ih =>
    rw [List.map_cons, filed_cons, filed_cons, List.map_append, List.map_replicate, h m (by simp),
      ih (fun x hx => h x (List.mem_cons_of_mem _ hx))]

theorem litO_map {κ : Type} [DecidableEq κ] {keysOf : Match → List κ} (g : Match → Match) {d : Option (Index κ)} {l : List Match}
    (h : ∀ m ∈ l, keysOf (g m) = keysOf m) (hd : LitO keysOf d l) : LitO keysOf (d.map (changeIndex g)) (l.map g) := by
  intro d' hd' k
  obtain ⟨d0, h0, rfl⟩ := Option.map_eq_some_iff.1 hd'
  rw [changeIndex_getList, hd d0 h0 k, filed_map keysOf g l h k]

theorem cohO_of_litO {κ : Type} [DecidableEq κ] {keysOf : Match → List κ} {d : Option (Index κ)} {l : List Match} (h : LitO keysOf d l) :
    CohO keysOf d l := by
  intro d' hd k
  rw [h d' hd k]

/-- An assignment to an attribute that is no key keeps everything. -/
theorem tidy_change {s : Matches} (h : Tidy s) (g : Match → Match)
    (hn : ∀ m ∈ s.delegate, (g m).name = m.name ∧ (g m).tags = m.tags ∧ (g m).start = m.start ∧ (g m).stop = m.stop) :
    Exact { s with
      delegate := s.delegate.map g
      nameD := s.nameD.map (changeIndex g)
      tagD := s.tagD.map (changeIndex g)
      startD := s.startD.map (changeIndex g)
      endD := s.endD.map (changeIndex g)
      indexD := s.indexD.map (changeIndex g) } := by
  obtain ⟨_, e⟩ := h
  refine ⟨litO_map g ?_ e.name, litO_map g ?_ e.tag, litO_map g ?_ e.start, litO_map g ?_ e.stop, litO_map g ?_ e.index⟩ <;>
    intro m hm <;> obtain ⟨h1, h2, h3, h4⟩ := hn m hm
  · simp only [nameKeys, Match.nameKey, h1]
  · simp only [tagKeys, h2]
  · simp only [startKeys, h3]
  · simp only [endKeys, h4]
  · simp only [indexKeys, h3, h4]

theorem tidy_change' {s : Matches} (h : Tidy s) (p : Match → Bool) (f : Match → Match)
    (hn : ∀ m ∈ s.delegate, (Match.changeIf p f m).name = m.name ∧ (Match.changeIf p f m).tags = m.tags ∧
      (Match.changeIf p f m).start = m.start ∧ (Match.changeIf p f m).stop = m.stop) : Tidy (s.change p f) := by
  have he : Exact (s.change p f) := tidy_change h _ hn
  refine ⟨⟨cohO_of_litO he.name, cohO_of_litO he.tag, cohO_of_litO he.start, cohO_of_litO he.stop, cohO_of_litO he.index, ?_,
    h.inv.nonneg⟩, he⟩
  intro m hm
  obtain ⟨x, hx, rfl⟩ := List.mem_map.1 hm
  rw [(hn x hx).2.2.2]
  exact h.inv.bound x hx

theorem now_byValue (objs : Nat → Match) (op : Op) : isByValue (op.now objs) = isByValue op := by cases op <;> rfl
theorem now_lookup (objs : Nat → Match) (op : Op) : isLookup (op.now objs) = isLookup op := by cases op <;> rfl
theorem now_added (objs : Nat → Match) (op : Op) : added (op.now objs) = (added op).map (fun m => objs m.id) := by cases op <;> rfl

theorem byValue_mem {l : List Match} {op : Op} (h : isByValue op = true) : ∀ m ∈ (listStep l op).1, m ∈ l ∨ m ∈ added op := by
  intro m hm
  cases op with
  | append x => simpa [listStep, added] using hm
  | extend ms => simpa [listStep, added] using hm
  | clear => simp [listStep] at hm
  | remove x =>
    simp only [listStep] at hm
    cases hr : removeFirst (fun y => y.eqv x) l with
    | none => rw [hr] at hm; exact Or.inl hm
    | some l' =>
      rw [hr] at hm
      obtain ⟨a, y, b, rfl, rfl, _⟩ := removeFirst_some _ _ _ hr
      rcases List.mem_append.1 hm with hm | hm
      · exact Or.inl (List.mem_append_left _ hm)
      · exact Or.inl (List.mem_append_right _ (List.mem_cons_of_mem _ hm))
  | _ => cases h

/-- What a careful user can rely on. -/
structure DeskOk (b : Bool) (d : ObjDesk) : Prop where
  tidy : Tidy d.cont
  kind : d.cont.isMarkers = b
  ids : ∀ i, (d.objs i).id = i
  markers : ∀ i, (d.objs i).marker = b
  shows : ShowsObjects d

theorem deskOk_set {b : Bool} {d : ObjDesk} (h : DeskOk b d) (id : Nat) (a : Attr) (hk : isKey a = true → ¬ HoldsObject d.cont id) :
    DeskOk b (d.act (.set id a)).1 := by
  refine ⟨?_, h.kind, ?_, ?_, ?_⟩
  · refine tidy_change' h.tidy _ _ ?_
    intro m hm
    unfold Match.changeIf
    split
    · next hid =>
      have hid : m.id = id := by simpa using hid
      cases hka : isKey a with
      | true => exact absurd ⟨m, hm, hid⟩ (hk hka)
      | false => cases a <;> first | exact ⟨rfl, rfl, rfl, rfl⟩ | cases hka
    · exact ⟨rfl, rfl, rfl, rfl⟩
  · intro i
    simp only [ObjDesk.act]
    split
    · rw [assign_id]; exact h.ids i
    · exact h.ids i
  · intro i
    simp only [ObjDesk.act]
    split
    · rw [assign_marker]; exact h.markers i
    · exact h.markers i
  · intro m hm
    obtain ⟨x, hx, rfl⟩ := List.mem_map.1 hm
    have hs := h.shows x hx
    simp only [Match.changeIf]
    by_cases hid : x.id = id
    · simp only [hid, beq_self_eq_true, if_true, assign_id, ObjDesk.act]
      rw [← hid, ← hs]
    · have : (x.id == id) = false := by simpa using hid
      simp only [this, Bool.false_eq_true, if_false, ObjDesk.act, if_neg hid]
      exact hs

theorem deskOk_call {b : Bool} {d : ObjDesk} (h : DeskOk b d) (op : Op) (ho : (isByValue op || isLookup op) = true) :
    DeskOk b (d.act (.call op)).1 := by
  have ho' : (isByValue (op.now d.objs) || isLookup (op.now d.objs)) = true := by rw [now_byValue, now_lookup]; exact ho
  have hf : Fits d.cont.isMarkers (op.now d.objs) := by
    intro m hm
    rw [now_added] at hm
    obtain ⟨x, _, rfl⟩ := List.mem_map.1 hm
    rw [h.kind]; exact h.markers _
  have hrun := exact_byValue_run h.tidy.inv h.tidy.exact_ [op.now d.objs] (by
    intro o hm; rw [List.mem_singleton] at hm; subst hm; exact ⟨ho', hf⟩)
  refine ⟨⟨hrun.1, hrun.2.1⟩, hrun.2.2.trans h.kind, h.ids, h.markers, ?_⟩
  intro m hm
  show m = d.objs m.id
  rcases Bool.or_eq_true _ _ |>.mp ho' with hb | hl
  · have hd := (step_addRemove h.tidy.inv _ (isByValue_imp _ hb) hf).2.1
    have hm : m ∈ (d.cont.step (op.now d.objs)).1.delegate := hm
    rw [hd] at hm
    rcases byValue_mem hb m hm with hm | hm
    · exact h.shows m hm
    · rw [now_added] at hm
      obtain ⟨x, _, rfl⟩ := List.mem_map.1 hm
      rw [h.ids]
  · have hm : m ∈ (d.cont.step (op.now d.objs)).1.delegate := hm
    rw [(step_lookup_sim d.cont _ hl).delegate] at hm
    exact h.shows m hm

theorem deskOk_fresh {b : Bool} {d : ObjDesk} (h : ObjDesk.Fresh b d) : DeskOk b d := by
  obtain ⟨h1, h2, input, h3⟩ := h
  refine ⟨?_, by rw [h3]; rfl, h1, h2, ?_⟩
  · rw [h3]; exact ⟨inv_empty b input, exact_empty b input⟩
  · intro m hm; rw [h3] at hm; cases hm

theorem deskOk_careful {b : Bool} {d : ObjDesk} (h : CarefulRun b d) : DeskOk b d := by
  induction h with
  | start h => exact deskOk_fresh h
  | act a _ hc ih =>
    cases a with
    | call op => exact deskOk_call ih op hc
    | set id a => exact deskOk_set ih id a hc

/-- **C102, partial.** As long as `name`, `tags`, `start` and `end` are only assigned to while the container does not hold the match — take it out, change
it, put it back — every lookup finds exactly the matches that have the attribute now, whatever else is assigned to (`value`, `private`, `raw_start`,
`raw_end`, `formatter`) and when. (Missing: `C102_refuted`.) -/
theorem C102_partial {b : Bool} {d : ObjDesk} (h : CarefulRun b d) : LookupsRight d.cont ∧ ShowsObjects d :=
  ⟨exact_lookups (deskOk_careful h).tidy.exact_, (deskOk_careful h).shows⟩

/-! ## Before the first lookup -/

theorem fresh_addMatch {s : Matches} (h : Fresh s) (l : List Match) (m : Match) : Fresh (addMatch { s with delegate := l } m).1 := by
  obtain ⟨h1, h2, h3, h4, h5⟩ := h
  unfold addMatch
  split
  · simp [Fresh, addMatchBase, addTo, h1, h2, h3, h4, h5]
  · exact ⟨h1, h2, h3, h4, h5⟩

theorem fresh_setItem {s : Matches} (h : Fresh s) (i : Int) (m : Match) : Fresh (s.setItem i m).1 := by
  unfold setItem
  split
  · exact h
  · exact fresh_addMatch h _ m

theorem fresh_swap {s : Matches} (h : Fresh s) (i j : Int) : Fresh (s.swapItems i j).1 := by
  unfold swapItems
  split
  · next mj mi _ _ =>
    have h1 := fresh_setItem h i mj
    cases hs : s.setItem i mj with
    | mk s' e =>
      rw [hs] at h1
      cases e with
      | none => exact fresh_setItem h1 j mi
      | some e => exact h1
  · exact h

theorem fresh_extend {s : Matches} (h : Fresh s) (ms : List Match) : Fresh (s.extend ms).1 := by
  induction ms generalizing s with
  | nil => exact h
  | cons m ms ih =>
    have h1 : Fresh (s.append m).1 := fresh_addMatch h _ m
    unfold extend
    cases ha : s.append m with
    | mk s' e =>
      rw [ha] at h1
      cases e with
      | none => exact ih h1
      | some e => exact h1

theorem fresh_reverse {s : Matches} (h : Fresh s) : Fresh s.reverse.1 := by
  unfold Matches.reverse
  generalize s.length = n
  generalize List.range (n / 2) = is
  induction is generalizing s with
  | nil => exact h
  | cons i is ih =>
    unfold reverseLoop
    have hsw := fresh_swap h (i : Int) ((n : Int) - i - 1)
    cases hs : s.swapItems (i : Int) ((n : Int) - i - 1) with
    | mk s' e =>
      rw [hs] at hsw
      cases e with
      | none => exact ih hsw
      | some e => exact hsw

theorem fresh_blind {s : Matches} (h : Fresh s) (op : Op) (hop : isBlind op = true) : Fresh (s.step op).1 := by
  cases op with
  | append m => exact fresh_addMatch h _ m
  | insert i m => exact fresh_addMatch h _ m
  | extend ms => exact fresh_extend h ms
  | setItem i m => exact fresh_setItem h i m
  | reverse => exact fresh_reverse h
  | remove | pop | delItem | clear | delSlice | named | tagged | starting | ending | atIndex | names | tags | previous | next
  | conflicting | atSpan | chainBefore | chainAfter | holes => cases hop

theorem now_blind (objs : Nat → Match) (op : Op) : isBlind (op.now objs) = isBlind op := by cases op <;> rfl

theorem fresh_blindRun {b : Bool} {d : ObjDesk} (h : BlindRun b d) : Fresh d.cont := by
  induction h with
  | start h => obtain ⟨_, _, input, h⟩ := h; rw [h]; exact ⟨rfl, rfl, rfl, rfl, rfl⟩
  | call op _ hb ih => exact fresh_blind ih _ (by rw [now_blind]; exact hb)
  | set id a _ ih =>
    obtain ⟨h1, h2, h3, h4, h5⟩ := ih
    exact ⟨by simp [ObjDesk.act, change, h1], by simp [ObjDesk.act, change, h2], by simp [ObjDesk.act, change, h3], by simp [ObjDesk.act, change, h4],
      by simp [ObjDesk.act, change, h5]⟩

/-- **C102, partial.** Before the first lookup and the first removal, matches in the container may be changed at will: the lookups made afterwards find
exactly the matches that have the attribute. -/
theorem C102_before_lookups_partial {b : Bool} {d : ObjDesk} (h : BlindRun b d) : LookupsRight d.cont := by
  obtain ⟨h1, h2, h3, h4, h5⟩ := fresh_blindRun h
  refine exact_lookups ⟨?_, ?_, ?_, ?_, ?_⟩
  · rw [h1]; exact LitO_none _ _
  · rw [h2]; exact LitO_none _ _
  · rw [h3]; exact LitO_none _ _
  · rw [h4]; exact LitO_none _ _
  · rw [h5]; exact LitO_none _ _

/-! ## After a lookup -/

theorem named_one (s : Matches) (n : String) : (s.step (.named [n])).2 = .list (s.nameDict.getList n) := by
  show Out.list (s.named [n]).2 = _
  rw [(named_spec s [n]).2]
  simp [fromKeys]

theorem named_builds (s : Matches) (n : String) : ∃ x, (s.named [n]).1.nameD = some x := by
  simp [Matches.named, fromKeys, namedLoop, lookName]

/-- **What happens instead**: once a lookup of a kind (by name, by tag, by start, by end, by position) has been made, an assignment changes no lookup of this
kind: each returns the same match objects as without the assignment. This holds in every state. -/
theorem C102_stale (d : ObjDesk) (id : Nat) (a : Attr) :
    (∀ n0 n, ∃ r, ((d.act (.call (.named [n0]))).1.act (.call (.named [n]))).2 = .list r ∧
      ((d.run [.call (.named [n0]), .set id a]).act (.call (.named [n]))).2 = .list (r.map (afterSet id a))) ∧
    (∀ t0 t, ∃ r, ((d.act (.call (.tagged t0))).1.act (.call (.tagged t))).2 = .list r ∧
      ((d.run [.call (.tagged t0), .set id a]).act (.call (.tagged t))).2 = .list (r.map (afterSet id a))) ∧
    (∀ i0 i, ∃ r, ((d.act (.call (.starting i0))).1.act (.call (.starting i))).2 = .list r ∧
      ((d.run [.call (.starting i0), .set id a]).act (.call (.starting i))).2 = .list (r.map (afterSet id a))) ∧
    (∀ i0 i, ∃ r, ((d.act (.call (.ending i0))).1.act (.call (.ending i))).2 = .list r ∧
      ((d.run [.call (.ending i0), .set id a]).act (.call (.ending i))).2 = .list (r.map (afterSet id a))) ∧
    (∀ i0 i, ∃ r, ((d.act (.call (.atIndex i0))).1.act (.call (.atIndex i))).2 = .list r ∧
      ((d.run [.call (.atIndex i0), .set id a]).act (.call (.atIndex i))).2 = .list (r.map (afterSet id a))) := by
  rw [← setIf_eq]
  refine ⟨?_, ?_, ?_, ?_, ?_⟩
  · intro n0 n
    obtain ⟨x, hx⟩ := named_builds d.cont n0
    refine ⟨_, named_one _ _, ?_⟩
    refine (named_one _ _).trans ?_
    show Out.list ((((d.cont.named [n0]).1.nameD.map (changeIndex (setIf id a))).getD _).getList n) =
      Out.list ((((d.cont.named [n0]).1.nameD).getD _).getList n |>.map _)
    rw [hx]
    simp only [Option.map_some, Option.getD_some, changeIndex_getList]
  all_goals
    intro k0 k
    refine ⟨_, rfl, ?_⟩
    show Out.list ((changeIndex (setIf id a) _).getList k) = _
    rw [changeIndex_getList]
    rfl

/-- **C102 is false**: a match renamed while it is in the container is not found under its new name, it is found under the old one, and taking it out again
raises `ValueError` after it was taken out of the sequence. -/
theorem C102_refuted : ∃ (d : ObjDesk) (acts : List Act), ObjDesk.Fresh false d ∧
    let d' := d.run acts
    d'.cont.delegate.map (fun m => (m.id, m.name)) = [(0, some "new")] ∧
    (∃ r, (d'.act (.call (.named ["new"]))).2 = .list r ∧ r.length = 0) ∧
    (∃ r, (d'.act (.call (.named ["old"]))).2 = .list r ∧ r.length = 1) ∧
    (d'.act (.call (.remove (d'.objs 0)))).2 = .raised .valueError ∧
    (d'.act (.call (.remove (d'.objs 0)))).1.cont.delegate = [] := by
  refine ⟨⟨fun i => { start := 0, stop := 3, id := i, name := some "old" }, Matches.empty false none⟩,
    [.call (.append { start := 0, stop := 3, id := 0 }), .call (.named ["old"]), .set 0 (.name (some "new"))], ⟨fun _ => rfl, fun _ => rfl, none, rfl⟩,
    by decide, ⟨_, rfl, by decide⟩, ⟨_, rfl, by decide⟩, rfl, rfl⟩

/-- A match is renamed and moved while it is out of the container, and gets a value while it is in. -/
def carefulDesk : ObjDesk := ObjDesk.run ⟨fun i => { start := 0, stop := 3, id := i, name := some "old" }, Matches.empty false none⟩
  [.call (.append { start := 0, stop := 3, id := 0 }), .call (.named ["old"]), .set 1 (.name (some "new")), .set 1 (.start 2),
   .call (.append { start := 0, stop := 3, id := 1 }), .set 0 (.value (.int 5)), .call (.starting 2)]

example : CarefulRun false carefulDesk ∧ carefulDesk.cont.delegate.map (fun m => (m.id, m.name, m.start)) = [(0, some "old", 0), (1, some "new", 2)] ∧
    ∃ r, (carefulDesk.act (.call (.named ["new"]))).2 = .list r ∧ r.map Match.id = [1] := by
  refine ⟨?_, by decide, _, rfl, by decide⟩
  have h0 : CarefulRun false ⟨fun i => { start := 0, stop := 3, id := i, name := some "old" }, Matches.empty false none⟩ :=
    .start ⟨fun _ => rfl, fun _ => rfl, none, rfl⟩
  refine .act _ (.act _ (.act _ (.act _ (.act _ (.act _ (.act _ h0 ?_) ?_) ?_) ?_) ?_) ?_) ?_
  · exact rfl
  · exact rfl
  · rintro - ⟨m, hm, hid⟩
    revert hid
    revert m
    decide
  · rintro - ⟨m, hm, hid⟩
    revert hid
    revert m
    decide
  · exact rfl
  · intro h; cases h
  · exact rfl

example : BlindRun false (ObjDesk.run ⟨fun i => { start := 0, stop := 3, id := i }, Matches.empty false none⟩
    [.call (.append { start := 0, stop := 3, id := 0 }), .set 0 (.name (some "n"))]) :=
  .set _ _ (.call _ (.start ⟨fun _ => rfl, fun _ => rfl, none, rfl⟩) rfl)

end Rebulk
