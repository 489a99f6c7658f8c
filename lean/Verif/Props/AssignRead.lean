import Verif.Model.Assign
/-!
# C102: what is assigned is read back
-/
namespace Rebulk

/-- Two match objects that agree on everything a reader can see, except perhaps the attributes that one assignment can change. -/
structure SameElsewhere (a : Attr) (m m' : Match) : Prop where
  id : m'.id = m.id
  marker : m'.marker = m.marker
  matchIndex : m'.matchIndex = m.matchIndex
  pattern : m'.pattern = m.pattern
  solver : m'.solver = m.solver
  parent : m'.ancestors = m.ancestors
  input : m'.inputString = m.inputString
  name : (∀ n, a ≠ .name n) → m'.name = m.name
  tags : (∀ l, a ≠ .tags l) → m'.tags = m.tags
  start : (∀ i, a ≠ .start i) → m'.start = m.start
  stop : (∀ i, a ≠ .stop i) → m'.stop = m.stop
  priv : (∀ b, a ≠ .priv b) → m'.priv = m.priv
  rawStart : (∀ i, a ≠ .start i) → (∀ i, a ≠ .rawStart i) → m'.rawStartOf = m.rawStartOf
  rawStop : (∀ i, a ≠ .stop i) → (∀ i, a ≠ .rawStop i) → m'.rawEndOf = m.rawEndOf
  literal : (∀ v, a ≠ .value v) → m'.hasLiteralValue = m.hasLiteralValue

/-- What reading the object gives after each assignment. -/
def ReadsBack (m m' : Match) : Attr → Prop
  | .name n => m'.name = n
  | .tags l => m'.tags = l
  | .start i => m'.start = i ∧ m'.rawStartOf = (match m.rawStart with | none => i | some j => j)
  | .stop i => m'.stop = i ∧ m'.rawEndOf = (match m.rawStop with | none => i | some j => j)
  | .value v => if v.truthy then m'.value = v else m'.value = match m.formatter with
      | some f => f m.raw
      | none => m.raw
  | .rawStart i => m'.rawStartOf = i.getD m.start
  | .rawStop i => m'.rawEndOf = i.getD m.stop
  | .priv b => m'.priv = b
  | .formatter f => m'.value = if m.hasLiteralValue then m.value else match f with
      | some f => f m.raw
      | none => m.raw

/-- **C102, reading back**: after an assignment to an attribute of a match, every other match object is what it was, this one reads back what was assigned,
and every other attribute of it is unchanged. A falsy value is no value; `raw_start = None` gives back the start. -/
theorem C102_read_back (d : ObjDesk) (id : Nat) (a : Attr) :
    let d' := (d.act (.set id a)).1
    (∀ i, i ≠ id → d'.objs i = d.objs i) ∧ SameElsewhere a (d.objs id) (d'.objs id) ∧ ReadsBack (d.objs id) (d'.objs id) a ∧
    d'.cont.delegate = d.cont.delegate.map (fun m => if m.id = id then a.assign m else m) := by
  have he : ((d.act (.set id a)).1).objs id = a.assign (d.objs id) := by simp [ObjDesk.act]
  refine ⟨fun i hi => by simp [ObjDesk.act, hi], ?_, ?_, ?_⟩
  · rw [he]
    constructor
    all_goals first
      | (cases a <;> first | rfl | (intro h; exact absurd rfl (h _)) | (intro _; rfl) | (intro h g; first | exact absurd rfl (h _) | exact absurd rfl (g _) | rfl))
  · rw [he]
    generalize d.objs id = m
    cases a with
    | value v =>
      simp only [ReadsBack]
      split
      · next h => simp [Match.value, Attr.assign, h]
      · next h => simp only [Match.value, Attr.assign, h]; rfl
    | formatter f =>
      cases h : m.lit.truthy with
      | true => simp [ReadsBack, Match.value, Attr.assign, Match.hasLiteralValue, h]
      | false => simp only [ReadsBack, Match.value, Attr.assign, Match.hasLiteralValue, h]; rfl
    | start i => exact ⟨rfl, by cases h : m.rawStart <;> simp [Match.rawStartOf, Attr.assign, h]⟩
    | stop i => exact ⟨rfl, by cases h : m.rawStop <;> simp [Match.rawEndOf, Attr.assign, h]⟩
    | _ => rfl
  · show d.cont.delegate.map (Match.changeIf (fun m => m.id == id) a.assign) = _
    refine List.map_congr_left (fun m _ => ?_)
    unfold Match.changeIf
    by_cases h : m.id = id <;> simp [h]

/-- A match with raw limits and a formatter: each assignment and what is read. -/
example : let m : Match := { start := 1, stop := 3, inputString := some "abcd".toList, formatter := some (fun _ => .int 7) }
    let d : ObjDesk := ⟨fun i => { m with id := i }, Matches.empty false none⟩
    (((d.act (.set 0 (.rawStart (some 0)))).1.objs 0).rawStartOf = 0) ∧ (((d.act (.set 0 (.rawStart (some 0)))).1.objs 0).rawEndOf = 3) ∧
    (((d.act (.set 0 (.value (.str []))))).1.objs 0).value = .int 7 ∧ (((d.act (.set 0 (.value (.int 5))))).1.objs 0).value = .int 5 ∧
    (((d.act (.set 0 (.formatter none)))).1.objs 0).value = .str "bc".toList := by
  refine ⟨rfl, rfl, by decide, by decide, by decide⟩

end Rebulk
