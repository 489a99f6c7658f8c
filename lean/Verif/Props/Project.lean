import Verif.Lemmas.Project
import Verif.Props.Container
import Verif.Spec.Truth
/-!
# Properties of the projections: C21 – C25
-/
namespace Rebulk
open Matches Spec

/-! ## C21 -/

/-- **C21.** For matches whose values are no lists (or `details=True`), in position order `l`: the keys are the names in order of
first position; the value of a name is the single distinct value, or the list of distinct values, or the first one, or always a
list, according to the mode; `.matches[name]` are all its matches in position order; `.values_list[name]` its distinct values
(not filled when `enforce_list`). `h` gives the contents of list objects, `addr` says which matches hold one. -/
theorem C21_to_dict (s : Matches) (h : ListHeap) (addr : Match → Option Nat) (details firstValue enforceList : Bool)
    (hv : details = true ∨ ∀ m ∈ s.delegate, addr m = none ∧ m.value.isList = false) :
    ∃ l, IsStableSort lexLe (fun m => (m.start, m.stop)) s.delegate l ∧
      let d := s.toDict h addr details firstValue enforceList
      d.ret.keys = namesIn l ∧
      (∀ n, d.ret.get? n = expectedEntry firstValue enforceList (shownFor details l n)) ∧
      d.matchesD.keys = namesIn l ∧ (∀ n, d.matchesD.getList n = withName l n) ∧
      d.valuesList.keys = (if enforceList then [] else namesIn l) ∧
      (∀ n, d.valuesList.getList n = if enforceList then [] else shownFor details l n) := by
  refine ⟨pySorted Match.lt s.delegate, sorted_matches _, ?_⟩
  have := dictInv_foldl (h := h) (addr := addr) (d := details) (fv := firstValue) (el := enforceList) (pySorted Match.lt s.delegate)
    (p := []) (s := { heap := h }) (hv.imp id (fun hv m hm => hv m ((pySorted_perm _ _).mem_iff.1 hm)))
    (dictInv_init h details firstValue enforceList)
  simp only [List.nil_append] at this
  exact ⟨this.keys, this.ret, this.mkeys, this.mat, this.vkeys, this.vals⟩

/-- A container with repeated, distinct and unnamed values meets the hypothesis. -/
def dictSample : Matches := (empty false (some "abcabc".toList)).runOps
  [.extend [{ mk 3 4 (some "x") with lit := .int 1 }, { mk 0 1 (some "x") with lit := .int 2 }, { mk 5 6 with lit := .int 7 },
    { mk 4 5 (some "x") with lit := .int 2 }]]

example : (false = true ∨ ∀ m ∈ dictSample.delegate, (fun _ => none : Match → Option Nat) m = none ∧ m.value.isList = false) ∧
    namesIn (pySorted Match.lt dictSample.delegate) = [some "x", none] ∧
    (shownFor false (pySorted Match.lt dictSample.delegate) (some "x")).length = 2 := by
  refine ⟨Or.inr ?_, ?_, ?_⟩ <;> decide

/-! ## C22 -/

/-- **C22 is false**: a match whose value is the list `[1]` and a later match of the same name with value `2`: after `to_dict()`
the value of the first match is `[1, 2]`. -/
theorem C22_to_dict_pure_refuted :
    ∃ (s : Matches) (h : ListHeap) (addr : Match → Option Nat), ∃ m ∈ s.delegate,
      let d := s.toDict h addr false false false
      ((m.valueIn h addr).deref h matches .inr (.list [.int 1])) ∧
      ((m.valueIn d.heap addr).deref d.heap matches .inr (.list [.int 1, .int 2])) := by
  refine ⟨{ delegate := [{ mk 0 1 (some "x") with lit := .list [.int 1] }, { mk 2 3 (some "x") with lit := .int 2 }] },
    fun _ => [.int 1], fun m => if m.start = 0 then some 0 else none, { mk 0 1 (some "x") with lit := .list [.int 1] },
    List.mem_cons_self, ?_, ?_⟩ <;> rfl

/-- **C22, partial**: no list value changes when only first values are asked for, or `details` is asked for, or no list-valued
match is the first match of its name in position order while other matches have this name. (Missing: the case refuted above.) -/
theorem C22_to_dict_pure_partial (s : Matches) (h : ListHeap) (addr : Match → Option Nat) (details firstValue enforceList : Bool)
    (hl : details = true ∨ firstValue = true ∨
      ∀ l, IsStableSort lexLe (fun m => (m.start, m.stop)) s.delegate l → ∀ pre m post, l = pre ++ m :: post → addr m ≠ none →
        (∃ m' ∈ pre, m'.name = m.name) ∨ ∀ m' ∈ post, m'.name ≠ m.name) :
    let d := s.toDict h addr details firstValue enforceList
    ∀ m : Match, (m.valueIn d.heap addr).deref d.heap = (m.valueIn h addr).deref h := by
  intro d m
  have hh : d.heap = h := by
    apply heapInv_foldl (pySorted Match.lt s.delegate) (s := { heap := h }) []
    · refine hl.imp id (Or.imp id (fun hl p' m q' he => ?_))
      cases ha : addr m with
      | none => exact Or.inl rfl
      | some a =>
        refine Or.inr ?_
        have := hl _ (sorted_matches s.delegate) p' m q' he (by rw [ha]; simp)
        simpa using this
    · intro m hm; cases hm
    · exact ⟨rfl, Or.inr (by intro n a hn; cases hn)⟩
  rw [hh]

example : let l := [{ mk 0 1 (some "x") with lit := Val.int 2 }, { mk 2 3 (some "x") with lit := .list [.int 1] },
      { mk 2 3 (some "y") with lit := .list [.int 1] }]
    ∀ i : Fin 3, (l[i].lit).isList = true → (∃ m' ∈ l.take i, m'.name = l[i].name) ∨ ∀ m' ∈ l.drop (i + 1), m'.name ≠ l[i].name := by
  decide

/-! ## C23 -/

theorem Spec.ReachableInOrder.exact {isMarkers : Bool} {input : Option Str} {s : Matches} (h : ReachableInOrder isMarkers input s) :
    Exact s := by
  obtain ⟨ops, h1, h2, rfl⟩ := h
  exact exact_run (inv_empty isMarkers input) (exact_empty isMarkers input) ops h1 h2

/-- **C23.** `matches[key]` is the value of the first contained match named as the key (`None` without such match) and
`matches.all(key)` the values of all of them, in order. -/
theorem C23_typed_access (isMarkers : Bool) (input : Option Str) (s : Matches) (hs : ReachableInOrder isMarkers input s) (k : Key)
    (hk : k.name ≠ "") :
    (s.getKey k).2 = (s.delegate.find? (fun m => decide (m.name = some k.name))).map Match.value ∧
    (s.allKey k).2 = (s.delegate.filter (fun m => decide (m.name = some k.name))).map Match.value := by
  have he := hs.exact
  have hvals : (s.lookName k.name).2 = Spec.named s.delegate k.name := by
    unfold lookName
    simp only
    rw [he.viewName, filed_name _ hk]
  constructor
  · show (s.lookName k.name).2.head?.map Match.value = _
    rw [hvals]
    unfold Spec.named
    rw [List.head?_filter]
  · show (s.lookName k.name).2.map Match.value = _
    rw [hvals]
    rfl

/-- A container built after a lookup and a removal. -/
def typedSample : Matches := (empty false (some "abcdef".toList)).runOps
  [.append (mk 0 2 (some "y")), .named ["y"], .append (mk 2 4 (some "y")), .remove (mk 0 2 (some "y")), .append (mk 4 6 (some "y"))]

theorem typedSample_reachable : ReachableInOrder false (some "abcdef".toList) typedSample := by
  refine ⟨_, ?_, ?_, rfl⟩
  · decide
  · intro n
    match n with
    | 0 => decide
    | 1 => decide
    | 2 => decide
    | 3 => decide
    | 4 => decide
    | n + 5 => rw [List.take_of_length_le (by simp)]; decide

example : ReachableInOrder false (some "abcdef".toList) typedSample ∧
    (typedSample.delegate.filter (fun m => decide (m.name = some "y"))).map Match.start = [2, 4] :=
  ⟨typedSample_reachable, by decide⟩

/-- Why C23 needs additions at the end: after `insert(0, m)` on a container whose name index was built, `matches[key]` is not the
first match of the sequence. -/
theorem C23_insert_refuted :
    ∃ (ops : List Op) (k : Key), (∀ op ∈ ops, (isAddRemove op || isLookup op) = true ∧ Fits false op) ∧ k.name ≠ "" ∧
      let s := (empty false (some "ab".toList)).runOps ops
      (s.getKey k).2 ≠ (s.delegate.find? (fun m => decide (m.name = some k.name))).map Match.value := by
  refine ⟨[.append { mk 1 2 (some "y") with lit := .int 1 }, .named ["y"], .insert 0 { mk 0 1 (some "y") with lit := .int 2 }], ⟨"y", 0, none⟩, ?_, ?_, ?_⟩ <;> decide

/-! ## C24 -/

/-- **C24.** `to(model)`: `list[dataclass or TypedDict]` raises `TypeError`; `list[scalar]` returns all values; a class returns the
first value or raises `LookupError`; anything else that is not a dataclass or a `TypedDict` raises `TypeError`; a field whose
element type is unrelated to the declared key of its name raises `TypeError`; otherwise a `TypedDict` has exactly the fields with
a value and a dataclass gets value or default for each field (its constructor raises `TypeError` for a field with neither). -/
theorem C24_to (isMarkers : Bool) (input : Option Str) (s : Matches) (hs : ReachableInOrder isMarkers input s) (env : ClassEnv)
    (declared : Dict String Key) (fields : List Field) (hn : (fields.map Field.name).Nodup) (hne : ∀ f ∈ fields, f.name ≠ "")
    (c : Nat) :
    s.to env declared (.listOf true) = .error .typeError ∧
    s.to env declared (.listOf false) = .ok (.values (s.delegate.map Match.value)) ∧
    s.to env declared (.cls c) = (match s.delegate with | [] => .error .lookupError | m :: _ => .ok (.value m.value)) ∧
    s.to env declared .other = .error .typeError ∧
    ((∃ f ∈ fields, Incompatible env declared f) →
      s.to env declared (.dataclass fields) = .error .typeError ∧ s.to env declared (.typedDict fields) = .error .typeError) ∧
    ((∀ f ∈ fields, ¬ Incompatible env declared f) →
      s.to env declared (.typedDict fields) =
        .ok (.record (fields.filterMap (fun f => (fieldValue s.delegate f).map (fun v => (f.name, v))))) ∧
      ((∀ f ∈ fields, (fieldValue s.delegate f).isSome ∨ f.dflt.isSome) →
        s.to env declared (.dataclass fields) = .ok (.record (fields.filterMap (fun f =>
          ((fieldValue s.delegate f).or (f.dflt.map .one)).map (fun v => (f.name, v)))))) ∧
      ((∃ f ∈ fields, fieldValue s.delegate f = none ∧ f.dflt = none) →
        s.to env declared (.dataclass fields) = .error .typeError)) := by
  refine ⟨rfl, rfl, rfl, rfl, ?_, ?_⟩
  · intro h
    have := toLoop_error env declared fields s [] h
    constructor <;> (simp only [Matches.to]; rw [this])
  · intro h
    obtain ⟨s', hl⟩ := toLoop_ok env declared s.delegate fields s [] hs.exact rfl h hne hn (by intro f _ hc; cases hc)
    simp only [List.nil_append] at hl
    have hcon := construct_spec s.delegate (kwOf s.delegate fields) fields (fun f hf => get?_kwOf s.delegate fields hn f hf)
    refine ⟨?_, ?_, ?_⟩
    · simp only [Matches.to]; rw [hl]; rfl
    · intro hall
      simp only [Matches.to]; rw [hl]
      simp only
      rw [hcon, if_pos hall]
      rfl
    · rintro ⟨f, hf, h1, h2⟩
      simp only [Matches.to]; rw [hl]
      simp only
      rw [hcon, if_neg]
      · rfl
      · intro hall
        have := hall f hf
        simp [h1, h2] at this

/-- Classes 0 `None`, 1 `int`, 2 `str`, 3 `bool` (a subclass of `int`), 4 `list`. -/
def envSample : ClassEnv where
  sub a b := a == b || (a == 3 && b == 1)
  container c := c == 4
  noneType := 0

/-- `y: list[bool] | None` declared `int` is compatible, `y: str` is not; the former is an `Optional` field: it gets one value. -/
example : let f : Field := ⟨"y", .union [.cls 0, .list (some (.cls 3))], none⟩
    let g : Field := ⟨"y", .cls 2, none⟩
    let declared : Dict String Key := [("y", ⟨"y", 1, none⟩)]
    ¬ Incompatible envSample declared f ∧ Incompatible envSample declared g ∧
      (fieldValue typedSample.delegate ⟨"z", .cls 1, some (.int 3)⟩).isNone ∧ (fieldValue typedSample.delegate f).isSome := by
  refine ⟨?_, ?_, ?_, ?_⟩
  · rw [← incompatible_iff]; decide
  · rw [← incompatible_iff]; decide
  · rfl
  · rfl

/-! ## C25 -/

/-- **C25.** `check_declared_keys` raises (`TypeError`) exactly when some contained match has a non-empty declared name, is public,
has no (truthy) literal value and a value other than `None` that is not an instance of the declared type. -/
theorem C25_check_declared_keys (isinstance : Val → Nat → Bool) (declared : Dict String Key) (s : Matches) :
    (checkDeclaredKeys isinstance declared s.delegate = some .typeError ∨
      checkDeclaredKeys isinstance declared s.delegate = none) ∧
    (checkDeclaredKeys isinstance declared s.delegate = some .typeError ↔
      ∃ m ∈ s.delegate, ∃ n k, m.name = some n ∧ n ≠ "" ∧ declared.get? n = some k ∧ m.priv = false ∧
        ¬ IsTrue m.lit ∧ m.value ≠ .none ∧ isinstance m.value k.valueType = false) := by
  simp only [← isTrue_iff, Bool.not_eq_true]
  exact check_spec isinstance declared s.delegate

/-- Instances: class 1 has the integers, class 2 the strings. -/
def isinstanceSample (v : Val) (c : Nat) : Bool := match v, c with | .int _, 1 => true | .str _, 2 => true | _, _ => false

example : checkDeclaredKeys isinstanceSample [("y", ⟨"y", 1, none⟩)] [{ mk 0 2 (some "y") with inputString := some "ab".toList }] =
      some .typeError ∧
    checkDeclaredKeys isinstanceSample [("y", ⟨"y", 1, none⟩)]
      [{ mk 0 2 (some "y") with inputString := some "ab".toList, priv := true }, mk 0 2 (some "y"),
       { mk 0 2 (some "y") with inputString := some "ab".toList, lit := .str ['c'] },
       { mk 0 2 (some "y") with inputString := some "42".toList, formatter := some (fun _ => .int 42) }] = none := by decide

end Rebulk
