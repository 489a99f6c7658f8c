import Verif.Lemmas.FailingReads
import Verif.Props.Project
/-!
# C128: reading results when a formatter raises
-/
namespace Rebulk
open Matches Spec

/-- **C128 (values).** When reading the value of some matches raises (`broken`): `matches[key]` reads the first match of the name, `matches.all(key)` all of
them in order, `to(list[T])` all the matches, `to(T)` the first one, `to_dict()` all of them in position order `l`, named or not; the call raises what the
first of these raises, or answers as if nothing could raise. The two lookups leave the container as they do when nothing raises. -/
theorem C128_values (broken : Match → Option Nat) (isMarkers : Bool) (input : Option Str) (s : Matches) (hs : ReachableInOrder isMarkers input s)
    (k : Key) (hk : k.name ≠ "") (env : ClassEnv) (declared : Dict String Key) (c : Nat)
    (h : ListHeap) (addr : Match → Option Nat) (firstValue enforceList : Bool) :
    ((s.getKeyF broken k).2 = readsOr broken ((named s.delegate k.name).head?.toList) (.ok (s.getKey k).2) ∧
      (s.getKeyF broken k).1 = (s.getKey k).1) ∧
    ((s.allKeyF broken k).2 = readsOr broken (named s.delegate k.name) (.ok (s.allKey k).2) ∧
      (s.allKeyF broken k).1 = (s.allKey k).1) ∧
    s.toF broken env declared (.listOf false) = readsOr broken s.delegate (s.to env declared (.listOf false)) ∧
    s.toF broken env declared (.cls c) = readsOr broken s.delegate.head?.toList (s.to env declared (.cls c)) ∧
    ∃ l, IsStableSort lexLe (fun m => (m.start, m.stop)) s.delegate l ∧
      s.toDictF broken h addr false firstValue enforceList = readsOr broken l (.ok (s.toDict h addr false firstValue enforceList)) := by
  have hn := lookName_named hs.exact hk
  refine ⟨⟨?_, rfl⟩, ⟨?_, rfl⟩, ?_, ?_, pySorted Match.lt s.delegate, sorted_matches _, ?_⟩
  · unfold getKeyF getKey readsOr
    simp only [hn]
    cases named s.delegate k.name with
    | nil => rfl
    | cons m ms =>
      unfold valueF
      simp only [List.head?_cons, Option.toList_some, List.findSome?_cons, List.findSome?_nil, Option.map_some]
      cases broken m <;> rfl
  · unfold allKeyF allKey
    simp only [hn, valuesF_eq]
  · unfold toF Matches.to
    simp only [Bool.false_eq_true, if_false, valuesF_eq]
    unfold readsOr
    cases s.delegate.findSome? broken <;> rfl
  · unfold toF Matches.to readsOr
    cases s.delegate with
    | nil => rfl
    | cons m ms =>
      unfold valueF
      simp only [List.head?_cons, Option.toList_some, List.findSome?_cons, List.findSome?_nil]
      cases broken m <;> rfl
  · exact toDictLoopF_plain broken addr firstValue enforceList _ _

/-- **C128 (details).** `to_dict(details=True)` reads no value, except to compare two different matches of one name and one span: it raises exactly when
one of two such matches cannot be read — what that match raises — and never with `first_value=True, enforce_list=True`; otherwise it answers as if nothing
could raise. -/
theorem C128_details (broken : Match → Option Nat) (s : Matches) (hid : (s.delegate.map Match.id).Nodup) (h : ListHeap)
    (addr : Match → Option Nat) (firstValue enforceList : Bool) :
    (((firstValue = true ∧ enforceList = true) ∨ ¬ SamePlaceClash broken s.delegate) →
      s.toDictF broken h addr true firstValue enforceList = .ok (s.toDict h addr true firstValue enforceList)) ∧
    (¬ (firstValue = true ∧ enforceList = true) → SamePlaceClash broken s.delegate →
      ∃ n, (∃ m ∈ s.delegate, broken m = some n) ∧ s.toDictF broken h addr true firstValue enforceList = .error (.user n)) := by
  have hp := pySorted_perm Match.lt s.delegate
  have hc : SamePlaceClash broken ([] ++ pySorted Match.lt s.delegate) ↔ SamePlaceClash broken s.delegate :=
    ⟨clash_mono (fun x hx => hp.mem_iff.1 hx), clash_mono (fun x hx => hp.mem_iff.2 hx)⟩
  have := toDictLoopF_details broken addr (h := h) firstValue enforceList (pySorted Match.lt s.delegate) [] { heap := h }
    (by rw [List.nil_append]; exact ((hp.map Match.id).nodup_iff).2 hid) (dictInv_init h true firstValue enforceList)
    (Or.inr (by rintro ⟨x, hx, _⟩; cases hx))
  rw [hc] at this
  refine ⟨this.1, fun h1 h2 => ?_⟩
  obtain ⟨n, ⟨m, hm, hb⟩, he⟩ := this.2 h1 h2
  exact ⟨n, ⟨m, hp.mem_iff.1 (by simpa using hm), hb⟩, he⟩

/-- **C128 (models).** `to(dataclass)` and `to(TypedDict)` take the fields in order: a field is first compared with its declared key, then the values of all
the matches of its name are read, in order. The first field that contradicts its key (`TypeError`) or has a match that cannot be read (what the first
such match raises) stops the projection; without such a field the answer is the one that reading without exceptions gives. -/
theorem C128_models (broken : Match → Option Nat) (isMarkers : Bool) (input : Option Str) (s : Matches) (hs : ReachableInOrder isMarkers input s)
    (env : ClassEnv) (declared : Dict String Key) (fields : List Field) (hne : ∀ f ∈ fields, f.name ≠ "") (model : Model)
    (hm : model = .dataclass fields ∨ model = .typedDict fields) :
    ((∀ f ∈ fields, Readable broken (named s.delegate f.name)) → s.toF broken env declared model = s.to env declared model) ∧
    (∀ pre f post, fields = pre ++ f :: post →
      (∀ g ∈ pre, ¬ Incompatible env declared g ∧ Readable broken (named s.delegate g.name)) →
      (Incompatible env declared f → s.toF broken env declared model = .error .typeError) ∧
      (¬ Incompatible env declared f → ∀ n, (named s.delegate f.name).findSome? broken = some n →
        s.toF broken env declared model = .error (.user n))) := by
  constructor
  · intro hr
    have := toLoopF_ok broken env declared fields s [] hs.exact hne hr
    rcases hm with rfl | rfl <;> (simp only [toF, Matches.to, this]; cases toLoop env declared fields s [] <;> rfl)
  · rintro pre f post rfl hpre
    have hstop := fun e he => toLoopF_stops broken env declared f post e pre s [] hs.exact
      (fun g hg => hne g (by
        rcases List.mem_append.1 hg with hg | hg
        · exact List.mem_append_left _ hg
        · rw [List.mem_singleton.1 hg]; simp)) hpre he
    constructor
    · intro hi
      have := hstop .typeError (Or.inl ⟨hi, rfl⟩)
      rcases hm with rfl | rfl <;> simp only [toF, this]
    · intro hi n hn
      have := hstop (.user n) (Or.inr ⟨hi, n, hn, rfl⟩)
      rcases hm with rfl | rfl <;> simp only [toF, this]

/-- **C128 (checks).** `check_declared_keys()` reads only the matches with a declared name, public and without literal value, in order, up to the first that
cannot be read (it raises what this one raises) or does not have its declared type (`TypeError`); if all those matches can be read it does what it does
without exceptions. -/
theorem C128_checks (broken : Match → Option Nat) (isinstance : Val → Nat → Bool) (declared : Dict String Key) (s : Matches) :
    ((∀ m ∈ s.delegate, ∀ k, Due declared m k → broken m = none) →
      checkDeclaredKeysF broken isinstance declared s.delegate = checkDeclaredKeys isinstance declared s.delegate) ∧
    (∀ pre m post k, s.delegate = pre ++ m :: post → Due declared m k →
      (∀ x ∈ pre, ∀ k, Due declared x k → broken x = none ∧ ¬ Violates isinstance x k) →
      (∀ n, broken m = some n → checkDeclaredKeysF broken isinstance declared s.delegate = some (.user n)) ∧
      (broken m = none → Violates isinstance m k → checkDeclaredKeysF broken isinstance declared s.delegate = some .typeError)) := by
  refine ⟨checkF_readable broken isinstance declared s.delegate, fun pre m post k he hd hpre => ?_⟩
  rw [he]
  exact ⟨fun n hb => checkF_stops broken isinstance declared m k n post hd hb pre hpre,
    fun hb hv => checkF_violates broken isinstance declared m k post hd hv hb pre hpre⟩

/-- **C128 (refused models).** A list of a dataclass or TypedDict and what is no type are refused with `TypeError` before anything is read. -/
theorem C128_refused (broken : Match → Option Nat) (env : ClassEnv) (declared : Dict String Key) (s : Matches) :
    s.toF broken env declared (.listOf true) = .error .typeError ∧ s.toF broken env declared .other = .error .typeError :=
  ⟨rfl, rfl⟩

/-! ## Concrete cases -/

/-- The match at 4 raises; the container of `Props/Project.lean` has matches "y" at 2 and 4. -/
def brokenAt (i : Int) (m : Match) : Option Nat := if m.start = i then some 9 else none

/-- `matches["y"]` is read, `matches.all("y")`, `to_dict()` and `to(list[str])` raise; the contradiction of a later field is not reached, that of an earlier
field comes first. -/
example : ReachableInOrder false (some "abcdef".toList) typedSample ∧
    (named typedSample.delegate "y").findSome? (brokenAt 4) = some 9 ∧
    ((typedSample.getKeyF (brokenAt 4) ⟨"y", 0, none⟩).2 matches .ok (some _)) ∧
    ((typedSample.allKeyF (brokenAt 4) ⟨"y", 0, none⟩).2 matches .error (.user 9)) ∧
    ((typedSample.toF (brokenAt 4) envSample [] (.typedDict [⟨"x", .cls 1, none⟩, ⟨"y", .cls 1, none⟩])) matches .error (.user 9)) ∧
    ((typedSample.toF (brokenAt 4) envSample [("x", ⟨"x", 2, none⟩)] (.typedDict [⟨"x", .cls 1, none⟩, ⟨"y", .cls 1, none⟩]))
      matches .error .typeError) :=
  ⟨typedSample_reachable, by decide, by decide, by decide, by decide, by decide⟩

/-- Two matches of one name and one span, of which the second cannot be read. -/
def clashMatches : List Match :=
  [{ mk 0 1 (some "x") with id := 1, lit := .int 1 }, { mk 0 1 (some "x") with id := 2 }, { mk 1 2 (some "x") with id := 3 }]

def clashSample : Matches := (empty false (some "ab".toList)).runOps [.extend clashMatches]

def brokenSecond (m : Match) : Option Nat := if m.id = 2 then some 7 else none

example : (clashSample.delegate.map Match.id).Nodup ∧ SamePlaceClash brokenSecond clashSample.delegate ∧
    ((clashSample.toDictF brokenSecond (fun _ => []) (fun _ => none) true false false) matches .error (.user 7)) ∧
    ((clashSample.toDictF brokenSecond (fun _ => []) (fun _ => none) true true true) matches .ok _) := by
  have hd : clashSample.delegate = clashMatches := rfl
  refine ⟨by decide, ?_, by decide, by decide⟩
  rw [hd]
  exact ⟨_, List.mem_cons_of_mem _ List.mem_cons_self, _, List.mem_cons_self, by decide, rfl, rfl, by decide⟩

/-- An unreadable match is not an obstacle when it is private; it is when it is to be checked. -/
example : (∀ k, Due [("y", ⟨"y", 1, none⟩)] (mk 0 2 (some "y")) k → k = ⟨"y", 1, none⟩) ∧
    checkDeclaredKeysF (brokenAt 0) isinstanceSample [("y", ⟨"y", 1, none⟩)] [mk 0 2 (some "y")] = some (.user 9) ∧
    checkDeclaredKeysF (brokenAt 0) isinstanceSample [("y", ⟨"y", 1, none⟩)] [{ mk 0 2 (some "y") with priv := true }] = none := by
  refine ⟨?_, by decide, by decide⟩
  rintro k ⟨⟨n, h1, _, h3⟩, _⟩
  cases h1
  cases h3
  rfl

end Rebulk
