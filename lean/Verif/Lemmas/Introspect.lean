import Verif.Spec.Introspect
import Verif.Lemmas.Rebulk
import Verif.Lemmas.Project
/-!
# Lemmas on `check_keys` and introspection
-/
namespace Rebulk
open Spec
variable {Ctx : Type}

/-! ## Producible names -/

theorem mem_nameKey (p : PatternObj Ctx) (n : String) : n ∈ p.nameKey.toList ↔ p.base.opts.name = some n ∧ n ≠ "" := by
  unfold PatternObj.nameKey
  cases p.base.opts.name with
  | none => simp
  | some x =>
    simp only
    by_cases hx : x.isEmpty = true
    · rw [if_pos hx]
      have : x = "" := by simpa using hx
      subst this
      constructor
      · intro h; cases h
      · rintro ⟨h, h'⟩; injection h with h; exact absurd h.symm h'
    · rw [if_neg hx]
      have : x ≠ "" := by simpa using hx
      simp only [Option.toList_some, List.mem_singleton, Option.some.injEq]
      constructor
      · rintro rfl; exact ⟨rfl, this⟩
      · rintro ⟨rfl, _⟩; rfl

mutual
theorem mem_producible (n : String) : ∀ p : PatternObj Ctx, n ∈ p.producible ↔ CanProduce p n
  | .string i p o ss => by
    rw [PatternObj.producible, List.mem_append]
    constructor
    · rintro (h | h)
      · obtain ⟨kv, hk, rfl⟩ := List.mem_map.1 h; exact .property (vs := kv.2) hk
      · obtain ⟨h1, h2⟩ := (mem_nameKey _ n).1 h; exact .name h1 h2
    · intro h
      cases h with
      | property h => exact .inl (List.mem_map.2 ⟨_, h, rfl⟩)
      | name h1 h2 => exact .inr ((mem_nameKey _ n).2 ⟨h1, h2⟩)
  | .regex i p rc res => by
    rw [PatternObj.producible, List.mem_append, List.mem_append]
    constructor
    · rintro ((h | h) | h)
      · obtain ⟨kv, hk, rfl⟩ := List.mem_map.1 h; exact .property (vs := kv.2) hk
      · obtain ⟨h1, h2⟩ := (mem_nameKey _ n).1 h; exact .name h1 h2
      · obtain ⟨re, hre, h⟩ := List.mem_flatMap.1 h
        obtain ⟨x, hx, rfl⟩ := List.mem_filterMap.1 h
        exact .group hre hx
    · intro h
      cases h with
      | property h => exact .inl (.inl (List.mem_map.2 ⟨_, h, rfl⟩))
      | name h1 h2 => exact .inl (.inr ((mem_nameKey _ n).2 ⟨h1, h2⟩))
      | group h1 h2 => exact .inr (List.mem_flatMap.2 ⟨_, h1, List.mem_filterMap.2 ⟨_, h2, rfl⟩⟩)
  | .functional i p fs => by
    rw [PatternObj.producible, List.mem_append]
    constructor
    · rintro (h | h)
      · obtain ⟨kv, hk, rfl⟩ := List.mem_map.1 h; exact .property (vs := kv.2) hk
      · obtain ⟨h1, h2⟩ := (mem_nameKey _ n).1 h; exact .name h1 h2
    · intro h
      cases h with
      | property h => exact .inl (List.mem_map.2 ⟨_, h, rfl⟩)
      | name h1 h2 => exact .inr ((mem_nameKey _ n).2 ⟨h1, h2⟩)
  | .chain i p b parts => by
    rw [PatternObj.producible, List.mem_append, List.mem_append, mem_producibleParts n parts]
    constructor
    · rintro ((h | h) | ⟨q, hq, h⟩)
      · obtain ⟨kv, hk, rfl⟩ := List.mem_map.1 h; exact .property (vs := kv.2) hk
      · obtain ⟨h1, h2⟩ := (mem_nameKey _ n).1 h; exact .name h1 h2
      · exact .part hq h
    · intro h
      cases h with
      | property h => exact .inl (.inl (List.mem_map.2 ⟨_, h, rfl⟩))
      | name h1 h2 => exact .inl (.inr ((mem_nameKey _ n).2 ⟨h1, h2⟩))
      | part h1 h2 => exact .inr ⟨_, h1, h2⟩
theorem mem_producibleParts (n : String) : ∀ parts : PartObjs Ctx, n ∈ PatternObj.producibleParts parts ↔ ∃ q, IsPart q parts ∧ CanProduce q n
  | .nil => by
    rw [PatternObj.producibleParts]
    constructor
    · intro h; cases h
    · rintro ⟨q, h, _⟩; cases h
  | .cons p s e hid rest => by
    rw [PatternObj.producibleParts, List.mem_append, mem_producible n p, mem_producibleParts n rest]
    constructor
    · rintro (h | ⟨q, hq, h⟩)
      · exact ⟨p, .head, h⟩
      · exact ⟨q, .tail hq, h⟩
    · rintro ⟨q, hq, h⟩
      cases hq with
      | head => exact .inl h
      | tail hq => exact .inr ⟨q, hq, h⟩
end

/-! ## Declared keys -/

theorem mergeKeys_nodup (acc d : Dict String Key) (h : acc.keys.Nodup) : (RebulkObj.mergeKeys acc d).keys.Nodup := by
  unfold RebulkObj.mergeKeys
  induction d generalizing acc with
  | nil => exact h
  | cons kv d ih =>
    rw [List.foldl_cons]
    apply ih
    unfold Dict.setDefault
    split
    · exact h
    · next hc =>
      have hk : kv.1 ∉ acc.keys := fun hm => hc ((Dict.contains_iff acc kv.1).2 hm)
      rw [Dict.keys_set, if_neg hk, List.nodup_append]
      refine ⟨h, by simp, ?_⟩
      intro a ha b hb hab
      rw [List.mem_singleton] at hb
      exact hk (hb ▸ hab ▸ ha)

theorem allKeys_nodup : ∀ (cs : List (RebulkObj Ctx)) (acc : Dict String Key), acc.keys.Nodup → (RebulkObj.allKeys cs acc).keys.Nodup
  | [], _, h => h
  | c :: cs, acc, h => allKeys_nodup cs _ (mergeKeys_nodup acc c.keys h)

theorem allKeys_mem (n : String) : ∀ (cs : List (RebulkObj Ctx)) (acc : Dict String Key),
    n ∈ (RebulkObj.allKeys cs acc).keys ↔ n ∈ acc.keys ∨ ∃ c ∈ cs, n ∈ c.keys.keys
  | [], acc => by simp [RebulkObj.allKeys]
  | c :: cs, acc => by
    unfold RebulkObj.allKeys
    rw [allKeys_mem n cs, ← Dict.get?_isSome_iff, mergeKeys_get, Option.isSome_or, Bool.or_eq_true, Dict.get?_isSome_iff, Dict.get?_isSome_iff]
    simp only [List.mem_cons, exists_eq_or_imp, or_assoc]

theorem allPatterns_eq : ∀ (cs : List (RebulkObj Ctx)) (acc : List (PatternObj Ctx)),
    RebulkObj.allPatterns cs acc = acc ++ cs.flatMap (fun c => c.patterns)
  | [], acc => by simp [RebulkObj.allPatterns]
  | c :: cs, acc => by unfold RebulkObj.allPatterns; rw [allPatterns_eq cs]; simp

theorem string_le_of_not_lt {a b : String} (h : ¬ a < b) : b ≤ a := h

/-- Sorted without repetition. -/
theorem pySorted_strings (l : List String) (h : l.Nodup) : (pySorted (fun a b => decide (a < b)) l).Pairwise (· < ·) := by
  have hs := pySorted_isStableSort (fun a b : String => decide (a < b)) (fun a b : String => a ≤ b) (fun s => s)
    (fun a b hab => by
      have hab := of_decide_eq_true hab
      exact ⟨String.not_lt.1 (fun h => String.lt_asymm h hab), fun he => by rw [he] at hab; exact String.lt_irrefl _ hab⟩)
    (fun a b hab => string_le_of_not_lt (of_decide_eq_false hab)) (fun a b c => String.le_trans) l
  have hn : (pySorted (fun a b : String => decide (a < b)) l).Nodup := hs.perm.nodup_iff.2 h
  refine (hs.sorted.and hn).imp ?_
  rintro a b ⟨h1, h2⟩
  rcases Classical.em (a < b) with h | h
  · exact h
  · exact absurd (String.le_antisymm h1 (string_le_of_not_lt h)) h2

/-! ## Introspection -/

theorem distinctFrom_cons_seen {α : Type} [DecidableEq α] (seen : List α) (x : α) (l : List α) (h : x ∈ seen) :
    distinctFrom (fun a b => decide (a = b)) seen (x :: l) = distinctFrom (fun a b => decide (a = b)) seen l := by
  simp only [distinctFrom]; rw [if_pos (by simpa using h)]

/-- Removing repetitions first changes nothing. -/
theorem distinctFrom_distinctFrom {α : Type} [DecidableEq α] (seen : List α) : ∀ (l s : List α), (∀ x ∈ s, x ∈ seen) →
    distinctFrom (fun a b => decide (a = b)) seen (distinctFrom (fun a b => decide (a = b)) s l) = distinctFrom (fun a b => decide (a = b)) seen l
  | [], s, _ => by simp [distinctFrom]
  | x :: l, s, h => by
    by_cases hx : x ∈ s
    · rw [distinctFrom_cons_seen s x l hx, distinctFrom_cons_seen seen x l (h x hx)]
      exact distinctFrom_distinctFrom seen l s h
    · have e : distinctFrom (fun a b => decide (a = b)) s (x :: l) = x :: distinctFrom (fun a b => decide (a = b)) (s ++ [x]) l := by
        conv => lhs; simp only [distinctFrom]
        rw [if_neg (by simpa using hx)]
      rw [e]
      by_cases hs : x ∈ seen
      · rw [distinctFrom_cons_seen _ x _ hs, distinctFrom_cons_seen _ x _ hs]
        refine distinctFrom_distinctFrom seen l (s ++ [x]) ?_
        intro y hy
        rcases List.mem_append.1 hy with hy | hy
        · exact h y hy
        · rw [List.mem_singleton.1 hy]; exact hs
      · simp only [distinctFrom]
        rw [if_neg (by simpa using hs), if_neg (by simpa using hs)]
        congr 1
        refine distinctFrom_distinctFrom (seen ++ [x]) l (s ++ [x]) ?_
        intro y hy
        rcases List.mem_append.1 hy with hy | hy
        · exact List.mem_append_left _ (h y hy)
        · exact List.mem_append_right _ hy

/-- The dictionary in terms of look ups. -/
structure Reps (D : Declarations) (d : Props) : Prop where
  names : d.keys = distinct (fun a b => decide (a = b)) (D.map Prod.fst)
  values : ∀ n, Dict.getList d n = distinct (fun a b => decide (a = b)) (valuesFor D n)

theorem reps_nil : Reps [] [] := ⟨rfl, fun _ => rfl⟩

theorem valuesFor_append (D E : Declarations) (n : Option String) : valuesFor (D ++ E) n = valuesFor D n ++ valuesFor E n := by
  simp [valuesFor]

theorem reps_extendSafe {D : Declarations} {d : Props} (h : Reps D d) (n : Option String) (vs : List Val) :
    Reps (D ++ [(n, vs)]) (d.extendSafe n vs) := by
  unfold Props.extendSafe
  constructor
  · rw [Dict.keys_set, h.names, List.map_append, List.map_singleton, distinct_snoc]
    have : ((distinct (fun a b => decide (a = b)) (D.map Prod.fst)).any (fun y => decide (y = n)) = true) ↔
        n ∈ distinct (fun a b => decide (a = b)) (D.map Prod.fst) := by simp
    by_cases hn : n ∈ distinct (fun a b => decide (a = b)) (D.map Prod.fst)
    · rw [if_pos hn, if_pos (this.2 hn), List.append_nil]
    · rw [if_neg hn, if_neg (fun hh => hn (this.1 hh))]
  · intro k
    rw [Dict.getList_set, valuesFor_append]
    have hone : valuesFor [(n, vs)] k = if n = k then vs else [] := by
      by_cases hk : n = k <;> simp [valuesFor, hk]
    rw [hone]
    by_cases hk : n = k
    · rw [if_pos hk, if_pos hk, extendSafe_spec (fun a b : Val => decide (a = b)) (fun x => by simp), h.values, ← hk]
      unfold distinct
      rw [distinctFrom_append, List.nil_append]
    · rw [if_neg hk, if_neg hk, List.append_nil]; exact h.values k

theorem reps_extendAll (E : Declarations) {D : Declarations} {d : Props} (h : Reps D d) : Reps (D ++ E) (d.extendAll E) := by
  unfold Props.extendAll
  induction E generalizing D d with
  | nil => simpa using h
  | cons kv E ih =>
    rw [List.foldl_cons]
    have := ih (reps_extendSafe h kv.1 kv.2)
    rwa [List.append_assoc, List.singleton_append] at this

theorem reps_of_nil (E : Declarations) : Reps E (Props.extendAll [] E) := by simpa using reps_extendAll E reps_nil

theorem nodup_distinctFrom {α : Type} [DecidableEq α] : ∀ (l seen : List α), (distinctFrom (fun a b => decide (a = b)) seen l).Nodup
  | [], _ => by simp [distinctFrom]
  | x :: l, seen => by
    simp only [distinctFrom]
    split
    · exact nodup_distinctFrom l seen
    · rw [List.nodup_cons]
      refine ⟨fun h => ?_, nodup_distinctFrom l _⟩
      exact ((mem_distinctFrom _ _ _).1 h).2 (by simp)

theorem dict_get?_mem {κ ν : Type} [BEq κ] [LawfulBEq κ] : ∀ {d : Dict κ ν} {k : κ} {v : ν}, d.keys.Nodup → (k, v) ∈ d → d.get? k = some v
  | [], _, _, _, h => by cases h
  | (k', v') :: d, k, v, hn, h => by
    unfold Dict.get?
    have hn : k' ∉ d.map Prod.fst ∧ (Dict.keys d).Nodup := List.nodup_cons.1 hn
    rcases List.mem_cons.1 h with h | h
    · injection h with h1 h2; subst h1 h2; simp
    · have : k' ≠ k := fun he => hn.1 (he ▸ List.mem_map.2 ⟨_, h, rfl⟩)
      rw [if_neg (by simpa using this)]
      exact dict_get?_mem hn.2 h

theorem valuesFor_dict {d : Props} (hn : d.keys.Nodup) (k : Option String) : valuesFor d k = Dict.getList d k := by
  induction d with
  | nil => rfl
  | cons kv d ih =>
    have hn' : kv.1 ∉ d.map Prod.fst ∧ (Dict.keys d).Nodup := List.nodup_cons.1 hn
    have ih := ih hn'.2
    have hg : Dict.getList (kv :: d) k = if kv.1 = k then kv.2 else Dict.getList d k := by
      show (if (kv.1 == k) = true then some kv.2 else Dict.get? d k).getD [] = _
      by_cases hk : kv.1 = k
      · rw [if_pos (by simpa using hk), if_pos hk]; rfl
      · rw [if_neg (by simpa using hk), if_neg hk]; rfl
    rw [hg]
    by_cases hk : kv.1 = k
    · have hd : Dict.getList d k = [] := by
        unfold Dict.getList; rw [(Dict.get?_eq_none_iff d k).2 (hk ▸ hn'.1)]; rfl
      rw [if_pos hk]
      unfold valuesFor at ih ⊢
      rw [List.filter_cons_of_pos (by simpa using hk), List.flatMap_cons, ih, hd, List.append_nil]
    · rw [if_neg hk, ← ih]
      unfold valuesFor
      rw [List.filter_cons_of_neg (by simpa using hk)]

theorem reps_nodup {D : Declarations} {d : Props} (h : Reps D d) : d.keys.Nodup := by
  rw [h.names]; exact nodup_distinctFrom _ _

/-- Adding a description to the whole. -/
theorem reps_extendAll_reps {D E : Declarations} {d p : Props} (h : Reps D d) (hp : Reps E p) : Reps (D ++ E) (d.extendAll p) := by
  have h1 := reps_extendAll p h
  constructor
  · rw [h1.names, List.map_append, List.map_append]
    have : p.map Prod.fst = distinct (fun a b => decide (a = b)) (E.map Prod.fst) := hp.names
    rw [this]
    unfold distinct
    rw [distinctFrom_append, distinctFrom_append]
    congr 1
    exact distinctFrom_distinctFrom _ _ _ (by simp)
  · intro n
    rw [h1.values, valuesFor_append, valuesFor_append, valuesFor_dict (reps_nodup hp), hp.values]
    unfold distinct
    rw [distinctFrom_append, distinctFrom_append]
    congr 1
    exact distinctFrom_distinctFrom _ _ _ (by simp)

theorem reps_lists {D : Declarations} {d : Props} (h : Reps D d) : Lists D d := by
  refine ⟨h.names, ?_⟩
  intro n vs hm
  have := h.values n
  unfold Dict.getList at this
  rw [dict_get?_mem (reps_nodup h) hm] at this
  exact this

/-! ## Descriptions -/

theorem foldSet_get {κ ν : Type} [DecidableEq κ] [BEq κ] [LawfulBEq κ] (l : List (κ × ν)) (d : Dict κ ν) (k : κ) :
    (l.foldl (fun d kv => Dict.set d kv.1 kv.2) d).get? k = (((l.filter (fun kv => decide (kv.1 = k))).map Prod.snd).getLast?).or (d.get? k) := by
  induction l generalizing d with
  | nil => simp
  | cons kv l ih =>
    rw [List.foldl_cons, ih, Dict.get?_set]
    by_cases hk : kv.1 = k
    · rw [if_pos hk, List.filter_cons_of_pos (by simpa using hk), List.map_cons, List.getLast?_cons]
      cases ((l.filter (fun kv => decide (kv.1 = k))).map Prod.snd).getLast? <;> rfl
    · rw [if_neg hk, List.filter_cons_of_neg (by simpa using hk)]

theorem foldSet_keys {κ ν : Type} [DecidableEq κ] [BEq κ] [LawfulBEq κ] (l : List (κ × ν)) (d : Dict κ ν) :
    (l.foldl (fun d kv => Dict.set d kv.1 kv.2) d).keys = d.keys ++ distinctFrom (fun a b => decide (a = b)) d.keys (l.map Prod.fst) := by
  induction l generalizing d with
  | nil => simp [distinctFrom]
  | cons kv l ih =>
    rw [List.foldl_cons, ih, Dict.keys_set, List.map_cons]
    by_cases hk : kv.1 ∈ d.keys
    · rw [if_pos hk, distinctFrom_cons_seen _ _ _ hk]
    · rw [if_neg hk]
      conv => rhs; simp only [distinctFrom]
      rw [if_neg (by simpa using hk)]
      simp

theorem dict_eq_map {κ ν : Type} [BEq κ] [LawfulBEq κ] {d : Dict κ ν} (hn : d.keys.Nodup) :
    d.map (fun kv => (kv.1, [kv.2])) = d.keys.map (fun k => (k, (d.get? k).toList)) := by
  unfold Dict.keys
  rw [List.map_map]
  refine List.map_congr_left ?_
  intro kv hkv
  simp only [Function.comp_apply]
  rw [dict_get?_mem hn (show (kv.1, kv.2) ∈ d from hkv)]
  rfl

/-- The dictionary of `value=` is the specified one. -/
theorem patternValues_spec (p : Pattern) :
    (patternValues p.opts.name p.values).map (fun kv => (kv.1, [kv.2])) = lastValues (valueNames p) := by
  have e : patternValues p.opts.name p.values = (valueNames p).foldl (fun d kv => Dict.set d kv.1 kv.2) [] := by
    unfold patternValues valueNames
    rw [List.foldl_map]
    congr 1
    funext d kv
    congr 1
    cases kv.1 with
    | none => simp
    | some n =>
      by_cases hn : n = ""
      · subst hn; simp
      · simp [hn]
  have hk : (patternValues p.opts.name p.values).keys = distinct (fun a b => decide (a = b)) ((valueNames p).map Prod.fst) := by
    rw [e, foldSet_keys]; rfl
  rw [dict_eq_map (by rw [hk]; exact nodup_distinctFrom _ _), hk]
  unfold lastValues
  refine List.map_congr_left ?_
  intro n _
  rw [e, foldSet_get]
  simp [Dict.get?]

theorem lastValues_eq_nil {l : List (Option String × Val)} : lastValues l = [] ↔ l = [] := by
  constructor
  · intro h
    cases l with
    | nil => rfl
    | cons kv l => simp [lastValues, distinct, distinctFrom] at h
  · rintro rfl; rfl

theorem nameKey_decl (p : PatternObj Ctx) : nameProps p =
    Props.extendAll [] (match p.base.opts.name with | some n => if n = "" then [] else unknownValue p.base n | none => []) := by
  unfold nameProps PatternObj.nameKey
  cases p.base.opts.name with
  | none => rfl
  | some n =>
    simp only
    by_cases hn : n = ""
    · subst hn; rfl
    · rw [if_neg hn, if_neg (by simpa using hn)]
      unfold unknownValue
      by_cases hp : n ∈ p.base.privateNames
      · simp [hp, Props.extendAll]
      · simp [hp]

theorem groups_decl (p : Pattern) (l : List String) :
    l.filterMap (fun n => if p.privateNames.contains n then none else some (some n, [Val.none])) = l.flatMap (unknownValue p) := by
  induction l with
  | nil => rfl
  | cons n l ih =>
    rw [List.flatMap_cons, ← ih]
    unfold unknownValue
    by_cases hp : n ∈ p.privateNames
    · rw [List.filterMap_cons_none (by simp [hp]), if_pos hp, List.nil_append]
    · rw [List.filterMap_cons_some (by simp [hp]; rfl), if_neg hp]; rfl

theorem describe_reps (p : PatternObj Ctx) : Reps (declarationsOf p) (describePattern p) := by
  unfold declarationsOf describePattern
  by_cases h1 : p.info.properties = []
  · rw [if_neg (c := p.info.properties ≠ []) (by simp [h1]), if_neg (c := (!p.info.properties.isEmpty) = true) (by simp [h1])]
    have hpv := patternValues_spec p.base
    by_cases h2 : valueNames p.base = []
    · have hpv' : patternValues p.base.opts.name p.base.values = [] := by
        rw [lastValues_eq_nil.2 h2] at hpv; exact List.map_eq_nil_iff.1 hpv
      rw [if_neg (c := valueNames p.base ≠ []) (by simp [h2]),
        if_neg (c := (!(patternValues p.base.opts.name p.base.values).isEmpty) = true) (by simp [hpv'])]
      cases p with
      | string i b o ss => exact reps_of_nil _
      | functional i b fs =>
        simp only [ownDeclarations]
        rw [nameKey_decl]; exact reps_of_nil _
      | chain i b br parts => exact reps_nil
      | regex i b rc res =>
        simp only [ownDeclarations]
        rw [nameKey_decl]
        cases hpc : b.privateChildren with
        | true => simp only [if_true, List.append_nil]; exact reps_of_nil _
        | false =>
          simp only [Bool.false_eq_true, if_false]
          rw [groups_decl, List.flatMap_assoc]
          exact reps_extendAll _ (reps_of_nil _)
    · have hpv' : patternValues p.base.opts.name p.base.values ≠ [] := by
        intro he; rw [he] at hpv; exact h2 (lastValues_eq_nil.1 hpv.symm)
      rw [if_pos (c := valueNames p.base ≠ []) h2,
        if_pos (c := (!(patternValues p.base.opts.name p.base.values).isEmpty) = true) (by simpa using hpv'), hpv]
      exact reps_of_nil _
  · rw [if_pos (c := p.info.properties ≠ []) h1, if_pos (c := (!p.info.properties.isEmpty) = true) (by simpa using h1)]
    exact reps_of_nil _

theorem describeRule_reps (r : RuleObj) : Reps (r.properties.map (fun kv => (some kv.1, kv.2))) (describeRule r) := reps_of_nil _

theorem reps_foldl {α : Type} (decl : α → Declarations) (desc : α → Props) (h : ∀ x, Reps (decl x) (desc x)) : ∀ (l : List α) {D : Declarations} {d : Props},
    Reps D d → Reps (D ++ l.flatMap decl) ((l.map desc).foldl (fun d p => d.extendAll p) d)
  | [], D, d, hd => by simpa using hd
  | x :: l, D, d, hd => by
    rw [List.map_cons, List.foldl_cons, List.flatMap_cons, ← List.append_assoc]
    exact reps_foldl decl desc h l (reps_extendAll_reps hd (h x))

end Rebulk
