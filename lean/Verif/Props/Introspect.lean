import Verif.Lemmas.Introspect
import Verif.Props.Rebulk
/-!
# `check_keys` and introspection (`C75`, `C76`)
-/
namespace Rebulk
open Spec
variable {Ctx : Type}

/-! ## `C75` -/

/-- **C75**: sorted, without repetition, exactly the names declared on the rebulk or a direct child that no pattern of them can give and that are
not allowed to be unused. Keys are a dictionary, so the own names are pairwise different. -/
theorem C75 (r : RebulkObj Ctx) (allowed : Allowed) (hn : (r.keys.map Prod.fst).Nodup) :
    (r.checkKeys allowed).Pairwise (· < ·) ∧
    ∀ n, n ∈ r.checkKeys allowed ↔ DeclaredKey r n ∧ (¬ ∃ x, (x = r ∨ x ∈ r.children) ∧ ∃ p ∈ x.patterns, CanProduce p n) ∧
      (∀ a, allowed = .one a → n ≠ a) ∧ (∀ l, allowed = .many l → n ∉ l) := by
  have hd : ∀ n, n ∈ (RebulkObj.allKeys r.children r.keys).keys ↔ DeclaredKey r n := by
    intro n
    rw [allKeys_mem]
    constructor
    · rintro (h | ⟨c, hc, h⟩)
      · obtain ⟨kv, hk, rfl⟩ := List.mem_map.1 h; exact ⟨r, .inl rfl, kv.2, hk⟩
      · obtain ⟨kv, hk, rfl⟩ := List.mem_map.1 h; exact ⟨c, .inr hc, kv.2, hk⟩
    · rintro ⟨x, rfl | hx, k, hk⟩
      · exact .inl (List.mem_map.2 ⟨_, hk, rfl⟩)
      · exact .inr ⟨x, hx, List.mem_map.2 ⟨_, hk, rfl⟩⟩
  have hp : ∀ n, n ∈ (RebulkObj.allPatterns r.children r.patterns).flatMap PatternObj.producible ↔
      ∃ x, (x = r ∨ x ∈ r.children) ∧ ∃ p ∈ x.patterns, CanProduce p n := by
    intro n
    rw [allPatterns_eq, List.mem_flatMap]
    constructor
    · rintro ⟨p, hpm, h⟩
      rw [mem_producible] at h
      rcases List.mem_append.1 hpm with hpm | hpm
      · exact ⟨r, .inl rfl, p, hpm, h⟩
      · obtain ⟨c, hc, hpm⟩ := List.mem_flatMap.1 hpm
        exact ⟨c, .inr hc, p, hpm, h⟩
    · rintro ⟨x, rfl | hx, p, hpm, h⟩
      · exact ⟨p, List.mem_append_left _ hpm, (mem_producible n p).2 h⟩
      · exact ⟨p, List.mem_append_right _ (List.mem_flatMap.2 ⟨x, hx, hpm⟩), (mem_producible n p).2 h⟩
  have ha : ∀ n, n ∉ allowed.names ↔ (∀ a, allowed = .one a → n ≠ a) ∧ (∀ l, allowed = .many l → n ∉ l) := by
    intro n
    cases allowed with
    | one a => simp [Allowed.names]
    | many l => simp [Allowed.names]
  unfold RebulkObj.checkKeys
  simp only
  by_cases he : RebulkObj.allKeys r.children r.keys = []
  · rw [if_pos (by simp [he])]
    refine ⟨List.Pairwise.nil, fun n => ⟨fun h => (by cases h), ?_⟩⟩
    rintro ⟨h, _⟩
    have := (hd n).2 h
    rw [he] at this; cases this
  · rw [if_neg (by simpa using he)]
    refine ⟨pySorted_strings _ ((allKeys_nodup r.children r.keys hn).filter _), fun n => ?_⟩
    rw [(pySorted_perm _ _).mem_iff, List.mem_filter, hd, Bool.and_eq_true, ← hp, ← ha]
    simp

/-- **C75**: disabling the rebulk or its children does not change the answer. -/
theorem C75_disabled (r : RebulkObj Ctx) (allowed : Allowed) (off : Ctx → Bool) (offChild : RebulkObj Ctx → Ctx → Bool) :
    RebulkObj.checkKeys { r with disabled := off, children := r.children.map (fun c => { c with disabled := offChild c }) } allowed =
      r.checkKeys allowed := by
  have h1 : ∀ (cs : List (RebulkObj Ctx)) acc, RebulkObj.allKeys (cs.map (fun c => { c with disabled := offChild c })) acc = RebulkObj.allKeys cs acc := by
    intro cs
    induction cs with
    | nil => intro acc; rfl
    | cons c cs ih => intro acc; exact ih _
  have h2 : ∀ (cs : List (RebulkObj Ctx)) acc, RebulkObj.allPatterns (cs.map (fun c => { c with disabled := offChild c })) acc = RebulkObj.allPatterns cs acc := by
    intro cs
    induction cs with
    | nil => intro acc; rfl
    | cons c cs ih => intro acc; exact ih _
  unfold RebulkObj.checkKeys
  simp only [h1, h2]

/-- A typo, a key of a disabled child given by a group in a chain, an allowed one. -/
example :
    let g : PatternObj Unit := .regex {} (Pattern.init 2 {}) false [{ names := [some "season", none], finditer := fun _ => [] }]
    let ch : PatternObj Unit := .chain {} (Pattern.init 3 {}) none (.cons (exPattern 1 { name := some "title" } ["a"]) 1 (some 1) false (.cons g 0 none false .nil))
    let key : String → String × Key := fun n => (n, { name := n, valueType := 1 })
    let c : RebulkObj Unit := { disabled := fun _ => true, patterns := [ch], keys := [key "season", key "zz", key "episod"] }
    let r : RebulkObj Unit := { patterns := [exPattern 4 {} ["b"]], keys := [key "zz", key "title", key "free"], children := [c] }
    (r.keys.map Prod.fst).Nodup ∧ r.checkKeys (.one "free") = ["episod", "zz"] ∧ r.checkKeys = ["episod", "free", "zz"] := by decide

/-! ## `C76` -/

/-- **C76**: the properties of an introspection are the declarations of the effective public patterns and rules: each name once, in order of first
declaration, with its distinct values in order. -/
theorem C76 (r : RebulkObj Ctx) (ctx : Ctx) : Lists (declarationsIn r ctx) (introspectProperties r ctx) := by
  apply reps_lists
  unfold introspectProperties introspect declarationsIn
  rw [List.foldl_append]
  have h1 := reps_foldl declarationsOf describePattern describe_reps
    ((r.effectivePatterns ctx).filter (fun p => !p.base.opts.priv && !p.base.opts.marker)) reps_nil
  have h2 := reps_foldl (fun x : RuleObj => x.properties.map (fun kv => (some kv.1, kv.2))) describeRule describeRule_reps (r.effectiveRules ctx) h1
  rw [List.nil_append] at h2
  have he : (fun p : PatternObj Ctx => !p.base.opts.priv && !p.base.opts.marker) =
      (fun p => decide (p.base.opts.priv = false ∧ p.base.opts.marker = false)) := by
    funext p
    cases p.base.opts.priv <;> cases p.base.opts.marker <;> rfl
  simp only
  rw [he] at h2 ⊢
  exact h2

/-- There is only one such dictionary. -/
theorem C76_determined {D : Declarations} {d e : List (Option String × List Val)} (h1 : Lists D d) (h2 : Lists D e) : d = e := by
  apply List.ext_getElem?
  intro i
  have hl : (d.map Prod.fst)[i]? = (e.map Prod.fst)[i]? := by rw [h1.names, h2.names]
  rw [List.getElem?_map, List.getElem?_map] at hl
  cases ha : d[i]? with
  | none => rw [ha] at hl; cases hb : e[i]? with
    | none => rfl
    | some y => rw [hb] at hl; cases hl
  | some x =>
    rw [ha] at hl
    cases hb : e[i]? with
    | none => rw [hb] at hl; cases hl
    | some y =>
      rw [hb] at hl
      injection hl with hl
      have e1 := h1.values x.1 x.2 (List.mem_of_getElem? ha)
      have e2 := h2.values y.1 y.2 (List.mem_of_getElem? hb)
      rw [← hl, ← e1] at e2
      exact congrArg some (Prod.ext hl e2.symm)

/-- Patterns with properties, values, strings, groups; a private one; a rule. -/
example :
    let p1 : PatternObj Unit := exPattern 1 { name := some "a" } ["x", "y", "x"]
    let p2 : PatternObj Unit := .regex {} (Pattern.init 2 { opts := { name := some "b" }, privateNames := ["hid"] }) false
      [{ names := [some "g", none, some "hid", some "a"], finditer := fun _ => [] }]
    let p3 : PatternObj Unit := .functional { properties := [("c", [.int 1, .int 2, .int 1]), ("e", [])] } (Pattern.init 3 {}) []
    let p4 : PatternObj Unit := exPattern 4 { name := some "secret", priv := true } ["z"]
    let p5 : PatternObj Unit := .string {} { Pattern.init 5 { opts := { name := some "d" } } with
      values := [(none, .int 7), (some "c", .int 2), (some "d", .int 8), (some "n", .none)] } {} []
    let r : RebulkObj Unit := { patterns := [p1, p4, p2], rules := [{ info := { id := 1, cls := 5 }, properties := [("c", [.int 3]), ("a", [.none])] }],
                                children := [{ patterns := [p3, p5] }] }
    introspectProperties r () = [(some "a", [.str ['x'], .str ['y'], .none]), (some "b", [.none]), (some "g", [.none]),
      (some "c", [.int 1, .int 2, .int 3]), (some "e", []), (some "d", [.int 8])] := by decide

end Rebulk
