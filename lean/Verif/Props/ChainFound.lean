import Verif.Lemmas.ChainFound
import Verif.Props.RawMatches
import Verif.Props.PatternRun
/-!
# When a chain is found (`C79`)
-/
namespace Rebulk
open Spec

/-- **C79**, two parts. A chain without breaker whose first part, not hidden, is to occur once, whose second part may be required, a number of times or not, and
whose other parts are optional, is found as soon as an occurrence of the first part is immediately followed by the second one a number of times its repeater
allows. Missing: chains with more required parts (`C53_refuted`) or a repeated first part (`C79_refuted`); occurrences of the first part that overlap an earlier one
of it. -/
theorem C79_two_partial {c : Chain} {p q : Part} {rest : List Part} (hc : c.parts = p :: q :: rest) (hp : ∀ x ∈ c.parts, RegularPart x)
    (hb : c.breaker = none) (hh : p.hidden = false) (hs : p.start ≤ 1) (he : p.stop = some 1) (hw : WholeOnce p) (hres : Resumes p) (hemit : EmitsFirst p)
    (ho : ∀ x ∈ rest, x.start ≤ 0) {input : Str} {em raws : List MTree} (h : p.search input = .ok (em, raws)) {r : MTree} (hr : r ∈ raws)
    (hq : BeginsWith q (input.drop r.root.stop.toNat)) {ts : List MTree} (hts : c.rawMatches input = .ok ts) : ts ≠ [] := by
  have hin := ((hp p (by rw [hc]; simp)).raws _ _ _ h).inText r hr
  have h1 := hin.lo
  have h2 := hin.nonempty
  have h3 := hin.hi
  refine loop_found hc hp hb hh hs he hw hres hemit ho r.root.stop.toNat (by omega) hq input.length 0 ts (Or.inl ⟨rfl, rfl⟩) (by omega) ?_ hts
  intro em' raws' hs'
  rw [List.drop_zero, h] at hs'
  cases hs'
  exact ⟨r, hr, by omega⟩

/-! ## Strings -/

/-- The occurrences found from left to right are determined. -/
theorem occurrences_unique {s sub : Str} {a b : Option Int} {l l' : List Nat} (h : Occurrences s sub a b l) (h' : Occurrences s sub a b l') : l = l' := by
  have key : ∀ (n : Nat), ∀ p < n, p ∈ l ↔ p ∈ l' := by
    intro n
    induction n with
    | zero => intro p hp; omega
    | succ n ih =>
      intro p hp
      rw [h.exact p, h'.exact p]
      constructor
      · rintro ⟨h1, h2⟩
        exact ⟨h1, fun q hq hlt => h2 q ((ih q (by omega)).2 hq) hlt⟩
      · rintro ⟨h1, h2⟩
        exact ⟨h1, fun q hq hlt => h2 q ((ih q (by omega)).1 hq) hlt⟩
  have hmem : ∀ p, p ∈ l ↔ p ∈ l' := fun p => key (p + 1) p (by omega)
  have go : ∀ {l l' : List Nat}, l.Pairwise (· < ·) → l'.Pairwise (· < ·) → (∀ p, p ∈ l ↔ p ∈ l') → l = l' := by
    intro l
    induction l with
    | nil =>
      intro l' _ _ hm
      cases l' with
      | nil => rfl
      | cons x xs => exact absurd ((hm x).2 (by simp)) (by simp)
    | cons x xs ih =>
      intro l' h1 h2 hm
      cases l' with
      | nil => exact absurd ((hm x).1 (by simp)) (by simp)
      | cons y ys =>
        obtain ⟨a1, a2⟩ := List.pairwise_cons.1 h1
        obtain ⟨b1, b2⟩ := List.pairwise_cons.1 h2
        have hxy : x = y := by
          rcases List.mem_cons.1 ((hm x).1 (by simp)) with h | h
          · exact h
          · rcases List.mem_cons.1 ((hm y).2 (by simp)) with h' | h'
            · exact h'.symm
            · have := a1 y h'
              have := b1 x h
              omega
        subst hxy
        congr 1
        refine ih a2 b2 (fun p => ⟨fun hp => ?_, fun hp => ?_⟩)
        · rcases List.mem_cons.1 ((hm p).1 (List.mem_cons_of_mem _ hp)) with rfl | h
          · exact absurd (a1 p hp) (by omega)
          · exact h
        · rcases List.mem_cons.1 ((hm p).2 (List.mem_cons_of_mem _ hp)) with rfl | h
          · exact absurd (b1 p hp) (by omega)
          · exact h
  exact go h.ordered h'.ordered hmem

theorem occursIn_drop {s sub : Str} (k p : Nat) (hsub : sub ≠ []) : OccursIn (s.drop k) sub none none p ↔ OccursIn s sub none none (p + k) := by
  have hl := List.length_pos_iff.2 hsub
  constructor
  · intro h
    have := h.inside
    rw [List.length_drop] at this
    refine ⟨(by simp), (by simp), (by omega), fun i hi => ?_⟩
    have := h.chars i hi
    rw [List.getElem?_drop] at this
    rw [← this]; congr 1; omega
  · intro h
    have := h.inside
    refine ⟨(by simp), (by simp), (by rw [List.length_drop]; omega), fun i hi => ?_⟩
    rw [List.getElem?_drop, ← h.chars i hi]; congr 1; omega

/-- After the first occurrence come the others. -/
theorem occurrences_tail {s sub : Str} (hsub : sub ≠ []) {x : Nat} {xs l' : List Nat} (h : Occurrences s sub none none (x :: xs))
    (h' : Occurrences (s.drop (x + sub.length)) sub none none l') : l'.map (fun p => p + (x + sub.length)) = xs := by
  have hl := List.length_pos_iff.2 hsub
  obtain ⟨a1, a2⟩ := List.pairwise_cons.1 h.ordered
  have hge : ∀ p ∈ xs, x + sub.length ≤ p := by
    intro p hp
    have := ((h.exact p).1 (List.mem_cons_of_mem _ hp)).2 x (by simp)
    have := a1 p hp
    omega
  have hocc : Occurrences (s.drop (x + sub.length)) sub none none (xs.map (fun p => p - (x + sub.length))) := by
    refine ⟨?_, fun p => ?_⟩
    · rw [List.pairwise_map]
      refine List.Pairwise.imp_of_mem ?_ a2
      intro a b ha hb hlt
      have := hge a ha
      have := hge b hb
      omega
    · have hmem : p ∈ xs.map (fun p => p - (x + sub.length)) ↔ p + (x + sub.length) ∈ x :: xs := by
        constructor
        · intro hp
          obtain ⟨q, hq, rfl⟩ := List.mem_map.1 hp
          have := hge q hq
          rw [Nat.sub_add_cancel this]
          exact List.mem_cons_of_mem _ hq
        · intro hp
          rcases List.mem_cons.1 hp with hp | hp
          · omega
          · exact List.mem_map.2 ⟨_, hp, by omega⟩
      rw [hmem, h.exact, occursIn_drop _ _ hsub]
      constructor
      · rintro ⟨h1, h2⟩
        refine ⟨h1, fun q hq hlt => ?_⟩
        obtain ⟨q', hq', rfl⟩ := List.mem_map.1 hq
        have := hge q' hq'
        exact h2 q' (List.mem_cons_of_mem _ hq') (by omega)
      · rintro ⟨h1, h2⟩
        refine ⟨h1, fun q hq hlt => ?_⟩
        rcases List.mem_cons.1 hq with rfl | hq
        · omega
        · have := hge q hq
          exact h2 _ (List.mem_map.2 ⟨q, hq, rfl⟩) (by omega)
  rw [occurrences_unique h' hocc, List.map_map]
  conv => rhs; rw [← List.map_id xs]
  refine List.map_congr_left (fun p hp => ?_)
  have := hge p hp
  simp only [Function.comp, id]
  omega

/-- What the search of a part made of one string finds. -/
theorem stringPart_search (id : Nat) (w : Str) (hw : w ≠ []) (start : Int) (stop : Option Int) (o : PatternOpts) (hidden : Bool) (hpre : o.preMatch = none)
    (s : Str) {em raws : List MTree} (h : (stringPart id [w] start stop o hidden).search s = .ok (em, raws)) :
    ∃ ps, Occurrences s w none none ps ∧ raws.map (fun t => t.root.span) = ps.map (fun (p : Nat) => ((p : Int), (p : Int) + w.length)) := by
  obtain ⟨l, ps, h1, h2, h3, h4⟩ := C42_string_occurrences id o (fun s => s) {} s w hw (by simp)
  have h : (Pattern.init id o).partOfString (fun s => s) {} [w] s = .ok (em, raws) := h
  have hspan : ∀ (i : Nat) (hi : i < l.length), l[i].root.span = (((ps[i]'(by omega) : Nat) : Int), ((ps[i]'(by omega) : Nat) : Int) + w.length) := by
    intro i hi
    exact (h4 i l[i] _ (List.getElem?_eq_getElem hi) (List.getElem?_eq_getElem (by omega))).1.span
  have hl := List.length_pos_iff.2 hw
  unfold Pattern.partOfString at h
  simp only [List.map_cons, List.map_nil, h1, collectRaws] at h
  have hr := withRaws_raws (p := Pattern.init id o) hpre (l := [l]) (by
    intro ts hts t ht
    rw [List.mem_singleton] at hts
    subst hts
    obtain ⟨i, hi, rfl⟩ := List.getElem_of_mem ht
    have e1 := congrArg Prod.fst (hspan i hi)
    have e2 := congrArg Prod.snd (hspan i hi)
    have e1 : ts[i].root.start = _ := e1
    have e2 : ts[i].root.stop = _ := e2
    rw [e1, e2]; simp only; omega) h
  refine ⟨ps, h2, ?_⟩
  unfold RawMatchesOf at hr
  have := congrArg (List.map Prod.fst) hr
  rw [List.map_map] at this
  rw [show raws.map (fun t => t.root.span) = raws.map (Prod.fst ∘ fun r => (r.root.span, r.root.matchIndex)) from rfl, this]
  simp only [List.flatMap_cons, List.flatMap_nil, List.append_nil]
  apply List.ext_getElem
  · simp [h3]
  · intro n a1 a2
    simp only [List.getElem_map, List.getElem_mapIdx]
    exact hspan n (by simpa using a1)

theorem resumes_string (id : Nat) (w : Str) (hw : w ≠ []) (start : Int) (stop : Option Int) (o : PatternOpts) (hidden : Bool) (hpre : o.preMatch = none) :
    Resumes (stringPart id [w] start stop o hidden) := by
  intro s em r rest h em' raws' h'
  obtain ⟨ps, o1, e1⟩ := stringPart_search id w hw start stop o hidden hpre _ h
  obtain ⟨ps', o2, e2⟩ := stringPart_search id w hw start stop o hidden hpre _ h'
  cases ps with
  | nil => simp at e1
  | cons x xs =>
    simp only [List.map_cons, List.cons.injEq] at e1
    have hstop : r.root.stop = (x : Int) + w.length := congrArg Prod.snd e1.1
    have hnat : r.root.stop.toNat = x + w.length := by omega
    rw [hnat] at o2
    have ht := occurrences_tail hw o1 o2
    rw [e1.2, ← ht, List.map_map]
    have : raws'.map (fun t => (t.root.start + r.root.stop, t.root.stop + r.root.stop)) =
        (raws'.map (fun t => t.root.span)).map (fun sp => (sp.1 + r.root.stop, sp.2 + r.root.stop)) := by
      rw [List.map_map]; rfl
    rw [this, e2, List.map_map]
    refine List.map_congr_left (fun p _ => ?_)
    simp only [Function.comp, hstop, Prod.mk.injEq]
    constructor <;> omega

theorem chosen_none {α : Type} (d : α) (name : Option String) (child : Bool) : chosen .absent d name child = d := by
  unfold chosen
  cases name with
  | none => rfl
  | some n =>
    simp only
    by_cases h : n = ""
    · rw [if_pos h]; rfl
    · rw [if_neg h]; rfl

theorem emitsFirst_string (id : Nat) (w : Str) (hw : w ≠ []) (start : Int) (stop : Option Int) (hidden : Bool) :
    EmitsFirst (stringPart id [w] start stop {} hidden) := by
  intro s em raws h hne
  obtain ⟨l, ps, h1, h2, h3, h4⟩ := C42_string_occurrences id {} (fun s => s) {} s w hw (by simp)
  have h : (Pattern.init id {}).partOfString (fun s => s) {} [w] s = .ok (em, raws) := h
  have hl := List.length_pos_iff.2 hw
  unfold Pattern.partOfString at h
  simp only [List.map_cons, List.map_nil, h1, collectRaws] at h
  unfold Pattern.matchesWithRaws at h
  split at h
  · cases h
  · rename_i out hout
    simp only [Except.ok.injEq, Prod.mk.injEq] at h
    obtain ⟨rfl, hraws⟩ := h
    cases l with
    | nil => exact absurd (by rw [← hraws]; rfl) hne
    | cons t ts =>
      cases ps with
      | nil => simp at h3
      | cons x xs =>
        have hsp := (h4 0 t x rfl rfl).1.span
        have e1 : t.root.start = _ := congrArg Prod.fst hsp
        have e2 : t.root.stop = _ := congrArg Prod.snd hsp
        obtain ⟨V, T, c1, c2, _, c4⟩ := C45_validation id {} (by intro a h; cases h) (by intro a h; cases h) rfl rfl 0 t (by rw [e1, e2]; simp only; omega)
        have hacc : Accepted {} V T := by
          refine ⟨?_, fun C _ => ?_⟩ <;> (intro _ v hv; rw [chosen_none] at hv; cases hv; rfl)
        have hproc := c4 hacc
        unfold Pattern.processAll Pattern.processRaws at hout
        have hproc' : (Pattern.init id {}).processMatchesWith (Pattern.init id {}).processMatch 0 t = .ok (emission {} T) := hproc
        rw [hproc'] at hout
        have hem : emission {} T = [T] := by
          unfold emission
          simp [ParentIncluded, ChildrenIncluded, NotIgnored]
        rw [hem] at hout
        simp only at hout
        refine ⟨T, ?_, by rw [c2.root]; exact c1.root.index⟩
        cases hrest : Pattern.processRaws ((Pattern.init id {}).processMatchesWith (Pattern.init id {}).processMatch) (0 + 1) ts with
        | error e => rw [hrest] at hout; cases hout
        | ok b =>
          rw [hrest] at hout
          simp only [Pattern.processAll] at hout
          cases hout
          rfl

/-- Searching a string does not raise. -/
theorem string_search_ok (id : Nat) (w : Str) (hw : w ≠ []) (s : Str) : ∃ em raws, (stringPart id [w]).search s = .ok (em, raws) := by
  obtain ⟨_, out, h, _⟩ := C106_strings (Ctx := Unit) id {} {} (fun s => s) {} [w] s (by intro a h; cases h) (by intro a h; cases h)
    (by intro g h; cases h) (by intro g h; cases h) (by intro x hx; rw [List.mem_singleton] at hx; subst hx; exact ⟨hw, by simp⟩)
  unfold PatternObj.matches_ PatternObj.run at h
  show ∃ em raws, (Pattern.init id {}).partOfString (fun s => s) {} [w] s = .ok (em, raws)
  unfold Pattern.partOfString
  split at h
  · cases h
  · rename_i ms raws hx
    exact ⟨ms, raws, hx⟩

/-- A text that begins with the string begins with the part. -/
theorem beginsWith_string (id : Nat) (w : Str) (hw : w ≠ []) (s : Str) (h : w <+: s) : BeginsWith (stringPart id [w]) s := by
  have hl := List.length_pos_iff.2 hw
  have hreg : RegularPart (stringPart id [w]) := (regular_string id {} rfl rfl rfl _ {} rfl w hw 1 (some 1) false).1
  have hocc : OccursIn s w none none 0 := by
    obtain ⟨t, rfl⟩ := h
    refine ⟨(by simp), (by simp), (by simp), fun k hk => ?_⟩
    rw [Nat.zero_add, List.getElem?_append_left hk]
  obtain ⟨em, raws, hs⟩ := string_search_ok id w hw s
  obtain ⟨ps, o1, e1⟩ := stringPart_search id w hw 1 (some 1) {} false rfl _ hs
  have h0 : 0 ∈ ps := (o1.exact 0).2 ⟨hocc, fun q _ h => by omega⟩
  cases ps with
  | nil => cases h0
  | cons x xs =>
    have hx : x = 0 := by
      rcases List.mem_cons.1 h0 with h | h
      · exact h.symm
      · have := (List.pairwise_cons.1 o1.ordered).1 0 h
        omega
    subst hx
    cases raws with
    | nil => simp at e1
    | cons r rs =>
      simp only [List.map_cons, List.cons.injEq] at e1
      have hst : r.root.start = 0 := congrArg Prod.fst e1.1
      refine ⟨em, r :: rs, 1, hs, by simp, by simp [Contiguous], ?_, (by show (1 : Int) ≤ _; omega), ?_⟩
      · intro r' hr'
        simp only [List.take_succ_cons, List.take_zero, List.head?_cons, Option.some.injEq] at hr'
        rw [← hr']; exact hst
      · intro e he
        have he : some (1 : Int) = some e := he
        cases he
        omega

/-- **C79** for strings: the chain of the strings `a` and `b`, and any optional strings, is found in every text in which one of the occurrences of `a`, looked for
from left to right without overlaps, is immediately followed by `b`. -/
theorem C79_strings_partial (a b : Str) (ha : a ≠ []) (hb : b ≠ []) (more : List Part) (hm : ∀ p ∈ more, RegularPart p ∧ p.start ≤ 0) {input : Str} {positions : List Nat}
    (ho : Occurrences input a none none positions) {i : Nat} (hi : i ∈ positions) (hf : b <+: input.drop (i + a.length)) {ts : List MTree}
    (h : Chain.rawMatches { pattern := Pattern.init 0 {}, parts := stringPart 1 [a] :: stringPart 2 [b] :: more } input = .ok ts) : ts ≠ [] := by
  have hra := regular_string 1 {} rfl rfl rfl (fun s => s) {} rfl a ha 1 (some 1) false
  obtain ⟨em, raws, hs⟩ := string_search_ok 1 a ha input
  obtain ⟨ps, o1, e1⟩ := stringPart_search 1 a ha 1 (some 1) {} false rfl _ hs
  rw [occurrences_unique o1 ho] at e1
  have hmem : ((i : Int), (i : Int) + a.length) ∈ raws.map (fun t => t.root.span) := by
    rw [e1]; exact List.mem_map.2 ⟨i, hi, rfl⟩
  obtain ⟨r, hr, hsp⟩ := List.mem_map.1 hmem
  have hstop : r.root.stop = (i : Int) + a.length := congrArg Prod.snd hsp
  refine C79_two_partial (p := stringPart 1 [a]) (q := stringPart 2 [b]) (rest := more) rfl ?_ rfl rfl (by show (1 : Int) ≤ 1; omega) rfl
    (hra.2 rfl rfl rfl ⟨1, rfl, by omega⟩) (resumes_string 1 a ha 1 (some 1) {} false rfl) (emitsFirst_string 1 a ha 1 (some 1) false)
    (fun x hx => (hm x hx).2) hs hr ?_ h
  · intro x hx
    rcases List.mem_cons.1 hx with rfl | hx
    · exact hra.1
    · rcases List.mem_cons.1 hx with rfl | hx
      · exact (regular_string 2 {} rfl rfl rfl _ {} rfl b hb _ _ _).1
      · exact (hm x hx).1
  · rw [hstop, show ((i : Int) + a.length).toNat = i + a.length by omega]
    exact beginsWith_string 2 b hb _ hf

/-- The chain of `a` and `b` in `aXab`: the first attempt fails, the second one succeeds. -/
example : Occurrences ['a', 'X', 'a', 'b'] ['a'] none none [0, 2] ∧ ['b'] <+: ['a', 'X', 'a', 'b'].drop (2 + 1) ∧
    spansOf ((stringChain [['a'], ['b']]).rawMatches ['a', 'X', 'a', 'b']) = some [((2, 4), [(2, 3), (3, 4)])] := by
  refine ⟨⟨by decide, fun p => ?_⟩, by decide, by decide +kernel⟩
  constructor
  · intro hp
    simp only [List.mem_cons, List.not_mem_nil, or_false] at hp
    rcases hp with rfl | rfl
    · exact ⟨⟨(by simp), (by simp), (by decide), (by decide)⟩, (by simp)⟩
    · exact ⟨⟨(by simp), (by simp), (by decide), (by decide)⟩, (by simp)⟩
  · rintro ⟨h1, -⟩
    have h2 := h1.inside
    have h3 := h1.chars 0 (by decide)
    simp only [List.length_cons, List.length_nil] at h2
    match p, h2, h3 with
    | 0, _, _ => simp
    | 1, _, h3 => exact absurd h3 (by decide)
    | 2, _, _ => simp
    | 3, _, h3 => exact absurd h3 (by decide)

end Rebulk
