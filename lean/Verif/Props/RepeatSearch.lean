import Verif.Props.RepeatChain
import Verif.Props.WordSearch
/-!
# C121: what the matches of a chain of repeated strings are, and searching for it
-/
namespace Rebulk
open Spec
variable {Ctx : Type}

/-! ## Real matches -/

theorem takes_limit {x : Repeated} {text : Str} {first : Bool} {i k : Nat} (h : Takes x text first i k) : ∀ m, x.most = some m → k ≤ m := by
  cases h with
  | searched _ h => exact h.limit
  | absent _ => intro m _; exact Nat.zero_le _
  | behind h => exact h.limit

theorem takes_there {x : Repeated} {text : Str} {first : Bool} {i k : Nat} (h : Takes x text first i k) : times k x.word.text <+: text.drop i := by
  cases h with
  | searched _ h => exact h.there
  | absent _ => exact List.nil_prefix
  | behind h => exact h.there

/-- Parts taken from the text of the input itself. -/
theorem laid_reads {input : Str} {first : Bool} {text : Str} {pos : Nat} {xs : List Repeated} {run : List Placed} {text' : Str} {pos' : Nat} {whole : Bool}
    (h : Laid input first text pos xs run whole text' pos') : whole = true → text = input.drop pos →
    (∃ a, pos ≤ a ∧ (first = false → a = pos) ∧ Reads input a run pos' ∧ ((∀ p ∈ run, p.count = 0) → a = pos)) ∧ RepeatsAllowed xs run ∧ text' = input.drop pos' := by
  induction h with
  | @all _ _ pos => intro _ ht; exact ⟨⟨pos, Nat.le_refl _, fun _ => rfl, .done, fun _ => rfl⟩, ⟨rfl, by simp⟩, ht⟩
  | short _ _ => intro hf; cases hf
  | @none first text pos x xs i run whole text' pos' h1 h2 h3 ih =>
    intro hwh ht
    obtain ⟨⟨a, q1, q2, q3, q4⟩, ⟨q5, q6⟩, q7⟩ := ih hwh ht
    have := q2 rfl
    subst this
    refine ⟨⟨_, Nat.le_refl _, fun _ => rfl, .skip x _ q3, fun _ => rfl⟩, ⟨by rw [List.map_cons, q5], ?_⟩, q7⟩
    intro p hp
    rcases List.mem_cons.1 hp with rfl | hp
    · exact ⟨by show x.least ≤ 0; omega, fun m _ => Nat.zero_le _⟩
    · exact q6 p hp
  | @some first text pos x xs i k run whole text' pos' h1 h2 h3 ih =>
    intro hwh ht
    obtain ⟨⟨a, q1, q2, q3, q4⟩, ⟨q5, q6⟩, q7⟩ := ih hwh rfl
    have := q2 rfl
    subst this
    have hth := takes_there h1
    rw [ht, List.drop_drop] at hth
    refine ⟨⟨pos + i, by omega, ?_, .copies x k hth q3, ?_⟩, ⟨by rw [List.map_cons, q5], ?_⟩, q7⟩
    · rintro rfl
      cases h1
      rfl
    · intro h
      have := h _ (List.mem_cons_self)
      cases this
    · intro p hp
      rcases List.mem_cons.1 hp with rfl | hp
      · exact ⟨h2, takes_limit h1⟩
      · exact q6 p hp

theorem laid_fails {input : Str} {first : Bool} {text : Str} {pos : Nat} {xs : List Repeated} {run : List Placed} {text' : Str} {pos' : Nat} {whole : Bool}
    (h : Laid input first text pos xs run whole text' pos') : whole = false → (∀ x ∈ xs.tail, x.least = 0) → run = [] := by
  have opt : ∀ {first : Bool} {text : Str} {pos : Nat} {xs : List Repeated} {run : List Placed} {text' : Str} {pos' : Nat} {whole : Bool},
      Laid input first text pos xs run whole text' pos' → (∀ x ∈ xs, x.least = 0) → whole = true := by
    intro first text pos xs run text' pos' whole h
    induction h with
    | all => intro _; rfl
    | @short _ _ _ x _ _ _ _ h => intro ho; have := ho x (by simp); omega
    | none _ _ _ ih => intro ho; exact ih (fun x hx => ho x (List.mem_cons_of_mem _ hx))
    | some _ _ _ ih => intro ho; exact ih (fun x hx => ho x (List.mem_cons_of_mem _ hx))
  cases h with
  | all => intro h; cases h
  | short _ _ => intro _ _; rfl
  | none _ _ h3 => intro hf ho; rw [opt h3 ho] at hf; cases hf
  | some _ _ h3 => intro hf ho; rw [opt h3 ho] at hf; cases hf

/-- **C121**: when only the first string is required, each match is real: its pieces are the visible ones of copies of the strings, in the order of the chain, one right
after the other in the input, each string repeated as often as its repeater allows. -/
theorem C121_real {xs : List Repeated} {input : Str} {text : Str} {pos : Nat} {l : List (List Placed)} (h : RepeatScan xs input text pos l) (ht : text = input.drop pos)
    (ho : ∀ x ∈ xs.tail, x.least = 0) : ∀ run ∈ l, visible run ≠ [] ∧ RepeatsAllowed xs run ∧ ∃ a b, pos ≤ a ∧ Reads input a run b := by
  induction h with
  | over _ => simp
  | nothing _ _ => simp
  | @matched text pos run text' pos' l _ h1 h2 _ ih =>
    obtain ⟨⟨a, q1, _, q3, _⟩, q5, q6⟩ := laid_reads h1 rfl ht
    have hle : a ≤ pos' := by
      have : ∀ {a run b}, Reads input a run b → a ≤ b := by
        intro a run b h
        induction h with
        | done => exact Nat.le_refl _
        | skip _ _ _ ih => exact ih
        | copies _ _ _ _ ih => omega
      exact this q3
    intro r hps
    have rest : r ∈ l → visible r ≠ [] ∧ RepeatsAllowed xs r ∧ ∃ a b, pos ≤ a ∧ Reads input a r b := by
      intro h
      obtain ⟨g1, g2, a', b', g3, g4⟩ := ih q6 r h
      exact ⟨g1, g2, a', b', by omega, g4⟩
    by_cases hv : visible run = []
    · rw [if_pos hv] at hps; exact rest hps
    · rw [if_neg hv] at hps
      rcases List.mem_cons.1 hps with rfl | h
      · exact ⟨hv, q5, a, pos', q1, q3⟩
      · exact rest h
  | failed _ h1 h2 _ _ =>
    have := laid_fails h1 rfl ho
    subst this
    obtain ⟨p, hp, _⟩ := h2
    cases hp

/-- **C121**: when the first string is to occur at least once (or may be missing), is not hidden, and the others are optional, no occurrence of it is missed: each one
is inside the text of a match. -/
theorem C121_complete {x : Repeated} {xs : List Repeated} (hx : x.word.text ≠ []) {input : Str} {text : Str} {pos : Nat} {l : List (List Placed)} (h : RepeatScan (x :: xs) input text pos l)
    (ht : text = input.drop pos) (hl : x.least ≤ 1) (hm : x.most ≠ some 0) (hh : x.hidden = false) (ho : ∀ y ∈ xs, y.least = 0) {j : Nat} (hj : pos ≤ j)
    (hocc : OccursIn input x.word.text none none j) : ∃ run ∈ l, RepeatsAllowed (x :: xs) run ∧ ∃ a b, a ≤ j ∧ j < b ∧ Reads input a run b := by
  have hw0 : 0 < x.word.text.length := List.length_pos_iff.2 hx
  -- the first part is found, at the first occurrence
  have first : ∀ {text : Str} {pos : Nat} {run : List Placed} {whole : Bool} {text' : Str} {pos' : Nat}, text = input.drop pos → pos ≤ j →
      Laid input true text pos (x :: xs) run whole text' pos' → ∃ i k rest, pos + i ≤ j ∧ run = ⟨x, pos + i, k + 1⟩ :: rest := by
    intro text pos run whole text' pos' ht hj h
    have hoc : OccursIn text x.word.text none none (j - pos) := by
      rw [occurs_prefix hx, ht, List.drop_drop, show pos + (j - pos) = j by omega]
      exact (occurs_prefix hx).1 hocc
    have hk : ∀ {i k : Nat}, Takes x text true i k → pos + i ≤ j ∧ 0 < k := by
      intro i k h
      cases h with
      | searched h1 h2 =>
        refine ⟨?_, ?_⟩
        · apply Nat.le_of_not_lt
          intro hlt
          exact h1.2 (j - pos) (by omega) hoc
        · apply Nat.pos_of_ne_zero
          intro hz
          subst hz
          exact hm (h2.longest (by rw [times_succ, times_zero, List.nil_append]; exact (occurs_prefix hx).1 h1.1))
      | absent h => exact absurd hoc (h _)
    cases h with
    | short h1 h2 => have := (hk h1).2; omega
    | none h1 _ _ => have := (hk h1).2; omega
    | @some _ _ _ _ _ i k rest _ _ _ h1 _ _ => exact ⟨i, k, rest, (hk h1).1, rfl⟩
  induction h with
  | over h => have := hocc.inside; omega
  | nothing h1 h2 =>
    obtain ⟨i, k, rest, _, rfl⟩ := first ht hj h1
    have := h2 _ List.mem_cons_self
    cases this
  | @matched text pos run text' pos' l _ h1 h2 _ ih =>
    obtain ⟨⟨a, q1, q1', q3, q4⟩, q5, q6⟩ := laid_reads h1 rfl ht
    obtain ⟨i, k, rest, hi, e⟩ := first ht hj h1
    have hv : visible run ≠ [] := by
      rw [e]
      unfold visible
      rw [List.flatMap_cons]
      intro h
      have := (List.append_eq_nil_iff.1 h).1
      unfold Placed.copies at this
      rw [if_neg (by rw [hh]; exact Bool.false_ne_true)] at this
      simp at this
    have ha : a ≤ j := by
      rw [e] at q3
      cases q3 with
      | copies _ _ _ _ => exact hi
    rw [if_neg hv]
    by_cases hjb : j < pos'
    · exact ⟨_, List.mem_cons_self, q5, a, pos', ha, hjb, q3⟩
    · obtain ⟨ps, g1, g2⟩ := ih q6 (by omega)
      exact ⟨ps, List.mem_cons_of_mem _ g1, g2⟩
  | failed _ h1 h2 _ _ =>
    have := laid_fails h1 rfl ho
    subst this
    obtain ⟨p, hp, _⟩ := h2
    cases hp

/-! ## From end to end -/

theorem repeated_parts {lower : Str → Str} : ∀ {parts : PartObjs Ctx} {xs : List Repeated}, RepeatedParts parts xs →
    Each (fun x p => p = repeatedPart x) xs (PatternObj.runParts lower parts)
  | _, _, .nil => by rw [PatternObj.runParts]; exact .nil
  | _, _, .cons info x h => by
    rw [PatternObj.runParts]
    refine .cons ?_ (repeated_parts h)
    have : PatternObj.run lower (.string info (Pattern.init x.id x.word.opts) {} [x.word.text]) = (repeatedPart x).search := by
      funext s
      rfl
    rw [this]
    rfl

theorem repeat_ahead {xs : List Repeated} (hw : ∀ x ∈ xs, x.word.text ≠ []) {input text : Str} {pos : Nat} {l : List (List Placed)} (h : RepeatScan xs input text pos l) :
    (∀ run ∈ l, (pos : Int) ≤ (extent (visible run)).1) ∧ l.Pairwise (fun a b => (extent (visible a)).2 ≤ (extent (visible b)).1) := by
  induction h with
  | over _ => simp
  | nothing _ _ => simp
  | @matched text pos run text' pos' l _ h1 h2 _ ih =>
    obtain ⟨hle, hin⟩ := laid_order h1 hw
    by_cases hv : visible run = []
    · rw [if_pos hv]
      exact ⟨fun ps hps => by have := ih.1 ps hps; omega, ih.2⟩
    · rw [if_neg hv]
      obtain ⟨p, hp⟩ : ∃ p, (visible run).head? = some p := ⟨_, List.head?_eq_some_head hv⟩
      obtain ⟨q, hq⟩ : ∃ q, (visible run).getLast? = some q := ⟨_, List.getLast?_eq_some_getLast hv⟩
      have e1 : (extent (visible run)).1 = p.start := by unfold extent; rw [hp]; rfl
      have e2 : (extent (visible run)).2 = q.stop := by unfold extent; rw [hq]; rfl
      have b1 := hin.inside p (List.mem_of_head? hp)
      have b2 := hin.inside q (List.mem_of_getLast? hq)
      refine ⟨fun ps hps => ?_, List.pairwise_cons.2 ⟨fun ps hps => ?_, ih.2⟩⟩
      · rcases List.mem_cons.1 hps with rfl | hps
        · omega
        · have := ih.1 ps hps; omega
      · have := ih.1 ps hps; omega
  | @failed text pos run text' pos' l _ h1 h2 _ ih =>
    obtain ⟨hle, hin⟩ := laid_order h1 hw
    have hres : pos ≤ resumption (visible run) pos' := by
      generalize visible run = v at hin
      cases v with
      | nil => exact hle
      | cons x xs =>
        have := hin.inside x (by simp)
        show pos ≤ x.stop
        omega
    exact ⟨fun ps hps => by have := ih.1 ps hps; omega, ih.2⟩

theorem runHits_chain {c : Config} {input : Str} {l : List (List Placed)} {ts : List MTree} (h : Each (fun run t => RunBuilt input (visible run) t) l ts) :
    c.chainHits input ts = c.runHits input l := by
  unfold Config.chainHits Config.runHits
  have key : ∀ {l : List (List Placed)} {ts : List MTree}, Each (fun run t => RunBuilt input (visible run) t) l ts → ∀ (f : Nat → MTree → Hit) (g : Nat → List Placed → Hit),
      (∀ i sp t, RunBuilt input (visible sp) t → f i t = g i sp) → ts.mapIdx f = l.mapIdx g := by
    intro l ts h
    induction h with
    | nil => intros; rfl
    | cons hx _ ih =>
      intro f g hfg
      rw [List.mapIdx_cons, List.mapIdx_cons, hfg 0 _ _ hx, ih _ _ (fun i sp t h => hfg (i + 1) sp t h)]
  refine key h _ _ ?_
  rintro i sp t ⟨hsp, _, _, _⟩
  have e1 : t.root.start = (extent (visible sp)).1 := congrArg Prod.fst hsp
  have e2 : t.root.stop = (extent (visible sp)).2 := congrArg Prod.snd hsp
  rw [e1, e2]

/-- **C121**, from end to end: a rebulk with the default rules and one chain of repeated strings (with any name, tags, value and formatter) finds exactly the
matches of `RepeatScan`, from left to right; none of them is removed as conflicting. -/
theorem C121_search {env : Env (List Match)} (henv : DefaultEnv env) {r : RebulkObj Ctx} (hr : DefaultRulesOnly r) (input : Str) (ctx : Ctx)
    (hd : r.disabled ctx = false) (info : PatternInfo Ctx) (hi : info.disabled ctx = false) (id : Nat) (c : Config) (hf : Proper c.formatter) (hv : c.validator = .absent)
    {parts : PartObjs Ctx} {xs : List Repeated} (hw : ∀ x ∈ xs, x.word.text ≠ []) (hparts : RepeatedParts parts xs)
    (hp : r.effectivePatterns ctx = [.chain info (Pattern.init id c.opts) none parts]) :
    ∃ l f, RepeatScan xs input input 0 l ∧ r.matches_ env input ctx = .ok f ∧ Each (StandsFor input) (c.runHits input l) f.found.delegate ∧
      f.markers.delegate = [] ∧ LookupsRight f.found ∧ LookupsRight f.markers := by
  classical
  have hrun := repeated_parts (lower := env.lower) hparts
  have hgood : ∀ p ∈ PatternObj.runParts env.lower parts, RegularPart p ∧ Answers p := by
    intro p hp
    obtain ⟨x, hx, rfl⟩ := each_mem_right hrun p hp
    exact ⟨repeatedPart_regular _ (hw x hx), repeatedPart_answers _ (hw x hx)⟩
  obtain ⟨ts, out, h1, h2, h3, h4⟩ := chain_conf (lower := env.lower) (input := input) info id c none hf hv hgood
  have hcol : Collects env.lower ctx input (r.effectivePatterns ctx) (out ++ []) := by
    rw [hp]
    exact .enabled hi h2 .nil
  rw [List.append_nil] at hcol
  obtain ⟨l, l1, l2⟩ := scans_repeated hw (by rfl) hrun h1 0 rfl
  rw [runHits_chain l2] at h3 h4
  obtain ⟨f, f1, f2, f3, f4⟩ := hits_found henv hr input ctx hd hcol h3 h4
  refine ⟨l, f, l1, f1, ?_, f3, f4⟩
  rw [List.filter_eq_self.2] at f2
  · exact f2
  · intro x hx
    refine decide_eq_true ?_
    rintro ⟨y, hy, a, b, d⟩
    unfold Config.runHits at hx hy
    obtain ⟨i, hil, rfl⟩ := List.mem_mapIdx.1 hx
    obtain ⟨j, hjl, rfl⟩ := List.mem_mapIdx.1 hy
    simp only at a b d
    have hpw := List.pairwise_iff_getElem.1 (repeat_ahead hw l1).2
    rcases Nat.lt_trichotomy i j with h | h | h
    · have := hpw i j hil hjl h; omega
    · subst h; omega
    · have := hpw j i hjl hil h; omega

/-- `"ab"` repeated once or more, then `"c"` once or not at all. -/
def exRepeated : List Repeated := [{ id := 1, word := ⟨"ab".toList, none, []⟩, least := 1, most := none }, { id := 2, word := ⟨"c".toList, some "x", []⟩, least := 0, most := some 1 }]

/-- `chain(name="n").string("ab").repeater("+").string("c", name="x").repeater("?").close()`. -/
def exRepeatedChain : PatternObj Unit :=
  .chain {} (Pattern.init 0 { name := some "n" : Config }.opts) none
    (.cons (.string {} (Pattern.init 1 (Word.opts ⟨"ab".toList, none, []⟩)) {} ["ab".toList]) 1 none false
      (.cons (.string {} (Pattern.init 2 (Word.opts ⟨"c".toList, some "x", []⟩)) {} ["c".toList]) 0 (some 1) false .nil))

/-- The hypotheses are met: this chain on `xababcyabd` is found twice, from 1 to 6 and from 7 to 9. -/
example : (∃ l f, RepeatScan exRepeated "xababcyabd".toList "xababcyabd".toList 0 l ∧
      (exRebulk [exRepeatedChain] []).matches_ exEnv "xababcyabd".toList () = .ok f ∧
      Each (StandsFor "xababcyabd".toList) (Config.runHits { name := some "n" } "xababcyabd".toList l) f.found.delegate ∧
      (∀ run ∈ l, RepeatsAllowed exRepeated run ∧ ∃ a b, Reads "xababcyabd".toList a run b) ∧
      (∃ run ∈ l, RepeatsAllowed exRepeated run ∧ ∃ a b, a ≤ 3 ∧ 3 < b ∧ Reads "xababcyabd".toList a run b)) ∧
    (match (exRebulk [exRepeatedChain] []).matches_ exEnv "xababcyabd".toList () with | .ok f => f.found.delegate.map Match.span | .error _ => []) = [(1, 6), (7, 9)] := by
  refine ⟨?_, ?_⟩
  · obtain ⟨l, f, h1, h2, h3, _⟩ := C121_search (env := exEnv) exEnv_default (r := exRebulk [exRepeatedChain] []) (exRebulk_default _ _) "xababcyabd".toList () rfl {} rfl 0
      { name := some "n" } (by intro a h; cases h) rfl (xs := exRepeated)
      (by intro x hx; simp [exRepeated] at hx; rcases hx with rfl | rfl <;> simp)
      (.cons {} _ (.cons {} _ .nil)) rfl
    refine ⟨l, f, h1, h2, h3, fun ps hps => ?_, ?_⟩
    · obtain ⟨_, h, a, b, _, h'⟩ := C121_real h1 rfl (by intro x hx; simp [exRepeated] at hx; subst hx; rfl) ps hps
      exact ⟨h, a, b, h'⟩
    · exact C121_complete (by simp) h1 rfl (by decide) (by decide) rfl (by intro y hy; simp at hy; subst hy; rfl) (Nat.zero_le 3)
        ((occurs_prefix (by simp)).2 ⟨"cyabd".toList, by decide⟩)
  · decide +kernel

end Rebulk
