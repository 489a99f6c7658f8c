import Verif.Spec.WordSearch
import Verif.Props.WordChain
import Verif.Props.ConfiguredSearch
/-!
# C117: searching for a chain of strings
-/
namespace Rebulk
open Spec
variable {Ctx : Type}

theorem word_parts {lower : Str → Str} : ∀ {parts : PartObjs Ctx} {ws : List Word}, WordParts parts ws →
    Each (fun w p => ∃ id, p = wordPart id w) ws (PatternObj.runParts lower parts)
  | _, _, .nil => by rw [PatternObj.runParts]; exact .nil
  | _, _, .cons info id w h => by
    rw [PatternObj.runParts]
    refine .cons ⟨id, ?_⟩ (word_parts h)
    have : PatternObj.run lower (.string info (Pattern.init id w.opts) {} [w.text]) = (wordPart id w).search := by
      funext s
      rfl
    rw [this]
    rfl

theorem scan_ahead {w : Word} {rest : List Word} {input text : Str} {pos : Nat} {l : List (Nat × Nat)} (h : WordScan w rest input text pos l) :
    (∀ sp ∈ l, pos ≤ sp.1) ∧ l.Pairwise (fun a b => a.2 ≤ b.1) := by
  induction h with
  | over _ => simp
  | nothing _ => simp
  | @matched text pos l i _ _ _ _ ih =>
    refine ⟨fun sp hsp => ?_, List.pairwise_cons.2 ⟨fun sp hsp => ih.1 sp hsp, ih.2⟩⟩
    rcases List.mem_cons.1 hsp with rfl | hsp
    · show pos ≤ pos + i; omega
    · have := ih.1 sp hsp; omega
  | failed i _ _ _ _ ih => exact ⟨fun sp hsp => by have := ih.1 sp hsp; omega, ih.2⟩

theorem placeHits_chain {c : Config} {input : Str} {words : List Word} {l : List (Nat × Nat)} {ts : List MTree} (h : Each (WordMatch words) l ts) :
    c.chainHits input ts = c.placeHits input l := by
  unfold Config.chainHits Config.placeHits
  have key : ∀ {l : List (Nat × Nat)} {ts : List MTree}, Each (WordMatch words) l ts → ∀ (f : Nat → MTree → Hit) (g : Nat → Nat × Nat → Hit),
      (∀ i sp t, WordMatch words sp t → f i t = g i sp) → ts.mapIdx f = l.mapIdx g := by
    intro l ts h
    induction h with
    | nil => intros; rfl
    | cons hx _ ih =>
      intro f g hfg
      rw [List.mapIdx_cons, List.mapIdx_cons, hfg 0 _ _ hx, ih _ _ (fun i sp t h => hfg (i + 1) sp t h)]
  refine key h _ _ ?_
  rintro i sp t ⟨hsp, _⟩
  have e1 : t.root.start = sp.1 := congrArg Prod.fst hsp
  have e2 : t.root.stop = sp.2 := congrArg Prod.snd hsp
  rw [e1, e2]

/-- **C117**, from end to end: a rebulk with the default rules and one chain of strings (with any name, tags, value and formatter) finds exactly the
matches of `WordScan`, from left to right; none of them is removed as conflicting. -/
theorem C117_search {env : Env (List Match)} (henv : DefaultEnv env) {r : RebulkObj Ctx} (hr : DefaultRulesOnly r) (input : Str) (ctx : Ctx)
    (hd : r.disabled ctx = false) (info : PatternInfo Ctx) (hi : info.disabled ctx = false) (id : Nat) (c : Config) (hf : Proper c.formatter) (hv : c.validator = .absent)
    {parts : PartObjs Ctx} {w : Word} {rest : List Word} (hw : ∀ x ∈ w :: rest, x.text ≠ []) (hparts : WordParts parts (w :: rest))
    (hp : r.effectivePatterns ctx = [.chain info (Pattern.init id c.opts) none parts]) :
    ∃ l f, WordScan w rest input input 0 l ∧ r.matches_ env input ctx = .ok f ∧ Each (StandsFor input) (c.placeHits input l) f.found.delegate ∧
      f.markers.delegate = [] ∧ LookupsRight f.found ∧ LookupsRight f.markers := by
  classical
  have hrun := word_parts (lower := env.lower) hparts
  have hgood : ∀ p ∈ PatternObj.runParts env.lower parts, RegularPart p ∧ Answers p := by
    intro p hp
    obtain ⟨x, hx, i, rfl⟩ := each_mem_right hrun p hp
    exact ⟨wordPart_regular _ _ (hw x hx), wordPart_answers _ _ (hw x hx)⟩
  obtain ⟨ts, out, h1, h2, h3, h4⟩ := chain_conf (lower := env.lower) (input := input) info id c none hf hv hgood
  have hcol : Collects env.lower ctx input (r.effectivePatterns ctx) (out ++ []) := by
    rw [hp]
    exact .enabled hi h2 .nil
  rw [List.append_nil] at hcol
  obtain ⟨l, l1, l2⟩ : ∃ l, WordScan w rest input input 0 l ∧ Each (WordMatch (w :: rest)) l ts := by
    cases hq : PatternObj.runParts env.lower parts with
    | nil => rw [hq] at hrun; cases hrun
    | cons p ps =>
      rw [hq] at hrun
      exact scans_words hw (by exact hq) rfl hrun h1 0 rfl
  rw [placeHits_chain l2] at h3 h4
  obtain ⟨f, f1, f2, f3, f4⟩ := hits_found henv hr input ctx hd hcol h3 h4
  refine ⟨l, f, l1, f1, ?_, f3, f4⟩
  rw [List.filter_eq_self.2] at f2
  · exact f2
  · intro x hx
    refine decide_eq_true ?_
    rintro ⟨y, hy, a, b, d⟩
    unfold Config.placeHits at hx hy
    obtain ⟨i, hil, rfl⟩ := List.mem_mapIdx.1 hx
    obtain ⟨j, hjl, rfl⟩ := List.mem_mapIdx.1 hy
    simp only at a b d
    have hpw := List.pairwise_iff_getElem.1 (scan_ahead l1).2
    rcases Nat.lt_trichotomy i j with h | h | h
    · have := hpw i j hil hjl h; omega
    · subst h; omega
    · have := hpw j i hjl hil h; omega

/-- `chain(name="n").string("ab").string("c", name="x").close()`. -/
def exWordChain : PatternObj Unit :=
  .chain {} (Pattern.init 0 { name := some "n" : Config }.opts) none
    (.cons (.string {} (Pattern.init 1 (Word.opts ⟨"ab".toList, none, []⟩)) {} ["ab".toList]) 1 (some 1) false
      (.cons (.string {} (Pattern.init 2 (Word.opts ⟨"c".toList, some "x", []⟩)) {} ["c".toList]) 1 (some 1) false .nil))

/-- The hypotheses are met: this chain on `xabcabd`. -/
example : (∃ l f, WordScan ⟨"ab".toList, none, []⟩ [⟨"c".toList, some "x", []⟩] "xabcabd".toList "xabcabd".toList 0 l ∧
      (exRebulk [exWordChain] []).matches_ exEnv "xabcabd".toList () = .ok f ∧
      Each (StandsFor "xabcabd".toList) (Config.placeHits { name := some "n" } "xabcabd".toList l) f.found.delegate) ∧
    (match (exRebulk [exWordChain] []).matches_ exEnv "xabcabd".toList () with | .ok f => f.found.delegate.map Match.span | .error _ => []) = [(1, 4)] := by
  refine ⟨?_, ?_⟩
  · obtain ⟨l, f, h1, h2, h3, _⟩ := C117_search (env := exEnv) exEnv_default (r := exRebulk [exWordChain] []) (exRebulk_default _ _) "xabcabd".toList () rfl {} rfl 0
      { name := some "n" } (by intro a h; cases h) rfl (w := ⟨"ab".toList, none, []⟩) (rest := [⟨"c".toList, some "x", []⟩])
      (by intro x hx; simp at hx; rcases hx with rfl | rfl <;> simp)
      (.cons {} 1 _ (.cons {} 2 _ .nil)) rfl
    exact ⟨l, f, h1, h2, h3⟩
  · decide +kernel

end Rebulk
