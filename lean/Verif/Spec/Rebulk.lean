import Verif.Spec.Processors
import Verif.Spec.Pattern
import Verif.Model.Rebulk
/-!
# Specification of the `Rebulk` object
-/
namespace Rebulk.Spec
variable {Ctx : Type}

/-- `news` are the elements of `added` that have to be put after `own`: one per key that `own` does not have, the first of its key, in the order in
which these keys first appear. -/
structure NewOnes {α κ : Type} [DecidableEq κ] (key : α → κ) (own added news : List α) : Prop where
  fresh : ∀ x ∈ news, ∀ y ∈ own, key y ≠ key x
  first : ∀ x ∈ news, added.find? (fun y => decide (key y = key x)) = some x
  order : news.Pairwise (fun x y => added.findIdx (fun z => decide (key z = key x)) < added.findIdx (fun z => decide (key z = key y)))
  complete : ∀ x ∈ added, (∃ y ∈ own, key y = key x) ∨ ∃ y ∈ news, key y = key x

/-- The enabled direct children. -/
def enabledChildren (r : RebulkObj Ctx) (ctx : Ctx) : List (RebulkObj Ctx) := r.children.filter (fun c => !c.disabled ctx)

/-- The same rebulk without any rule. -/
def withoutRules (r : RebulkObj Ctx) : RebulkObj Ctx :=
  { r with rules := [], children := r.children.map (fun c => { c with rules := [] }) }

/-- The same rebulk with only the patterns `keep` keeps. -/
def onlyPatterns (keep : PatternObj Ctx → Bool) (r : RebulkObj Ctx) : RebulkObj Ctx :=
  { r with patterns := r.patterns.filter keep, children := r.children.map (fun c => { c with patterns := c.patterns.filter keep }) }

/-- The patterns of a rebulk and of its direct children. -/
def allPatternsOf (r : RebulkObj Ctx) : List (PatternObj Ctx) := r.patterns ++ r.children.flatMap (fun c => c.patterns)

/-- The matches of the patterns of the list, in order; disabled patterns are skipped. -/
inductive Collects (lower : Str → Str) (ctx : Ctx) (input : Str) : List (PatternObj Ctx) → List MTree → Prop where
  | nil : Collects lower ctx input [] []
  | disabled {p ps ts} : p.info.disabled ctx = true → Collects lower ctx input ps ts → Collects lower ctx input (p :: ps) ts
  | enabled {p ps ts ts'} : p.info.disabled ctx = false → p.matches_ lower input = .ok ts → Collects lower ctx input ps ts' →
      Collects lower ctx input (p :: ps) (ts ++ ts')

/-- The first enabled pattern that raises raises `e`. -/
inductive RaisesFirst (lower : Str → Str) (ctx : Ctx) (input : Str) (e : PyErr) : List (PatternObj Ctx) → Prop where
  | here {p ps} : p.info.disabled ctx = false → p.matches_ lower input = .error e → RaisesFirst lower ctx input e (p :: ps)
  | disabled {p ps} : p.info.disabled ctx = true → RaisesFirst lower ctx input e ps → RaisesFirst lower ctx input e (p :: ps)
  | fine {p ps ts} : p.info.disabled ctx = false → p.matches_ lower input = .ok ts → RaisesFirst lower ctx input e ps →
      RaisesFirst lower ctx input e (p :: ps)

/-- A match, whichever object it is. -/
def content (m : Match) : Match := { m with id := 0 }

/-- The matches of a list of trees that are markers, or that are not. -/
def rootsOf (marker : Bool) (ts : List MTree) : List Match := (ts.map MTree.root).filter (fun m => decide (m.marker = marker))

/-- `f` holds the matches `ts` found by the patterns. -/
structure HoldsFound (ts : List MTree) (f : Found) : Prop where
  found : f.found.delegate.map content = (rootsOf false ts).map content
  markers : f.markers.delegate.map content = (rootsOf true ts).map content
  objects : (f.found.delegate.map Match.id ++ f.markers.delegate.map Match.id).Nodup

/-- The two default rules and nothing else; children, which have them too, add none. -/
structure DefaultRulesOnly (r : RebulkObj Ctx) : Prop where
  own : ∃ a b, r.rules = [conflictSolverRule a, privateRemoverRule b]
  children : ∀ c ∈ r.children, ∀ x ∈ c.rules, x.info.cls = 0 ∨ x.info.cls = 1

/-- The code of the default rules; the matches to remove may come in any order; no checking of declared keys. -/
structure DefaultEnv (env : Env (List Match)) : Prop where
  rule : ∃ custom order, env.rule = defaultRule (.withDefault custom) order ∧ ∀ l, (order l).Perm l
  truthy : env.truthy = listTruthy
  unchecked : env.checkKeys = false

/-- The public matches found are not empty, have no conflict solver and no parent; equal matches are all public or all private. -/
structure OrdinaryFound (l : List Match) : Prop where
  nonEmpty : ∀ m ∈ l, m.priv = false → m.start < m.stop
  noSolver : ∀ m ∈ l, m.priv = false → m.solver = none
  noParent : ∀ m ∈ l, m.priv = false → m.initLen = m.stop - m.start
  equalAlike : ∀ a ∈ l, ∀ b ∈ l, a.eqv b = true → a.priv = b.priv

/-- No two of the matches found are equal; the public ones are not empty, have no conflict solver, and initiators of non negative length. -/
structure DistinctFound (l : List Match) : Prop where
  noEqual : NoEqual l
  nonEmpty : ∀ m ∈ l, m.priv = false → m.start < m.stop
  noSolver : ∀ m ∈ l, m.priv = false → m.solver = none
  initLen : ∀ m ∈ l, m.priv = false → 0 ≤ m.initLen

/-- `kept` are the matches of `l` left by the default rules: public, in order, no two overlapping ones with initiators of different lengths; a public
match is dropped only for an overlapping one with a longer initiator. -/
structure LongestKept (l kept : List Match) : Prop where
  order : kept.Sublist l
  isPublic : ∀ m ∈ kept, m.priv = false
  settled : ∀ a ∈ kept, ∀ b ∈ kept, Overlap a b → a.initLen = b.initLen
  dropped : ∀ m ∈ l, m ∉ kept → m.priv = false → ∃ c ∈ l, c.priv = false ∧ Overlap m c ∧ m.initLen < c.initLen

/-- A pattern that gives its matches only, without their children, public, and does not process them otherwise. -/
structure SimpleOpts (o : PatternOpts) : Prop where
  parents : o.children = false ∧ o.every = false
  isPublic : o.opts.priv = false ∧ o.privateParent = false ∧ o.privateChildren = false ∧ o.privateNames = []
  noSolver : o.opts.solver = none
  noProcessor : o.preMatch = none ∧ o.postMatch = none ∧ o.postProcessor = none
  formatter : Proper o.formatter
  validator : Proper o.validator

/-- What a functional pattern says of a match: neither private nor with a conflict solver. -/
def PlainArgs (a : MatchArgs) : Prop := (a.priv = none ∨ a.priv = some false) ∧ (a.solver = none ∨ a.solver = some none)

/-- A string, regular expression or functional pattern with simple options, which finds things on this input without raising: strings are not empty, the
regular expression engine and the functions report sensible spans. -/
inductive SimplePattern (lower : Str → Str) (input : Str) : PatternObj Ctx → Prop where
  | string {info id o so strings} : SimpleOpts o → (∀ s ∈ strings, s ≠ [] ∧ (so.ignoreCase = true → lower s ≠ [])) →
      SimplePattern lower input (.string info (Pattern.init id o) so strings)
  | regex {info id o rc regexes} : SimpleOpts o → o.opts.marker = false →
      (∀ re ∈ regexes, ∀ obj ∈ re.finditer input, obj.start ≤ obj.stop ∧ ∀ g ∈ obj.groups, EngineGroup g) →
      SimplePattern lower input (.regex info (Pattern.init id o) rc regexes)
  | functional {info id o fs} : SimpleOpts o →
      (∀ f ∈ fs, ∃ rs : List (FRet × (Int × Int) × MatchArgs), (f input = .seq (rs.map (fun x => x.1)) ∨ f input = .gen (rs.map (fun x => x.1))) ∧
        ∀ x ∈ rs, Describes o.opts.name.isSome x.1 x.2.1.1 x.2.1.2 x.2.2 ∧ x.2.1.1 ≤ x.2.1.2 ∧ PlainArgs x.2.2) →
      SimplePattern lower input (.functional info (Pattern.init id o) fs)

end Rebulk.Spec
