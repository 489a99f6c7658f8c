import Verif.Model.Pattern
import Verif.Spec.Utils
import Verif.Spec.Truth
/-!
# Specification of patterns
-/
namespace Rebulk.Spec

/-- What the user declared for a key of an option (`None` is the key of a single object given for all matches). -/
def declared {α : Type} (arg : DictArg α) (key : Option String) : Option α :=
  match arg, key with
  | .absent, _ => none
  | .one a, none => some a
  | .one _, some _ => none
  | .dict d, key => d.get? key

/-- The declaration that counts for a match: the one for its name, else the one for its role, else the one for all, else the
default. -/
def chosen {α : Type} (arg : DictArg α) (default : α) (name : Option String) (child : Bool) : α :=
  let byName := match name with | some n => if n = "" then none else declared arg (some n) | none => none
  let byRole := declared arg (some (if child then "__children__" else "__parent__"))
  ((byName.or byRole).or (declared arg none)).getD default

/-- The name is a non-empty one of the list. -/
def Named (m : Match) (l : List String) : Prop := ∃ n, m.name = some n ∧ n ≠ "" ∧ n ∈ l

/-- Parents are part of the result unless only the children are asked for. -/
def ParentIncluded (o : PatternOpts) : Prop := o.children = false ∨ o.every = true
/-- Children are part of the result when asked for. -/
def ChildrenIncluded (o : PatternOpts) : Prop := o.children = true ∨ o.every = true
/-- Whether matches of this role are part of the result. -/
def Included (o : PatternOpts) (child : Bool) : Prop := if child then ChildrenIncluded o else ParentIncluded o

/-- `m'` is `m` with index, privacy, value and formatter set from the configuration, nothing else being changed. Whether the value
is really set is the subject of C48. -/
structure ConfiguredMatch (o : PatternOpts) (idx : Nat) (child : Bool) (m m' : Match) : Prop where
  index : m'.matchIndex = idx
  priv : m'.priv = true ↔ m.priv = true ∨ Named m o.privateNames ∨ (child = false ∧ o.privateParent = true) ∨
    (child = true ∧ o.privateChildren = true)
  value : IsTrue (chosen o.value .none m.name child) → m'.lit = chosen o.value .none m.name child
  noValue : ¬ IsTrue (chosen o.value .none m.name child) → m'.lit = m.lit
  formatter : Included o child ∨ o.formatAll = true → m'.formatter = chosen o.formatter (some (fun v => v)) m.name child
  noFormatter : ¬ (Included o child ∨ o.formatAll = true) → m'.formatter = m.formatter
  span : m'.span = m.span
  name : m'.name = m.name
  tags : m'.tags = m.tags
  marker : m'.marker = m.marker
  input : m'.inputString = m.inputString
  raw : m'.rawStart = m.rawStart ∧ m'.rawStop = m.rawStop
  solver : m'.solver = m.solver
  pattern : m'.pattern = m.pattern

/-- The validator for the match, if it applies, accepts it. -/
def Accepts (o : PatternOpts) (child : Bool) (t : MTree) : Prop :=
  Included o child ∨ o.validateAll = true →
    ∀ v, chosen o.validator (some (fun _ => true)) t.root.name child = some v → v t = true

/-- The children know the match as their parent. -/
def Linked (t : MTree) : Prop := ∀ c ∈ t.children, c.root.ancestors = t.root.core :: t.root.ancestors

/-- Same match, up to the knowledge of its parents. -/
def SameButLinks (m m' : Match) : Prop := { m with ancestors := [] } = { m' with ancestors := [] }

/-- `V` is `t` with its root configured as a parent; the children only learn about their new parent. -/
structure ParentConfigured (o : PatternOpts) (idx : Nat) (t V : MTree) : Prop where
  root : ConfiguredMatch o idx false t.root V.root
  rootLink : V.root.ancestors = t.root.ancestors
  count : V.children.length = t.children.length
  child : ∀ (i : Nat) c C, t.children[i]? = some c → V.children[i]? = some C → SameButLinks c.root C.root
  linked : Linked t → Linked V

/-- `T` is `V` with its direct children configured. -/
structure ChildrenConfigured (o : PatternOpts) (idx : Nat) (V T : MTree) : Prop where
  root : T.root = V.root
  count : T.children.length = V.children.length
  child : ∀ (i : Nat) c C, V.children[i]? = some c → T.children[i]? = some C →
    ConfiguredMatch o idx true c.root C.root ∧ C.root.ancestors = c.root.ancestors

/-- The match left by a processor: unchanged if there is none or it returns `None`; no match if it returns `False`. -/
inductive After (f : Option (MTree → ProcRet)) (t : MTree) : Option MTree → Prop where
  | absent : f = none → After f t (some t)
  | unchanged g : f = some g → g t = .none → After f t (some t)
  | replaced g r : f = some g → g t = .tree r → After f t (some r)
  | dropped g : f = some g → g t = .falsy → After f t none

/-- The name is not one of those to ignore. -/
def NotIgnored (o : PatternOpts) (m : Match) : Prop := ∀ n, m.name = some n → n ∉ o.ignoreNames

open Classical in
/-- What is emitted for an accepted match. -/
noncomputable def emission (o : PatternOpts) (T : MTree) : List MTree :=
  (if (ParentIncluded o ∨ o.privateParent = true) ∧ NotIgnored o T.root then [T] else []) ++
  (if ChildrenIncluded o ∨ o.privateChildren = true then T.children.filter (fun c => NotIgnored o c.root) else [])

/-- The validators accept the configured parent (which sees its children before they are configured) and every configured child. -/
def Accepted (o : PatternOpts) (V T : MTree) : Prop := Accepts o false V ∧ ∀ C ∈ T.children, Accepts o true C

/-- An option given as a single object is not `None`: giving `None` is giving nothing. -/
def Proper {α : Type} (arg : DictArg (Option α)) : Prop := ∀ a, arg = .one a → a ≠ none

end Rebulk.Spec

namespace Rebulk.Spec

/-- The match was made by the pattern on this input, from `start` to `stop`. -/
structure MadeBy (id : Nat) (o : MatchOpts) (input : Str) (start stop : Int) (m : Match) : Prop where
  span : m.span = (start, stop)
  name : m.name = o.name
  tags : m.tags = o.tags
  marker : m.marker = o.marker
  priv : m.priv = o.priv
  solver : m.solver = o.solver
  pattern : m.pattern = some id
  input : m.inputString = some input
  noParent : m.ancestors = []
  noValue : m.lit = .none
  noRaw : m.rawStart = none ∧ m.rawStop = none
  noFormatter : m.formatter = none

/-- A greedy left to right list of non-overlapping occurrences of `sub` in the window of `s`. -/
structure Occurrences (s sub : Str) (start stop : Option Int) (l : List Nat) : Prop where
  ordered : l.Pairwise (· < ·)
  exact : ∀ p, p ∈ l ↔ OccursIn s sub start stop p ∧ ∀ q ∈ l, ¬ (q < p ∧ p < q + sub.length)

/-- The spans matched by a group: none if it did not participate (`(-1, -1)`). -/
def participations (repeatedCaptures : Bool) (g : ReGroup) : List (Int × Int) :=
  if repeatedCaptures then g.spans else if g.span = (-1, -1) then [] else [g.span]

/-- What a regular expression engine reports for a group: not participating, or a span. -/
def EngineGroup (g : ReGroup) : Prop :=
  (g.span = (-1, -1) ∨ (0 ≤ g.span.1 ∧ g.span.1 ≤ g.span.2)) ∧ ∀ sp ∈ g.spans, 0 ≤ sp.1 ∧ sp.1 ≤ sp.2

/-- `(span, name)` of the children expected for a match object. -/
def expectedChildren (repeatedCaptures : Bool) (patternName : Option String) (names : List (Option String)) (groups : List ReGroup) :
    List ((Int × Int) × Option String) :=
  (names.zip groups).flatMap (fun ng =>
    ((participations repeatedCaptures ng.2).filter (fun sp => decide (sp.1 ≠ sp.2))).map (fun sp => (sp, ng.1.or patternName)))

/-- What C43 says of one match object and the match made of it. -/
structure RegexMatch (id : Nat) (o : MatchOpts) (rc : Bool) (names : List (Option String)) (input : Str) (obj : ReObj) (t : MTree) : Prop where
  main : MadeBy id o input obj.start obj.stop t.root
  children : t.children.map (fun c => (c.root.span, c.root.name)) = expectedChildren rc o.name names obj.groups
  parent : Linked t
  child : ∀ c ∈ t.children, c.children = [] ∧ c.root.tags = o.tags ∧ c.root.priv = o.priv ∧ c.root.solver = o.solver ∧ c.root.marker = false ∧
    c.root.pattern = some id ∧ c.root.inputString = some input ∧ c.root.lit = .none ∧ c.root.rawStart = none ∧ c.root.rawStop = none

/-- A position given in a tuple: an `int`, which `True` and `False` are too. -/
inductive IsPos : FRet → Int → Prop where
  | int (i : Int) : IsPos (.val (.int i)) i
  | true_ : IsPos (.val (.bool true)) 1
  | false_ : IsPos (.val (.bool false)) 0

/-- A value given in a tuple. -/
inductive IsValue : FRet → Val → Prop where
  | val (v : Val) : IsValue (.val v) v
  | none : IsValue .none .none

/-- A name given in a tuple. -/
inductive IsName : FRet → Option String → Prop where
  | str (n : String) : IsName (.val (.str n.toList)) (some n)
  | none : IsName .none Option.none

/-- One result of a functional pattern stands for a match from `s` to `e` with explicit options: a dict, or a tuple of the first arguments
of `Match` (start, end, value, name), maybe followed by a dict of the other ones. `named` says whether the pattern has a name, which
excludes a positional one. -/
inductive Describes (named : Bool) : FRet → Int → Int → MatchArgs → Prop where
  | dict (d : MatchArgs) {s e : Int} : d.start = some s → d.stop = some e → Describes named (.dict d) s e d
  | span {p q : FRet} {s e : Int} : IsPos p s → IsPos q e → Describes named (.seq [p, q]) s e {}
  | spanValue {p q r : FRet} {s e : Int} {v : Val} : IsPos p s → IsPos q e → IsValue r v → Describes named (.seq [p, q, r]) s e { value := some v }
  | spanName {p q r u : FRet} {s e : Int} {v : Val} {n : Option String} : named = false → IsPos p s → IsPos q e → IsValue r v → IsName u n →
      Describes named (.seq [p, q, r, u]) s e { value := some v, name := some n }
  | startOpts {p : FRet} {s e : Int} (d : MatchArgs) : IsPos p s → d.start = none → d.stop = some e → Describes named (.seq [p, .dict d]) s e d
  | spanOpts {p q : FRet} {s e : Int} (d : MatchArgs) : IsPos p s → IsPos q e → d.start = none → d.stop = none →
      Describes named (.seq [p, q, .dict d]) s e d
  | valueOpts {p q r : FRet} {s e : Int} {v : Val} (d : MatchArgs) : IsPos p s → IsPos q e → IsValue r v → d.start = none → d.stop = none → d.value = none →
      Describes named (.seq [p, q, r, .dict d]) s e { d with value := some v }
  | nameOpts {p q r u : FRet} {s e : Int} {v : Val} {n : Option String} (d : MatchArgs) : named = false → IsPos p s → IsPos q e → IsValue r v → IsName u n →
      d.start = none → d.stop = none → d.value = none → d.name = none →
      Describes named (.seq [p, q, r, u, .dict d]) s e { d with value := some v, name := some n }

/-- Results that stand for no match: Python raises the exception given. -/
inductive Refused (named : Bool) : FRet → PyErr → Prop where
  | scalar (v : Val) : IsTrue v → Refused named (.val v) .typeError
  | empty : Refused named (.seq []) .indexError
  | noStart (d : MatchArgs) : d.start = none → Refused named (.dict d) .typeError
  | noStop (d : MatchArgs) : d.stop = none → Refused named (.dict d) .typeError
  | startOnly {p : FRet} {s : Int} : IsPos p s → Refused named (.seq [p]) .typeError
  | startTwice {p : FRet} {s : Int} {l : List FRet} (d : MatchArgs) : IsPos p s → d.start ≠ none → Refused named (.seq (p :: l ++ [.dict d])) .typeError
  | nameTwice {p q r u : FRet} {s e : Int} {v : Val} {n : Option String} : named = true → IsPos p s → IsPos q e → IsValue r v → IsName u n →
      Refused named (.seq [p, q, r, u]) .typeError

/-- The match described by explicit options: those given, else those of the pattern. -/
structure MadeWith (id : Nat) (o : MatchOpts) (input : Str) (s e : Int) (a : MatchArgs) (m : Match) : Prop where
  span : m.span = (s, e)
  name : m.name = a.name.getD o.name
  tags : m.tags = a.tags.getD o.tags
  marker : m.marker = a.marker.getD o.marker
  priv : m.priv = a.priv.getD o.priv
  value : m.lit = a.value.getD .none
  formatter : m.formatter = a.formatter.getD none
  solver : m.solver = a.solver.getD o.solver
  pattern : m.pattern = some id
  input : m.inputString = some input
  noParent : m.ancestors = []
  noRaw : m.rawStart = none ∧ m.rawStop = none

end Rebulk.Spec
