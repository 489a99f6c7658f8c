import Verif.Spec.Rebulk
import Verif.Spec.Project
/-!
# Specification of `check_keys` and of introspection
-/
namespace Rebulk.Spec
variable {Ctx : Type}

/-- A pattern is one of the parts of a chain. -/
inductive IsPart (p : PatternObj Ctx) : PartObjs Ctx → Prop where
  | head {start stop hidden rest} : IsPart p (.cons p start stop hidden rest)
  | tail {q start stop hidden rest} : IsPart p rest → IsPart p (.cons q start stop hidden rest)

/-- The names a pattern can give: those of its declared properties, its own name, the names of regex groups, and those of the parts of a chain. -/
inductive CanProduce : PatternObj Ctx → String → Prop where
  | property {p n vs} : (n, vs) ∈ p.info.properties → CanProduce p n
  | name {p n} : p.base.opts.name = some n → n ≠ "" → CanProduce p n
  | group {info p rc regexes re n} : re ∈ regexes → some n ∈ re.names → CanProduce (.regex info p rc regexes) n
  | part {info p b parts q n} : IsPart q parts → CanProduce q n → CanProduce (.chain info p b parts) n

/-- A name is declared on a rebulk or on one of its direct children. -/
def DeclaredKey (r : RebulkObj Ctx) (n : String) : Prop := ∃ x, (x = r ∨ x ∈ r.children) ∧ ∃ k, (n, k) ∈ x.keys

/-- Names and values declared, in order; the same name may be declared several times. -/
abbrev Declarations := List (Option String × List Val)

/-- What a name that is not private declares: no known value. -/
def unknownValue (p : Pattern) (n : String) : Declarations := if n ∈ p.privateNames then [] else [(some n, [.none])]

/-- The `value=` declarations: values by name, `None` or an empty name being that of the pattern; `None` values do not count. -/
def valueNames (p : Pattern) : List (Option String × Val) :=
  (p.values.filter (fun kv => decide (kv.2 ≠ Val.none))).map (fun kv => (if kv.1 = none ∨ kv.1 = some "" then p.opts.name else kv.1, kv.2))

/-- For each name, the last value given for it. -/
def lastValues (l : List (Option String × Val)) : Declarations :=
  (distinct (fun a b => decide (a = b)) (l.map Prod.fst)).map (fun n => (n, ((l.filter (fun kv => decide (kv.1 = n))).map Prod.snd).getLast?.toList))

/-- What a pattern declares when it has neither properties nor values. -/
def ownDeclarations : PatternObj Ctx → Declarations
  | .string _ p _ strings => [(p.opts.name, strings.map Val.str)]
  | .regex _ p _ regexes =>
    (match p.opts.name with | some n => if n = "" then [] else unknownValue p n | none => []) ++
    (if p.privateChildren = true then [] else regexes.flatMap (fun re => (re.names.filterMap (fun n => n)).flatMap (unknownValue p)))
  | .functional _ p _ => match p.opts.name with | some n => if n = "" then [] else unknownValue p n | none => []
  | .chain .. => []

/-- What a pattern declares: its properties, else its values, else what its kind declares. -/
def declarationsOf (p : PatternObj Ctx) : Declarations :=
  if p.info.properties ≠ [] then p.info.properties.map (fun kv => (some kv.1, kv.2))
  else if valueNames p.base ≠ [] then lastValues (valueNames p.base)
  else ownDeclarations p

/-- What a rebulk declares: its effective public non marker patterns, then its effective rules. -/
def declarationsIn (r : RebulkObj Ctx) (ctx : Ctx) : Declarations :=
  ((r.effectivePatterns ctx).filter (fun p => decide (p.base.opts.priv = false ∧ p.base.opts.marker = false))).flatMap declarationsOf ++
  (r.effectiveRules ctx).flatMap (fun x => x.properties.map (fun kv => (some kv.1, kv.2)))

/-- The values declared for a name, in order. -/
def valuesFor (D : Declarations) (n : Option String) : List Val := (D.filter (fun kv => decide (kv.1 = n))).flatMap Prod.snd

/-- A dictionary gives each declared name its distinct values: names and values in order of first declaration, each once. -/
structure Lists (D : Declarations) (d : List (Option String × List Val)) : Prop where
  names : d.map Prod.fst = distinct (fun a b => decide (a = b)) (D.map Prod.fst)
  values : ∀ n vs, (n, vs) ∈ d → vs = distinct (fun a b => decide (a = b)) (valuesFor D n)

end Rebulk.Spec
